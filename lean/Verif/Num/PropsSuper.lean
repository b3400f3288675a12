import Verif.Num.LemSuperCore
import Verif.Num.PropsConverge
import Verif.Num.PropsOrder
import Mathlib.Analysis.SpecialFunctions.Trigonometric.DerivHyp

/-!
# Property C91: order of the collocation method at the grid points for nonlinear models
-/

open Polynomial Set

namespace CE

/-- The right-hand side is differentiable in the state along the solution `y`, with the Jacobian `J n i l τ` on the interval `n` and a
quadratic bound of the remainder. -/
structure LinearizedOde (d : DaeObj ℝ) (ode : MXExpr ℝ) (tdp_fun : Option (ℝ → Mat ℝ)) (t : List ℝ) (u : ℕ → ℕ → ℝ) (p : ℕ → ℝ)
    (y : ℕ → ℝ → ℝ) (J : ℕ → ℕ → ℕ → ℝ → ℝ) (C₂ : ℝ) : Prop where
  nonneg : 0 ≤ C₂
  expand : ∀ n < t.length - 1, ∀ τ ∈ Icc (nd t n) (nd t (n + 1)), ∀ e e' : Env ℝ, InputsAt d tdp_fun u p n τ e → InputsAt d tdp_fun u p n τ e' →
    (∀ i < d.nx, d.x.val e' i 0 = y i τ) → ∀ δ, (∀ i < d.nx, |d.x.val e i 0 - y i τ| ≤ δ) → ∀ i < d.nx,
      |ode.val e i 0 - ode.val e' i 0 - ∑ l ∈ Finset.range d.nx, J n i l τ * (d.x.val e l 0 - y l τ)| ≤ C₂ * δ ^ 2

/-- **C91** (largest order) Distinct or not, no nodes have an order greater than twice their number. -/
theorem C91_order_le (tau : List ℝ) (m : ℕ) (hm : NodesOrder tau m) : m ≤ tau.length := by
  by_contra hlt
  have hlt : tau.length < m := not_le.mp hlt
  set w := (tau.map fun c => X - C c).prod with hw
  have hmonic : w.Monic := monic_nodes tau
  have hdeg : w.natDegree = tau.length := nodes_natDegree tau
  obtain ⟨P, hP⟩ := exists_antiderivative (w * w)
  have h1 := hm w P (by rw [degree_eq_natDegree hmonic.ne_zero, hdeg]; exact_mod_cast hlt) hP
  have hmono : Monotone fun x => P.eval x := by
    refine monotone_of_deriv_nonneg P.differentiable fun x => ?_
    rw [Polynomial.deriv, hP, eval_mul]
    exact mul_self_nonneg _
  have hconst : ∀ x ∈ Icc (0 : ℝ) 1, (P - C (P.eval 0)).eval x = 0 := by
    intro x hx
    have l1 := hmono hx.1
    have l2 := hmono hx.2
    simp only at l1 l2
    rw [eval_sub, eval_C]
    linarith
  have hP0 : P - C (P.eval 0) = 0 := eq_zero_of_infinite_isRoot _ ((Icc_infinite zero_lt_one).mono hconst)
  have h2 : derivative P = 0 := by rw [sub_eq_zero.mp hP0, derivative_C]
  rw [hP] at h2
  exact hmonic.ne_zero (mul_self_eq_zero.mp h2)

section
variable (fresh freshI : String → ℕ) (casadiPoints : ℕ → String → Except PyErr (List ℝ))
    (csFunction : List (MXExpr ℝ) → List (MXExpr ℝ) → Except PyErr (CsFn ℝ))
    (dae : DaeObj ℝ) (t : List ℝ) (order : ℕ) (method : String) (tdp_fun : Option (ℝ → Mat ℝ))
    (d : DaeObj ℝ) (xdot res : MXExpr ℝ) (tau : List ℝ) (F : CsFn ℝ) (rep : Bool) (s : Scheme ℝ)

/-- **C91** (superconvergence) For a nonlinear ordinary differential equation and nodes whose quadrature formula has the order
`len(tau) + m` with `m >= 1` (`m = len(tau)` for Gauss nodes, `m = len(tau) - 1` for Radau nodes), the distance of every
solution of the collocation equations from the exact solution at the grid points is bounded by an explicit constant times
`H^(len(tau) + m)`, plus the propagated error of the initial state. -/
theorem C91_superconvergence (hcs : IsCsFunction csFunction)
    (pre : SchemePre freshI casadiPoints csFunction dae t order method tdp_fun d xdot res tau F)
    (hs : Scheme.new fresh freshI casadiPoints csFunction dae t order method tdp_fun rep = .ok s)
    (hf : [fresh "x", fresh "K", fresh "u", fresh "P"].Nodup) (ode : MXExpr ℝ) (L θ : ℝ) (lip : LipschitzOde d xdot res ode L)
    (hd : tau.Nodup) (h01 : ∀ k < tau.length, nd tau k ∈ Icc (0 : ℝ) 1) (m : ℕ) (hm : NodesOrder tau m) (hm1 : 1 ≤ m)
    (T : ButcherTableau ℝ) (hT : butcherTableuForCollocationPoints tau = .ok T) (α β H : ℝ) (hH1 : H ≤ 1)
    (hα : ∀ j < s.M, ∑ k ∈ Finset.range s.M, |T.A.e [j, k]| ≤ α) (hβ : ∑ k ∈ Finset.range s.M, |T.b.e [k]| ≤ β)
    (ht : ∀ n < s.N, nd t n < nd t (n + 1) ∧ nd t (n + 1) - nd t n ≤ H) (hθ : θ < 1) (hstep : L * (H * α) ≤ θ)
    (env : Env ℝ) (heq : ∀ v ∈ s.eq.vals env, v = 0)
    (y : ℕ → ℝ → ℝ) (f : ℕ → ℕ → ℝ → ℝ)
    (ex : ExactSolution d xdot res tdp_fun t (s.u.val env) (fun i => s.p.val env i 0) y f) (B ε : ℝ)
    (hsm : ∀ n < s.N, ∀ i < d.nx, ContDiffOn ℝ (s.M + m : ℕ) (f n i) (Icc (nd t n) (nd t (n + 1))))
    (hB : ∀ n < s.N, ∀ i < d.nx, ∀ q, s.M ≤ q → q ≤ s.M + m → ∀ τ ∈ Icc (nd t n) (nd t (n + 1)),
      |iteratedDerivWithin q (f n i) (Icc (nd t n) (nd t (n + 1))) τ| ≤ B) (hB0 : 0 ≤ B)
    (J : ℕ → ℕ → ℕ → ℝ → ℝ) (C₂ Γ : ℝ) (hΓ : 1 ≤ Γ)
    (lin : LinearizedOde d ode tdp_fun t (s.u.val env) (fun i => s.p.val env i 0) y J C₂)
    (hJs : ∀ n < s.N, ∀ i < d.nx, ∀ l < d.nx, ContDiffOn ℝ (m - 1 : ℕ) (J n i l) (Icc (nd t n) (nd t (n + 1))))
    (hJ : ∀ n < s.N, ∀ i < d.nx, ∀ l < d.nx, ∀ q < m, ∀ τ ∈ Icc (nd t n) (nd t (n + 1)),
      d.nx * |iteratedDerivWithin q (J n i l) (Icc (nd t n) (nd t (n + 1))) τ| ≤ Γ)
    (hε : 0 ≤ ε) (h0 : ∀ i < d.nx, |s.x.val env i 0 - y i (nd t 0)| ≤ ε) :
    let W := m ^ 2 * Γ ^ (m + 1)
    let Q := (1 + α) * B / (1 - θ)
    let G := W * (1 + β * (1 + 2 * (L + Γ)) / (1 - θ))
    let D := W * (β * (Q + 4 * C₂ * Q ^ 2) + (1 + β) * B)
    ∀ n ≤ s.N, ∀ i < d.nx, |s.x.val env i n - y i (nd t n)| ≤
      Real.exp (G * (nd t n - nd t 0)) * (ε + (nd t n - nd t 0) * (D * H ^ (s.M + m))) := by
  intro W Q G D
  have b := pre.built hs
  have hpos := pre.pos
  have hA : ∀ i j, T.A.e [i, j] = wA tau i j := by
    intro i j
    rw [butcher_ok] at hT; cases hT
    rfl
  have hb : ∀ k < order, T.b.e [k] = wb tau k := by
    intro k hk
    rw [butcher_ok] at hT; cases hT
    simp [NdArray.vec, nd, List.getD_eq_getElem?_getD, pre.len, hk, wb]
  have hN := b.N_eq
  have hM := b.M_eq
  have hlen := pre.len
  have hms : m ≤ order := by rw [← hlen]; exact C91_order_le tau m hm
  rw [hM] at hα hβ hsm hB ⊢
  have hα' : ∀ j < tau.length, ∑ k ∈ Finset.range tau.length, |wA tau j k| ≤ α := by
    intro j hj
    rw [hlen] at hj ⊢
    simpa only [hA] using hα j hj
  have hβ' : ∑ k ∈ Finset.range tau.length, |wb tau k| ≤ β := by
    rw [hlen]
    refine le_trans (le_of_eq (Finset.sum_congr rfl fun k hk => ?_)) hβ
    rw [hb k (Finset.mem_range.mp hk)]
  have hβ0 : 0 ≤ β := (Finset.sum_nonneg fun _ _ => abs_nonneg _).trans hβ
  have hα0 : 0 ≤ α := (Finset.sum_nonneg fun _ _ => abs_nonneg _).trans (hα 0 hpos)
  have hH0 : 0 ≤ H := by
    have := ht 0 (by rw [hN]; have := pre.two; omega)
    linarith [this.1, this.2]
  have h1θ : 0 < 1 - θ := by linarith
  have hcont := ((Scheme.eq_zero_iff pre b env).mp heq).2.1
  have ht' : ∀ n < t.length - 1, nd t n ≤ nd t (n + 1) := fun n hn => (ht n (by rw [hN]; exact hn)).1.le
  rw [hN] at ht hsm hB hJs hJ ⊢
  rw [← hlen] at hms hsm hB ⊢
  refine super_core hd (by rw [hlen]; exact hpos) h01 hm1 hms (weightsExact hd hm) hα' hβ' lip.nonneg lin.nonneg hB0 hΓ hε hH0 hH1 hθ hstep
    d.nx (t.length - 1) ht ex.deriv hsm hB hJs hJ (x := fun n i => s.x.val env i n) (X' := fun n i j => s.X.val env i (n * order + j))
    (k := fun n i j => env (fresh "K") i (n * order + j)) ?_ ?_ ?_ ?_ h0
  · intro n hn i hi j hj
    rw [hlen] at hj ⊢
    rw [b.X env i n j hn hj, b.x]
    rfl
  · intro n hn i hi
    have := hcont n hn i hi
    rw [b.cont env i n hn, sub_eq_zero] at this
    rw [hlen, b.x]
    exact this.symm
  · intro n hn j hj δ hδ
    rw [hlen] at hj
    exact rate_error fresh freshI casadiPoints csFunction dae t order method tdp_fun d xdot res tau F rep s hcs pre b hf ode L lip h01 ht'
      env heq y f ex n j hn hj δ hδ
  · intro n hn j hj δ hδ i hi
    have hmem : nd t n + (nd t (n + 1) - nd t n) * nd tau j ∈ Icc (nd t n) (nd t (n + 1)) := by
      have h1 := h01 j hj
      have h2 := ht' n hn
      constructor <;> nlinarith [h1.1, h1.2]
    rw [hlen] at hj
    obtain ⟨e1, e2, i1, i2, x1, x2, k1, k2⟩ := rate_pair fresh freshI casadiPoints csFunction dae t order method tdp_fun d xdot res tau F
      rep s hcs pre b hf ode L lip h01 ht' env heq y f ex n j hn hj
    have := lin.expand n hn _ hmem e1 e2 i1 i2 x2 δ (fun i hi => by rw [x1 i hi]; exact hδ i hi) i hi
    rw [← k1 i hi, ← k2 i hi] at this
    refine le_trans (le_of_eq ?_) this
    congr 2
    exact Finset.sum_congr rfl fun l hl => by rw [x1 l (Finset.mem_range.mp hl)]

/-- **C91** (integrator) The states at the grid points that the integrator returns have the order of the quadrature formula of the
nodes. -/
theorem C91_integrator (hcs : IsCsFunction csFunction)
    (pre : SchemePre freshI casadiPoints csFunction dae t order method tdp_fun d xdot res tau F)
    (hfr : DistinctSyms fresh) (hpq : dae.np = 0 ∨ dae.nq = 0) (ode : MXExpr ℝ) (L θ : ℝ) (lip : LipschitzOde d xdot res ode L)
    (hd : tau.Nodup) (h01 : ∀ k < tau.length, nd tau k ∈ Icc (0 : ℝ) 1) (m : ℕ) (hm : NodesOrder tau m) (hm1 : 1 ≤ m)
    (T : ButcherTableau ℝ) (hT : butcherTableuForCollocationPoints tau = .ok T) (α β H : ℝ) (hH1 : H ≤ 1)
    (hα : ∀ j < order, ∑ k ∈ Finset.range order, |T.A.e [j, k]| ≤ α) (hβ : ∑ k ∈ Finset.range order, |T.b.e [k]| ≤ β)
    (ht : ∀ n < t.length - 1, nd t n < nd t (n + 1) ∧ nd t (n + 1) - nd t n ≤ H) (hθ : θ < 1) (hstep : L * (H * α) ≤ θ)
    (rootfinder : (List ℝ → List ℝ) → List ℝ → Except PyErr (List ℝ)) (hrf : IsRootfinder rootfinder) :
    ∃ int, Integrator.new fresh freshI casadiPoints csFunction dae t order method tdp_fun = .ok int ∧
      ∀ x0 z0 u p out, int.call rootfinder x0 z0 u p = .ok out →
      ∀ (y : ℕ → ℝ → ℝ) (f : ℕ → ℕ → ℝ → ℝ), ExactSolution d xdot res tdp_fun t u.e (fun i => p.e i 0) y f →
      ∀ B, 0 ≤ B → (∀ n < t.length - 1, ∀ i < d.nx, ContDiffOn ℝ (order + m : ℕ) (f n i) (Icc (nd t n) (nd t (n + 1)))) →
      (∀ n < t.length - 1, ∀ i < d.nx, ∀ q, order ≤ q → q ≤ order + m → ∀ τ ∈ Icc (nd t n) (nd t (n + 1)),
        |iteratedDerivWithin q (f n i) (Icc (nd t n) (nd t (n + 1))) τ| ≤ B) →
      ∀ (J : ℕ → ℕ → ℕ → ℝ → ℝ) (C₂ Γ : ℝ), 1 ≤ Γ → LinearizedOde d ode tdp_fun t u.e (fun i => p.e i 0) y J C₂ →
      (∀ n < t.length - 1, ∀ i < d.nx, ∀ l < d.nx, ContDiffOn ℝ (m - 1 : ℕ) (J n i l) (Icc (nd t n) (nd t (n + 1)))) →
      (∀ n < t.length - 1, ∀ i < d.nx, ∀ l < d.nx, ∀ q < m, ∀ τ ∈ Icc (nd t n) (nd t (n + 1)),
        d.nx * |iteratedDerivWithin q (J n i l) (Icc (nd t n) (nd t (n + 1))) τ| ≤ Γ) →
      ∀ ε, 0 ≤ ε → (∀ i < d.nx, |x0.e i 0 - y i (nd t 0)| ≤ ε) →
      let W := m ^ 2 * Γ ^ (m + 1)
      let Q := (1 + α) * B / (1 - θ)
      let G := W * (1 + β * (1 + 2 * (L + Γ)) / (1 - θ))
      let D := W * (β * (Q + 4 * C₂ * Q ^ 2) + (1 + β) * B)
      let bound := fun n => Real.exp (G * (nd t n - nd t 0)) * (ε + (nd t n - nd t 0) * (D * H ^ (order + m)))
      (∀ n < t.length, ∀ i < d.nx, |out.x.e i n - y i (nd t n)| ≤ bound n) ∧
      ∀ n < t.length - 1, ∀ i < d.nx, |out.xf.e i n - y i (nd t (n + 1))| ≤ bound (n + 1) := by
  obtain ⟨s, x1, hs, -, hx1v, hnew⟩ := integrator_new fresh freshI casadiPoints csFunction dae t order method tdp_fun d xdot res tau F
    pre
  rw [if_neg (by omega)] at hnew
  have b := pre.built hs
  obtain ⟨px, -⟩ := makeImplicit_parts pre.impl
  have hnx : dae.nx = d.nx := by simp [DaeObj.nx, px]
  have htwo := pre.two
  refine ⟨_, hnew, ?_⟩
  intro x0 z0 u p out hout y f hex B hB0 hsm hB J C₂ Γ hΓ lin hJs hJ ε hε h0 W Q G D bound
  unfold Integrator.call at hout
  simp only [bind, Except.bind] at hout
  split at hout
  · cases hout
  rename_i sol hsol
  have hroot := (hrf _ _ _ hsol).2
  have hout := Except.ok.inj hout
  set env := Integrator.envOf fresh s sol u p with henv
  have hu : s.u.val env = u.e := by
    rw [b.u]
    show Integrator.envOf fresh s sol u p (fresh "u") = _
    unfold Integrator.envOf
    rw [if_neg hfr.xu.symm, if_neg hfr.Ku.symm, if_neg hfr.Zu.symm, if_pos rfl]
  have hp : s.p.val env = p.e := by
    rw [b.p]
    show Integrator.envOf fresh s sol u p (fresh "P") = _
    unfold Integrator.envOf
    rw [if_neg hfr.xP.symm, if_neg hfr.KP.symm, if_neg hfr.ZP.symm, if_neg hfr.uP.symm, if_pos rfl]
  have hinit : ∀ i < d.nx, s.x.val env i 0 = x0.e i 0 := by
    intro i hi
    have := hroot (x1.val env i 0 - x0.e i 0)
      (List.mem_append_right _ (List.mem_map.mpr ⟨i, List.mem_range.mpr (by omega), rfl⟩))
    rw [hx1v] at this
    exact sub_eq_zero.mp this
  have hf : [fresh "x", fresh "K", fresh "u", fresh "P"].Nodup := by
    simp [hfr.xK, hfr.xu, hfr.xP, hfr.Ku, hfr.KP, hfr.uP]
  have key := C91_superconvergence fresh freshI casadiPoints csFunction dae t order method tdp_fun d xdot res tau F false s hcs pre hs hf
    ode L θ lip hd h01 m hm hm1 T hT α β H hH1 (by rw [b.M_eq]; exact hα) (by rw [b.M_eq]; exact hβ) (by rw [b.N_eq]; exact ht) hθ hstep env
    (fun v hv => hroot v (List.mem_append_left _ hv)) y f (by rw [hu, hp]; exact hex) B ε
    (by rw [b.N_eq, b.M_eq]; exact hsm) (by rw [b.N_eq, b.M_eq]; exact hB) hB0 J C₂ Γ hΓ (by rw [hu, hp]; exact lin)
    (by rw [b.N_eq]; exact hJs) (by rw [b.N_eq]; exact hJ) hε (fun i hi => by rw [hinit i hi]; exact h0 i hi)
  rw [b.N_eq, b.M_eq] at key
  rw [← hout]
  exact ⟨fun n hn i hi => key n (by omega) i hi, fun n hn i hi => key (n + 1) (by omega) i hi⟩

end

/-! ## Non-vacuity: `x' = sqrt(1 + x^2)` with the two Gauss nodes -/

/-- The model. -/
noncomputable def sinhO : DaeObj ℝ :=
  ⟨.sym 0 1, .sym 1 0, .sym 2 0, .sym 3 0, .sym 4 1, ⟨1, 1, false, fun env _ _ => env 0 0 0⟩, .sym 5 0,
    .semi ⟨1, 1, false, fun env _ _ => √(1 + env 0 0 0 ^ 2)⟩ ⟨0, 1, false, fun _ _ _ => 0⟩⟩

/-- Its residual. -/
noncomputable def sinhRes (freshI : String → ℕ) : MXExpr ℝ :=
  ⟨1, 1, false, fun env i j => if i < 1 then env (freshI "xdot") i j - √(1 + env 0 0 0 ^ 2) else 0⟩

/-- Its implicit form. -/
noncomputable def sinhD (freshI : String → ℕ) : DaeObj ℝ :=
  ⟨.sym 0 1, .sym 1 0, .sym 2 0, .sym 3 0, .sym 4 1, ⟨1, 1, false, fun env _ _ => env 0 0 0⟩, .sym 5 0, .implicit (.sym (freshI "xdot") 1) (sinhRes freshI)⟩

theorem sinh_pre (freshI : String → ℕ) (hI : 7 ≤ freshI "xdot") (t tau : List ℝ) (two : 2 ≤ t.length) (pos : 0 < tau.length) :
    ∃ F : CsFn ℝ, SchemePre freshI (fun _ _ => .ok tau) idealCsFunction sinhO t tau.length "legendre" none (sinhD freshI)
        (.sym (freshI "xdot") 1) (sinhRes freshI) tau F := by
  have hfun := isFunctionOf_syms (K := ℝ) [(freshI "xdot", 1, 1), (0, 1, 1), (1, 0, 1), (2, 0, 1), (3, 0, 1), (4, 1, 1), (5, 0, 1)]
    (by simp; omega) [sinhRes freshI, ⟨1, 1, false, fun env _ _ => env 0 0 0⟩] (by
      intro o ho env1 env2 h
      simp only [List.mem_cons, List.not_mem_nil, or_false, forall_eq_or_imp, forall_eq] at h ho
      have h0 := h.2.1 0 (by omega) 0 (by omega)
      rcases ho with rfl | rfl
      · refine ⟨rfl, rfl, ?_⟩
        intro i hi j hj
        have hx := h.1 i hi j hj
        simp only [sinhRes, MXExpr.at', h0, hx]
      · exact ⟨rfl, rfl, fun i _ j _ => h0⟩)
  have hF : ∃ F, idealCsFunction [MXExpr.sym (freshI "xdot") 1, .sym 0 1, .sym 1 0, .sym 2 0, .sym 3 0, .sym 4 1, .sym 5 0]
      [sinhRes freshI, ⟨1, 1, false, fun env _ _ => env 0 0 0⟩] = .ok F := by
    unfold idealCsFunction
    rw [dif_pos ⟨_, hfun⟩]
    exact ⟨_, rfl⟩
  obtain ⟨F, hF⟩ := hF
  exact ⟨F, rfl, ⟨rfl, rfl, rfl, rfl, ⟨rfl, rfl⟩, rfl, rfl, rfl, rfl⟩, rfl, rfl, two, pos, rfl, rfl, ⟨rfl, rfl⟩, hF⟩

theorem sqrt_lipschitz (a b : ℝ) : |√(1 + a ^ 2) - √(1 + b ^ 2)| ≤ |a - b| := by
  have ha : 0 ≤ 1 + a ^ 2 := by positivity
  have hb : 0 ≤ 1 + b ^ 2 := by positivity
  have A2 := Real.sq_sqrt ha
  have B2 := Real.sq_sqrt hb
  have A0 := Real.sqrt_nonneg (1 + a ^ 2)
  have B0 := Real.sqrt_nonneg (1 + b ^ 2)
  rw [← sq_le_sq]
  have : (1 + a * b) ≤ √(1 + a ^ 2) * √(1 + b ^ 2) := by
    refine le_of_sq_le_sq ?_ (by positivity) 
    rw [mul_pow, A2, B2]
    nlinarith [sq_nonneg (a - b)]
  nlinarith

theorem sqrt_expand (a b δ : ℝ) (h : |a - b| ≤ δ) : |√(1 + a ^ 2) - √(1 + b ^ 2) - b / √(1 + b ^ 2) * (a - b)| ≤ 1 / 2 * δ ^ 2 := by
  have ha : 0 ≤ 1 + a ^ 2 := by positivity
  have hb : 0 ≤ 1 + b ^ 2 := by positivity
  have A2 := Real.sq_sqrt ha
  have B2 := Real.sq_sqrt hb
  have A0 := Real.sqrt_nonneg (1 + a ^ 2)
  have B1 : 1 ≤ √(1 + b ^ 2) := Real.one_le_sqrt.mpr (by nlinarith [sq_nonneg b])
  set A := √(1 + a ^ 2)
  set B := √(1 + b ^ 2)
  have B0 : 0 < B := by linarith
  have hAB : (1 + a * b) ≤ A * B := by
    refine le_of_sq_le_sq ?_ (by positivity) 
    rw [mul_pow, A2, B2]
    nlinarith [sq_nonneg (a - b)]
  have e1 : A - B - b / B * (a - b) = (A * B - (1 + a * b)) / B := by
    field_simp
    nlinarith
  rw [e1, abs_of_nonneg (div_nonneg (by linarith) B0.le)]
  have e2 : (a - b) ^ 2 ≤ δ ^ 2 := by
    rw [← sq_abs]
    exact pow_le_pow_left₀ (abs_nonneg _) h 2
  refine (div_le_self (by linarith) B1).trans ?_
  nlinarith [sq_nonneg (A - B)]

theorem sinh_lipschitz (freshI : String → ℕ) : LipschitzOde (sinhD freshI) (.sym (freshI "xdot") 1) (sinhRes freshI)
    ⟨1, 1, false, fun env _ _ => √(1 + env 0 0 0 ^ 2)⟩ 1 := by
  refine ⟨rfl, ?_, zero_le_one, ?_⟩
  · intro e
    constructor
    · intro h i hi
      change i < 1 at hi
      have hi : i = 0 := by omega
      subst hi
      have := h 0 Nat.one_pos 0 Nat.one_pos
      simp only [sinhRes, Nat.zero_lt_one, if_true] at this
      exact sub_eq_zero.mp this
    · intro h i hi j hj
      change i < 1 at hi
      change j < 1 at hj
      have hi : i = 0 := by omega
      have hj : j = 0 := by omega
      subst hi hj
      have := h 0 Nat.one_pos
      simp only [sinhRes, Nat.zero_lt_one, if_true]
      exact sub_eq_zero.mpr this
  · intro e e' _ _ _ _ δ hδ i _
    have := hδ 0 Nat.one_pos
    show |√(1 + e 0 0 0 ^ 2) - √(1 + e' 0 0 0 ^ 2)| ≤ 1 * δ
    rw [one_mul]
    exact (sqrt_lipschitz _ _).trans this

/-- The two Gauss nodes. -/
noncomputable def gaussTwo : List ℝ := [(3 - √3) / 6, (3 + √3) / 6]

theorem sqrt_three : √3 ^ 2 = (3 : ℝ) ∧ 1 < √3 ∧ √3 < (2 : ℝ) := by
  refine ⟨Real.sq_sqrt (by norm_num), ?_, ?_⟩
  · rw [Real.lt_sqrt (by norm_num)]; norm_num
  · rw [Real.sqrt_lt' (by norm_num)]; norm_num

theorem gaussTwo_nodup : gaussTwo.Nodup := by
  have := sqrt_three.2.1
  simp only [gaussTwo, List.nodup_cons, List.mem_singleton, List.not_mem_nil, not_false_eq_true, List.nodup_nil, and_true]
  intro h
  linarith

/-- They have the order 4. -/
theorem gaussTwo_order : NodesOrder gaussTwo 2 := by
  intro q P hq hP
  obtain ⟨r2, -, -⟩ := sqrt_three
  have hq1 : q = C (q.coeff 1) * X + C (q.coeff 0) := eq_X_add_C_of_degree_le_one (by
    refine (degree_le_iff_coeff_zero _ _).mpr fun k hk => coeff_eq_zero_of_degree_lt (hq.trans_le ?_)
    exact_mod_cast Nat.succ_le_of_lt (by exact_mod_cast hk : 1 < k))
  set a := q.coeff 0
  set b := q.coeff 1
  have hw : (gaussTwo.map fun c => X - C c).prod = X ^ 2 - X + C (1 / 6) := by
    simp only [gaussTwo, List.map_cons, List.map_nil, List.prod_cons, List.prod_nil, mul_one]
    have e1 : (C ((3 - √3) / 6) : ℝ[X]) + C ((3 + √3) / 6) = 1 := by rw [← C_add, ← C_1]; congr 1; ring
    have e2 : (C ((3 - √3) / 6) : ℝ[X]) * C ((3 + √3) / 6) = C (1 / 6) := by rw [← C_mul]; congr 1; nlinarith
    linear_combination (-X) * e1 + e2
  have h1 : derivative P = derivative (C (b / 4) * X ^ 4 + C ((a - b) / 3) * X ^ 3 + C ((b / 6 - a) / 2) * X ^ 2 + C (a / 6) * X) := by
    rw [hP, hw, hq1]
    simp only [derivative_add, derivative_C_mul, derivative_X_pow, derivative_X]
    have c1 : (C (b / 4) : ℝ[X]) * (C ((4 : ℕ) : ℝ) * X ^ (4 - 1)) = C b * X ^ 3 := by
      rw [← mul_assoc, ← C_mul]; congr 2; push_cast; ring
    have c2 : (C ((a - b) / 3) : ℝ[X]) * (C ((3 : ℕ) : ℝ) * X ^ (3 - 1)) = (C a - C b) * X ^ 2 := by
      rw [← mul_assoc, ← C_mul, ← C_sub]; congr 2; push_cast; ring
    have c3 : (C ((b / 6 - a) / 2) : ℝ[X]) * (C ((2 : ℕ) : ℝ) * X ^ (2 - 1)) = (C (1 / 6) * C b - C a) * X := by
      rw [← mul_assoc, ← C_mul, ← C_mul, ← C_sub, pow_one]; congr 2; push_cast; ring
    have c4 : (C (a / 6) : ℝ[X]) * 1 = C (1 / 6) * C a := by rw [← C_mul, mul_one]; congr 1; ring
    rw [c1, c2, c3, c4]
    ring
  rw [antiderivative_diff h1]
  simp
  ring

/-- The tableau of the two Gauss nodes. -/
theorem gaussTwo_tableau : ∃ T, butcherTableuForCollocationPoints gaussTwo = .ok T ∧
    T.A.e [0, 0] = 1 / 4 ∧ T.A.e [0, 1] = 1 / 4 - √3 / 6 ∧ T.A.e [1, 0] = 1 / 4 + √3 / 6 ∧ T.A.e [1, 1] = 1 / 4 ∧
    T.b.e [0] = 1 / 2 ∧ T.b.e [1] = 1 / 2 := by
  obtain ⟨T, hT, -, -, -, -, h⟩ := C08_butcher_exact gaussTwo gaussTwo_nodup
  obtain ⟨r2, r1, -⟩ := sqrt_three
  have hlen : gaussTwo.length = 2 := rfl
  have n0 : nd gaussTwo 0 = (3 - √3) / 6 := rfl
  have n1 : nd gaussTwo 1 = (3 + √3) / 6 := rfl
  obtain ⟨a1, b1⟩ := h 1 X (by rw [hlen, degree_one]; exact_mod_cast Nat.zero_lt_two) derivative_X
  obtain ⟨a2, b2⟩ := h X (C (1 / 2) * X ^ 2) (by rw [hlen, degree_X]; exact_mod_cast Nat.one_lt_two) (by
    rw [derivative_C_mul, derivative_X_pow, ← mul_assoc, ← C_mul]
    norm_num)
  have a10 := a1 0 (by omega)
  have a11 := a1 1 (by omega)
  have a20 := a2 0 (by omega)
  have a21 := a2 1 (by omega)
  simp only [hlen, Finset.sum_range_succ, Finset.sum_range_zero, zero_add, eval_one, mul_one, eval_X, n0, n1, eval_mul, eval_C, eval_pow,
    sub_zero] at a10 a11 a20 a21 b1 b2
  have hne : √3 ≠ 0 := by linarith
  have solve : ∀ u v c d : ℝ, u + v = c → u * ((3 - √3) / 6) + v * ((3 + √3) / 6) = d → v = (d - c * ((3 - √3) / 6)) * √3 := by
    intro u v c d e1 e2
    have : u = c - v := by linarith
    subst this
    have : v * √3 / 3 = d - c * ((3 - √3) / 6) := by rw [← e2]; ring
    rw [← this]
    linear_combination (-v / 3) * r2
  have v0 := solve _ _ _ _ a10 a20
  have v1 := solve _ _ _ _ a11 a21
  have w1 := solve _ _ _ _ b1 b2
  have r3 : √3 ^ 3 = 3 * √3 := by rw [pow_succ, r2]
  have v0' : T.A.e [0, 1] = 1 / 4 - √3 / 6 := by rw [v0]; ring_nf; rw [r2, r3]; ring
  have v1' : T.A.e [1, 1] = 1 / 4 := by rw [v1]; ring_nf; rw [r2, r3]; ring
  have w1' : T.b.e [1] = 1 / 2 := by rw [w1]; ring_nf; rw [r2]; ring
  refine ⟨T, hT, ?_, v0', ?_, v1', ?_, w1'⟩
  · rw [v0'] at a10; linarith
  · rw [v1'] at a11; linarith
  · rw [w1'] at b1; linarith

/-- `sinh` solves the model. -/
theorem sinh_exact (freshI : String → ℕ) (t : List ℝ) (u : ℕ → ℕ → ℝ) (p : ℕ → ℝ) :
    ExactSolution (sinhD freshI) (.sym (freshI "xdot") 1) (sinhRes freshI) none t u p (fun _ τ => Real.sinh τ) (fun _ _ τ => Real.cosh τ) := by
  refine ⟨fun n _ i _ τ _ => (Real.hasDerivAt_sinh τ).hasDerivWithinAt, fun n _ τ _ e hxd hx _ _ _ _ => ?_⟩
  intro i hi j hj
  change i < 1 at hi
  change j < 1 at hj
  obtain rfl : i = 0 := by omega
  obtain rfl : j = 0 := by omega
  have h1 := hxd 0 Nat.one_pos
  have h2 := hx 0 Nat.one_pos
  simp only [sinhD, MXExpr.sym] at h1 h2
  simp only [sinhRes, Nat.zero_lt_one, if_true]
  rw [h1, h2, show 1 + Real.sinh τ ^ 2 = Real.cosh τ ^ 2 by rw [Real.cosh_sq]; ring, Real.sqrt_sq (Real.cosh_pos τ).le, sub_self]

theorem sinh_linearized (freshI : String → ℕ) (t : List ℝ) (u : ℕ → ℕ → ℝ) (p : ℕ → ℝ) :
    LinearizedOde (sinhD freshI) ⟨1, 1, false, fun env _ _ => √(1 + env 0 0 0 ^ 2)⟩ none t u p (fun _ τ => Real.sinh τ)
      (fun _ _ _ τ => Real.sinh τ / Real.cosh τ) (1 / 2) := by
  refine ⟨by norm_num, fun n _ τ _ e e' _ _ hx δ hδ i _ => ?_⟩
  have h1 : e' 0 0 0 = Real.sinh τ := hx 0 Nat.one_pos
  have h2 : |e 0 0 0 - Real.sinh τ| ≤ δ := hδ 0 Nat.one_pos
  have h3 := sqrt_expand (e 0 0 0) (Real.sinh τ) δ h2
  have h4 : √(1 + Real.sinh τ ^ 2) = Real.cosh τ := by
    rw [show 1 + Real.sinh τ ^ 2 = Real.cosh τ ^ 2 by rw [Real.cosh_sq]; ring, Real.sqrt_sq (Real.cosh_pos τ).le]
  show |√(1 + e 0 0 0 ^ 2) - √(1 + e' 0 0 0 ^ 2) - ∑ l ∈ Finset.range 1, Real.sinh τ / Real.cosh τ * (e 0 l 0 - Real.sinh τ)| ≤ _
  rw [Finset.sum_range_one, h1]
  rw [h4] at h3 ⊢
  exact h3

theorem cosh_le_two {τ : ℝ} (h0 : 0 ≤ τ) (h1 : τ ≤ 1) : Real.cosh τ ≤ 2 ∧ |Real.sinh τ| ≤ 2 := by
  have hc : Real.cosh τ ≤ 2 := by
    have h2 : Real.cosh τ ≤ Real.cosh 1 := by rw [Real.cosh_le_cosh, abs_of_nonneg h0, abs_one]; exact h1
    refine h2.trans ?_
    rw [Real.cosh_eq]
    have := Real.exp_one_lt_d9
    have : Real.exp (-1) ≤ 1 := Real.exp_le_one_iff.mpr (by norm_num)
    linarith
  refine ⟨hc, ?_⟩
  have h3 := Real.cosh_sq τ
  have h4 := Real.cosh_pos τ
  rw [← abs_of_pos h4] at hc
  refine le_trans ?_ hc
  rw [← sq_le_sq]
  linarith

theorem cosh_derivs {a b : ℝ} (hab : a < b) (h0 : 0 ≤ a) (h1 : b ≤ 1) (q : ℕ) (τ : ℝ) (hτ : τ ∈ Icc a b) :
    |iteratedDerivWithin q Real.cosh (Icc a b) τ| ≤ 2 := by
  rw [iteratedDerivWithin_eq_iteratedDeriv (uniqueDiffOn_Icc hab) Real.contDiff_cosh.contDiffAt hτ]
  have := cosh_le_two (h0.trans hτ.1) (hτ.2.trans h1)
  rcases Nat.even_or_odd' q with ⟨k, rfl | rfl⟩
  · rw [Real.iteratedDeriv_even_cosh, abs_of_pos (Real.cosh_pos τ)]
    exact this.1
  · rw [Real.iteratedDeriv_odd_cosh]
    exact this.2

theorem tanh_derivs {a b : ℝ} (hab : a < b) (q : ℕ) (hq : q < 2) (τ : ℝ) (hτ : τ ∈ Icc a b) :
    |iteratedDerivWithin q (fun τ => Real.sinh τ / Real.cosh τ) (Icc a b) τ| ≤ 1 := by
  have hc : ∀ τ, 0 < Real.cosh τ := Real.cosh_pos
  have hs := Real.cosh_sq τ
  obtain rfl | rfl : q = 0 ∨ q = 1 := by omega
  · rw [iteratedDerivWithin_zero, abs_div, abs_of_pos (hc τ), div_le_one (hc τ), ← abs_of_pos (hc τ), ← sq_le_sq]
    linarith
  · rw [iteratedDerivWithin_one]
    have h1 := ((Real.hasDerivAt_sinh τ).div (Real.hasDerivAt_cosh τ) (hc τ).ne').hasDerivWithinAt (s := Icc a b)
    have h2 := h1.derivWithin (uniqueDiffOn_Icc hab τ hτ)
    have h3 : derivWithin (fun τ => Real.sinh τ / Real.cosh τ) (Icc a b) τ =
        (Real.cosh τ * Real.cosh τ - Real.sinh τ * Real.sinh τ) / Real.cosh τ ^ 2 := h2
    rw [h3, show Real.cosh τ * Real.cosh τ - Real.sinh τ * Real.sinh τ = 1 by nlinarith, abs_of_nonneg (by positivity), div_le_one (by
      have := hc τ; positivity)]
    nlinarith [sq_nonneg (Real.sinh τ)]

/-- `x' = sqrt(1 + x^2)`, `x(0) = 0` with two Gauss nodes and steps of at most `H <= 1/2` on [0, 1]: the solutions of the collocation
equations exist and differ from `sinh(t)` at the grid points at most by a constant times `H^4`. -/
example (freshI : String → ℕ) (hI : 7 ≤ freshI "xdot") (t : List ℝ) (two : 2 ≤ t.length) (H : ℝ) (hH : H ≤ 1 / 2) (h0 : nd t 0 = 0)
    (hend : ∀ n < t.length, nd t n ≤ 1) (ht : ∀ n < t.length - 1, nd t n < nd t (n + 1) ∧ nd t (n + 1) - nd t n ≤ H) : ∃ s,
    Scheme.new exFresh freshI (fun _ _ => .ok gaussTwo) idealCsFunction sinhO t 2 "legendre" none = .ok s ∧ s.N = t.length - 1 ∧
    (∃ env, (∀ v ∈ s.eq.vals env, v = 0) ∧ s.x.val env 0 0 = 0) ∧
    ∀ env, (∀ v ∈ s.eq.vals env, v = 0) → s.x.val env 0 0 = 0 → ∀ n ≤ s.N,
      |s.x.val env 0 n - Real.sinh (nd t n)| ≤ Real.exp (44 * nd t n) * (nd t n * (560 * H ^ 4)) := by
  obtain ⟨F, pre⟩ := sinh_pre freshI hI t gaussTwo two (by simp [gaussTwo])
  obtain ⟨s, hs⟩ := C26_constructed exFresh freshI _ _ _ _ _ _ _ _ _ _ _ _ false pre
  have b := pre.built hs
  have hN : s.N = t.length - 1 := b.N_eq
  have hM : s.M = 2 := b.M_eq
  obtain ⟨T, hT, A00, A01, A10, A11, b0, b1⟩ := gaussTwo_tableau
  obtain ⟨-, r1, r2⟩ := sqrt_three
  have hf : [exFresh "x", exFresh "K", exFresh "u", exFresh "P"].Nodup := by decide
  have hpos : ∀ n ≤ s.N, 0 ≤ nd t n := by
    intro n
    induction n with
    | zero => intro _; exact h0.ge
    | succ n ih => intro hn; exact (ih (by omega)).trans (ht n (by omega)).1.le
  have hα : ∀ j < s.M, ∑ k ∈ Finset.range s.M, |T.A.e [j, k]| ≤ 1 := by
    intro j hj
    rw [hM] at hj ⊢
    rw [Finset.sum_range_succ, Finset.sum_range_one]
    obtain rfl | rfl : j = 0 ∨ j = 1 := by omega
    · rw [A00, A01, abs_of_pos (by norm_num : (0 : ℝ) < 1 / 4)]
      have : |1 / 4 - √3 / 6| ≤ 3 / 4 := by rw [abs_le]; constructor <;> linarith
      linarith
    · rw [A10, A11, abs_of_pos (by norm_num : (0 : ℝ) < 1 / 4), abs_of_pos (by linarith)]
      linarith
  have hβ : ∑ k ∈ Finset.range s.M, |T.b.e [k]| ≤ 1 := by
    rw [hM, Finset.sum_range_succ, Finset.sum_range_one, b0, b1]
    norm_num
  have h01 : ∀ k < gaussTwo.length, nd gaussTwo k ∈ Icc (0 : ℝ) 1 := by
    intro k hk
    change k < 2 at hk
    obtain rfl | rfl : k = 0 ∨ k = 1 := by omega
    · show (3 - √3) / 6 ∈ Icc (0 : ℝ) 1
      constructor <;> linarith
    · show (3 + √3) / 6 ∈ Icc (0 : ℝ) 1
      constructor <;> linarith
  refine ⟨s, hs, hN, ?_, fun env heq hx n hn => ?_⟩
  · obtain ⟨env, heq, hx, -, -⟩ := C78_exists exFresh freshI _ _ _ _ _ _ _ _ _ _ _ _ false s idealCsFunction_spec pre hs hf _ 1 (1 / 2)
      (sinh_lipschitz freshI) (by norm_num) T hT (fun n hn j hj => by
        have h1 := hα j hj
        have h2 := ht n (by omega)
        rw [one_mul, abs_of_pos (by linarith)]
        calc _ ≤ (1 / 2 : ℝ) * 1 := mul_le_mul (by linarith) h1 (Finset.sum_nonneg fun _ _ => abs_nonneg _) (by norm_num)
          _ = 1 / 2 := mul_one _) (fun _ _ _ => 0) (fun h => by cases h) (fun _ => 0)
    exact ⟨env, heq, hx 0⟩
  · have key := C91_superconvergence exFresh freshI _ _ _ _ _ _ _ _ _ _ _ _ false s idealCsFunction_spec pre hs hf _ 1 (1 / 2)
      (sinh_lipschitz freshI) gaussTwo_nodup h01 2 gaussTwo_order (by norm_num) T hT 1 1 H (by linarith) hα hβ
      (fun n hn => ht n (by omega)) (by norm_num) (by linarith) env heq _ _ (sinh_exact freshI t (s.u.val env) (fun i => s.p.val env i 0)) 2 0
      (fun n hn i _ => Real.contDiff_cosh.contDiffOn)
      (fun n hn i _ q _ _ τ hτ => cosh_derivs (ht n (by omega)).1 (hpos n hn.le) (hend _ (by omega)) q τ hτ) (by norm_num)
      _ (1 / 2) 1 le_rfl (sinh_linearized freshI t (s.u.val env) (fun i => s.p.val env i 0))
      (fun n hn i _ l _ => (Real.contDiff_sinh.div Real.contDiff_cosh fun τ => (Real.cosh_pos τ).ne').contDiffOn)
      (fun n hn i _ l _ q hq τ hτ => by
        have := tanh_derivs (ht n (by omega)).1 q hq τ hτ
        show ((1 : ℕ) : ℝ) * _ ≤ 1
        rw [Nat.cast_one, one_mul]
        exact this) le_rfl (by
        intro i hi
        obtain rfl : i = 0 := by change i < 1 at hi; omega
        rw [hx, h0]
        simp) n hn 0 Nat.one_pos
    refine key.trans (le_of_eq ?_)
    rw [h0, hM]
    norm_num

end CE
