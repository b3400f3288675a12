import Verif.Num.PropsFloatQuad
import Verif.Num.PropsContract2

/-!
# Property C119: quadratures of contractive models when the equations are solved up to a tolerance

Gauss or Radau nodes, contractive ordinary differential equations, steps of any length.
-/

open Polynomial Set

namespace CE

/-- **C119** (contractive models) Gauss or Radau nodes and a positive definite form determine a constant such that for every ordinary differential
equation that is contractive with respect to the form, every Lipschitz continuous quadrature expression and every increasing grid: the
quadratures of an assignment that solves the equations up to `tol` differ from the exact integrals along an exact solution at most by the
constant times `t - t0` times `Lq*(e0 + B*(T-t0)*H^M + B*H^(M+1) + (T-t0+N)*tol) + Bq*H^M`, with the last grid point `T`. -/
theorem C119_contractive (tau : List ℝ) (hnode : IsGauss tau ∨ IsRadau tau) (S : ℕ → ℕ → ℝ) (m : ℕ) (hpd : PosDefForm S m) :
    ∃ C ≥ 0, ∀ (fresh freshI : String → ℕ) (casadiPoints : ℕ → String → Except PyErr (List ℝ))
      (csFunction : List (MXExpr ℝ) → List (MXExpr ℝ) → Except PyErr (CsFn ℝ))
      (dae : DaeObj ℝ) (t : List ℝ) (order : ℕ) (method : String) (tdp_fun : Option (ℝ → Mat ℝ))
      (d : DaeObj ℝ) (xdot res ode : MXExpr ℝ) (F : CsFn ℝ) (rep : Bool) (s : Scheme ℝ), IsCsFunction csFunction →
      SchemePre freshI casadiPoints csFunction dae t order method tdp_fun d xdot res tau F →
      Scheme.new fresh freshI casadiPoints csFunction dae t order method tdp_fun rep = .ok s →
      [fresh "x", fresh "K", fresh "Z", fresh "u", fresh "P"].Nodup →
      d.nx = m → d.nz = 0 → ContractiveOde d xdot res ode S → LocLipschitzDae d xdot res →
      ∀ Lq Lqz, 0 ≤ Lq → LipschitzQuadZ d Lq Lqz →
      ∀ H, (∀ n < s.N, nd t n < nd t (n + 1) ∧ nd t (n + 1) - nd t n ≤ H) →
      ∀ (env : Env ℝ) (tol : ℝ), 0 ≤ tol → (∀ v ∈ s.eq.vals env, |v| ≤ tol) →
      (rep = true → ∀ c < s.N * s.M, ∀ i < d.np, s.p.val env i c = s.p.val env i 0) →
      ∀ (y Y : ℕ → ℝ → ℝ) (f ζ w : ℕ → ℕ → ℝ → ℝ), ExactDae d xdot res tdp_fun t (s.u.val env) (fun i => s.p.val env i 0) y f ζ →
      ExactQuadratureZ d xdot tdp_fun t (s.u.val env) (fun i => s.p.val env i 0) y ζ Y w →
      ∀ B Bq, 0 ≤ B → 0 ≤ Bq → (∀ n < s.N, ∀ i < m, ContDiffOn ℝ s.M (f n i) (Icc (nd t n) (nd t (n + 1)))) →
      (∀ n < s.N, ∀ i < m, ∀ τ ∈ Icc (nd t n) (nd t (n + 1)), |iteratedDerivWithin s.M (f n i) (Icc (nd t n) (nd t (n + 1))) τ| ≤ B) →
      (∀ n < s.N, ∀ k < d.nq, ContDiffOn ℝ s.M (w n k) (Icc (nd t n) (nd t (n + 1)))) →
      (∀ n < s.N, ∀ k < d.nq, ∀ τ ∈ Icc (nd t n) (nd t (n + 1)), |iteratedDerivWithin s.M (w n k) (Icc (nd t n) (nd t (n + 1))) τ| ≤ Bq) →
      ∀ ε, 0 ≤ ε → (∀ i < m, |s.x.val env i 0 - y i (nd t 0)| ≤ ε) →
      ∀ n ≤ s.N, ∀ k < d.nq, |s.q.val env k n - (Y k (nd t n) - Y k (nd t 0))| ≤ C * ((nd t n - nd t 0) *
        (Lq * (ε + B * (nd t s.N - nd t 0) * H ^ s.M + B * H ^ (s.M + 1) + (nd t s.N - nd t 0 + s.N) * tol) + Bq * H ^ s.M)) := by
  obtain ⟨hd, hin01, -⟩ := C94_inside tau hnode
  have h01 : ∀ k < tau.length, nd tau k ∈ Icc (0 : ℝ) 1 := by
    intro k hk
    have := hin01 (nd tau k) (by rw [nd_eq_getElem hk]; exact List.getElem_mem hk)
    exact ⟨this.1.le, this.2⟩
  obtain ⟨C₁, hC₁, h96⟩ := C96_components tau hnode S m hpd
  obtain ⟨C₂, hC₂, h97⟩ := C97_contractive tau hnode S m hpd
  obtain ⟨c', hc', hmin⟩ := max_le_qnorm S m hpd
  obtain ⟨T, hT⟩ : ∃ T : ButcherTableau ℝ, butcherTableuForCollocationPoints tau = .ok T := ⟨_, butcher_ok tau⟩
  set β := ∑ k ∈ Finset.range tau.length, |T.b.e [k]| with hβ
  have hβ0 : 0 ≤ β := Finset.sum_nonneg fun _ _ => abs_nonneg _
  refine ⟨β * (C₁ + c' * C₂) + (1 + β), by positivity, fun fresh freshI casadiPoints csFunction dae t order method tdp_fun d xdot res ode F rep s
    hcs pre hs hf hm hz con lip Lq Lqz hLq lq H ht env tol htol heq hrep y Y f ζ w hex hexq B Bq hB0 hBq0 hsm hB hsmq hBq ε hε h0 => ?_⟩
  have b := pre.built hs
  have hN := b.N_eq
  have hM := b.M_eq
  have hlen := pre.len
  have htwo := pre.two
  have hpos := pre.pos
  have hN1 : 0 < s.N := by omega
  have law := con.contractive' pre.wf.res_cols
  have ht' : ∀ n < s.N, nd t n ≤ nd t (n + 1) ∧ nd t (n + 1) - nd t n ≤ H := fun n hn => ⟨(ht n hn).1.le, (ht n hn).2⟩
  have hH : 0 ≤ H := by
    have := ht 0 hN1
    linarith [this.1, this.2]
  have hmono : ∀ n ≤ s.N, 0 ≤ nd t n - nd t 0 := by
    intro n
    induction n with
    | zero => intro _; simp
    | succ n ih =>
      intro hn
      have := (ht n hn).1
      have := ih (by omega)
      linarith
  have hmono' : ∀ n ≤ s.N, nd t n ≤ nd t s.N := by
    intro n hn
    induction hn using Nat.decreasingInduction with
    | self => exact le_rfl
    | of_succ k hk ih => exact (ht k hk).1.le.trans ih
  -- the exact solution of the equations from the same initial state
  obtain ⟨env', heq', hx', hu', hp'⟩ := C98_exists fresh freshI casadiPoints csFunction dae t order method tdp_fun d xdot res tau F rep s
    hcs pre hs hf lip hnode S (hm ▸ hpd) law (fun n hn => (ht n hn).1) env hrep (fun i => s.x.val env i 0)
  have hu'' : s.u.val env' = s.u.val env := by
    funext i n
    exact hu' i n
  have hp'' : s.p.val env' = s.p.val env := by
    funext i n
    exact hp' i n
  obtain ⟨-, a2⟩ := h97 fresh freshI casadiPoints csFunction dae t order method tdp_fun d xdot res ode F rep s hcs pre hs hm con
    (fun n hn => (ht n hn).1) env env' tol 0 htol le_rfl heq
    (fun v hv => by rw [heq' v hv, abs_zero]) (fun n _ i _ => (hu' i n).symm) (fun n _ i _ => (hp' i n).symm)
  obtain ⟨-, c2⟩ := h96 fresh freshI casadiPoints csFunction dae t order method tdp_fun d xdot res F rep s hcs pre hs hf hm law H
    ht env' heq' y f ζ (by rw [hu'', hp'']; exact hex) B hB0 hsm hB ε hε (fun i hi => by rw [hx' i]; exact h0 i hi)
  have hq0 : qnorm S m (fun i => s.x.val env i 0 - s.x.val env' i 0) = 0 := by
    have : (fun i => s.x.val env i 0 - s.x.val env' i 0) = fun _ => 0 := by
      funext i
      rw [hx' i, sub_self]
    rw [this]
    simp [qnorm, qform]
  rw [hq0, add_zero] at a2
  set P := (nd t s.N - nd t 0 + s.N) * tol with hP
  have hP0 : 0 ≤ P := by
    have := hmono s.N le_rfl
    positivity
  set E := ε + B * (nd t s.N - nd t 0) * H ^ s.M + B * H ^ (s.M + 1) with hE
  have hE0 : 0 ≤ E := by
    have := hmono s.N le_rfl
    positivity
  have hbsum : ∑ k ∈ Finset.range s.M, |T.b.e [k]| ≤ β := by rw [hM, ← hlen]
  have sens := C119_sensitivity fresh freshI casadiPoints csFunction dae t order method tdp_fun d xdot res tau F rep s hcs pre hs Lq Lqz lq T hT
    (∑ j ∈ Finset.range s.M, ∑ k ∈ Finset.range s.M, |T.A.e [j, k]|) β H
    (fun j hj => Finset.single_le_sum (f := fun j => ∑ k ∈ Finset.range s.M, |T.A.e [j, k]|)
      (fun _ _ => Finset.sum_nonneg fun _ _ => abs_nonneg _) (Finset.mem_range.mpr hj)) hbsum ht' env env'
    (fun n _ i _ => (hu' i n).symm) (fun n _ i _ => (hp' i n).symm) (c' * (C₂ * P)) 0 (by rw [mul_zero, add_zero]; positivity) (fun c hc i hi => by
      have hMp : 0 < s.M := by omega
      obtain ⟨n, j, hn, hj, rfl⟩ : ∃ n j, n < s.N ∧ j < s.M ∧ c = n * s.M + j :=
        ⟨c / s.M, c % s.M, Nat.div_lt_of_lt_mul (by rw [Nat.mul_comm]; exact hc), Nat.mod_lt _ hMp, (Nat.div_add_mod' c s.M).symm⟩
      have g1 := hmin (fun i => s.X.val env i (n * s.M + j) - s.X.val env' i (n * s.M + j)) i (by omega)
      refine g1.trans (mul_le_mul_of_nonneg_left ((a2 n hn j hj).trans (mul_le_mul_of_nonneg_left ?_ hC₂)) hc')
      rw [zero_add, hP]
      have g2 := hmono' (n + 1) hn
      have g3 : (n : ℝ) ≤ s.N := by exact_mod_cast hn.le
      exact mul_le_mul_of_nonneg_right (by linarith) htol)
    (fun c _ k hk => by omega)
  have acc := C88_quadrature fresh freshI casadiPoints csFunction dae t order method tdp_fun d xdot res tau F rep s hcs pre hs hf Lq Lqz lq hd h01
    T hT β H hbsum ht' env' heq' y ζ Y w (by rw [hu'', hp'']; exact hexq) Bq (C₁ * E) 0 hsmq hBq
    (fun n hn j hj i hi => by
      refine (c2 n hn j hj i (by omega)).trans (mul_le_mul_of_nonneg_left ?_ hC₁)
      rw [hE]
      have g1 := hmono' n hn.le
      have g2 := hmono n hn.le
      gcongr)
    (fun n _ j _ k hk => by omega) (by rw [mul_zero, add_zero]; positivity)
  intro n hn k hk
  have k1 := (sens k hk).1 n hn
  have k2 := acc n hn k hk
  have hfac : Bq * H ^ s.M / ((s.M - 1).factorial : ℝ) ≤ Bq * H ^ s.M :=
    div_le_self (by positivity) (by exact_mod_cast Nat.one_le_iff_ne_zero.mpr (Nat.factorial_ne_zero _))
  have hτ := hmono n hn
  set a := nd t n - nd t 0 with ha
  set G := Bq * H ^ s.M with hG
  have hG0 : 0 ≤ G := by positivity
  rw [show s.q.val env k n - (Y k (nd t n) - Y k (nd t 0)) =
    (s.q.val env k n - s.q.val env' k n) + (s.q.val env' k n - (Y k (nd t n) - Y k (nd t 0))) by ring]
  refine (abs_add_le _ _).trans ((add_le_add k1 k2).trans ?_)
  rw [mul_zero, add_zero, add_zero, ← mul_add, mul_left_comm _ a (Lq * (E + P) + G)]
  refine mul_le_mul_of_nonneg_left ?_ hτ
  have r1 : (1 + β) * (G / ((s.M - 1).factorial : ℝ)) ≤ (1 + β) * G := mul_le_mul_of_nonneg_left hfac (by positivity)
  have r2 : 0 ≤ β * C₁ * (Lq * P) := by positivity
  have r3 : 0 ≤ β * (c' * C₂) * (Lq * E) := by positivity
  have r4 : 0 ≤ (1 + β) * (Lq * (E + P)) := by positivity
  have r5 : 0 ≤ β * (C₁ + c' * C₂) * G := by positivity
  linarith

/-- **C119** (integrator, contractive models) The same for the output `qf` of the integrator, with a root finder that solves the equations up
to `tol`. -/
theorem C119_contractive_integrator (tau : List ℝ) (hnode : IsGauss tau ∨ IsRadau tau) (S : ℕ → ℕ → ℝ) (m : ℕ) (hpd : PosDefForm S m) :
    ∃ C ≥ 0, ∀ (fresh freshI : String → ℕ) (casadiPoints : ℕ → String → Except PyErr (List ℝ))
      (csFunction : List (MXExpr ℝ) → List (MXExpr ℝ) → Except PyErr (CsFn ℝ))
      (dae : DaeObj ℝ) (t : List ℝ) (order : ℕ) (method : String) (tdp_fun : Option (ℝ → Mat ℝ))
      (d : DaeObj ℝ) (xdot res ode : MXExpr ℝ) (F : CsFn ℝ), IsCsFunction csFunction →
      SchemePre freshI casadiPoints csFunction dae t order method tdp_fun d xdot res tau F →
      DistinctSyms fresh → dae.np = 0 ∨ dae.nq = 0 →
      d.nx = m → d.nz = 0 → ContractiveOde d xdot res ode S → LocLipschitzDae d xdot res →
      ∀ Lq Lqz, 0 ≤ Lq → LipschitzQuadZ d Lq Lqz →
      ∀ H, (∀ n < t.length - 1, nd t n < nd t (n + 1) ∧ nd t (n + 1) - nd t n ≤ H) →
      ∀ (rootfinder : (List ℝ → List ℝ) → List ℝ → Except PyErr (List ℝ)) (tol : ℝ), 0 ≤ tol →
      (∀ f w0 sol, rootfinder f w0 = .ok sol → ∀ v ∈ f sol, |v| ≤ tol) →
      ∃ g, Integrator.new fresh freshI casadiPoints csFunction dae t order method tdp_fun = .ok g ∧
      ∀ x0 z0 u p out, g.call rootfinder x0 z0 u p = .ok out →
      ∀ (y Y : ℕ → ℝ → ℝ) (f ζ w : ℕ → ℕ → ℝ → ℝ), ExactDae d xdot res tdp_fun t u.e (fun i => p.e i 0) y f ζ →
      ExactQuadratureZ d xdot tdp_fun t u.e (fun i => p.e i 0) y ζ Y w →
      ∀ B Bq, 0 ≤ B → 0 ≤ Bq → (∀ n < t.length - 1, ∀ i < m, ContDiffOn ℝ order (f n i) (Icc (nd t n) (nd t (n + 1)))) →
      (∀ n < t.length - 1, ∀ i < m, ∀ τ ∈ Icc (nd t n) (nd t (n + 1)),
        |iteratedDerivWithin order (f n i) (Icc (nd t n) (nd t (n + 1))) τ| ≤ B) →
      (∀ n < t.length - 1, ∀ k < d.nq, ContDiffOn ℝ order (w n k) (Icc (nd t n) (nd t (n + 1)))) →
      (∀ n < t.length - 1, ∀ k < d.nq, ∀ τ ∈ Icc (nd t n) (nd t (n + 1)),
        |iteratedDerivWithin order (w n k) (Icc (nd t n) (nd t (n + 1))) τ| ≤ Bq) →
      ∀ ε, 0 ≤ ε → (∀ i < m, |x0.e i 0 - y i (nd t 0)| ≤ ε) →
      let N := t.length - 1
      ∀ k < d.nq, |out.qf.e k 0 - (Y k (nd t N) - Y k (nd t 0))| ≤ C * ((nd t N - nd t 0) *
        (Lq * (ε + B * (nd t N - nd t 0) * H ^ order + B * H ^ (order + 1) + (nd t N - nd t 0 + N + 1) * tol) + Bq * H ^ order)) := by
  obtain ⟨C, hC, h119⟩ := C119_contractive tau hnode S m hpd
  refine ⟨C, hC, fun fresh freshI casadiPoints csFunction dae t order method tdp_fun d xdot res ode F hcs pre hfr hpq hm hz con lip Lq Lqz hLq lq H
    ht rootfinder tol htol hrf => ?_⟩
  obtain ⟨s, x1, hs, -, hx1v, hnew⟩ := integrator_new fresh freshI casadiPoints csFunction dae t order method tdp_fun d xdot res tau F
    pre
  rw [if_neg (by omega)] at hnew
  have b := pre.built hs
  obtain ⟨px, -⟩ := makeImplicit_parts pre.impl
  have hnx : dae.nx = d.nx := by simp [DaeObj.nx, px]
  have hf : [fresh "x", fresh "K", fresh "Z", fresh "u", fresh "P"].Nodup := by
    simp [hfr.xK, hfr.xZ, hfr.xu, hfr.xP, hfr.KZ, hfr.Ku, hfr.KP, hfr.Zu, hfr.ZP, hfr.uP]
  have htwo := pre.two
  refine ⟨_, hnew, ?_⟩
  intro x0 z0 u p out hout y Y f ζ w hex hexq B Bq hB0 hBq0 hsm hB hsmq hBq ε hε h0 N k hk
  unfold Integrator.call at hout
  simp only [bind, Except.bind] at hout
  split at hout
  · cases hout
  rename_i sol hsol'
  have hroot := hrf _ _ _ hsol'
  have hout := Except.ok.inj hout
  set env := Integrator.envOf fresh s sol u p with henv
  have hu : s.u.val env = u.e := by
    rw [b.u]
    show Integrator.envOf fresh s sol u p (fresh "u") = _
    rw [Integrator.envOf, if_neg hfr.xu.symm, if_neg hfr.Ku.symm, if_neg hfr.Zu.symm, if_pos rfl]
  have hp : s.p.val env = p.e := by
    rw [b.p]
    show Integrator.envOf fresh s sol u p (fresh "P") = _
    rw [Integrator.envOf, if_neg hfr.xP.symm, if_neg hfr.KP.symm, if_neg hfr.ZP.symm, if_neg hfr.uP.symm, if_pos rfl]
  have hN := b.N_eq
  have hM := b.M_eq
  have key := h119 fresh freshI casadiPoints csFunction dae t order method tdp_fun d xdot res ode F false s hcs pre hs hf hm hz con lip Lq Lqz hLq
    lq H (by rw [hN]; exact ht) env tol htol (fun v hv => hroot v (List.mem_append_left _ hv)) (fun h => by cases h) y Y f ζ w
    (by rw [hu, hp]; exact hex) (by rw [hu, hp]; exact hexq) B Bq hB0 hBq0 (by rw [hN, hM]; exact hsm) (by rw [hN, hM]; exact hB)
    (by rw [hN, hM]; exact hsmq) (by rw [hN, hM]; exact hBq) (ε + tol) (by positivity) (fun i hi => by
      have h1 := hroot (x1.val env i 0 - x0.e i 0)
        (List.mem_append_right _ (List.mem_map.mpr ⟨i, List.mem_range.mpr (by omega), rfl⟩))
      rw [hx1v] at h1
      have h2 := abs_sub_le (s.x.val env i 0) (x0.e i 0) (y i (nd t 0))
      linarith [h0 i hi]) (t.length - 1) (by rw [hN]) k hk
  rw [hN, hM] at key
  rw [← hout]
  show |s.q.val env k (s.q.cols - 1) - _| ≤ _
  rw [b.q_shape.2, Nat.add_sub_cancel]
  refine key.trans (le_of_eq ?_)
  simp only [N]
  ring

/-! ## Non-vacuity -/

/-- One constant for all `λ >= 0`: for `x' = cos(t) - λ*(x - sin(t))` from `0`, with a root finder that solves the equations up to `tol`, the
output `qf` differs from the integral of `sin(t)`, which is `1 - cos(T)`, at most by the constant times `T` times
`T*H^M + H^(M+1) + (T+N+1)*tol + H^M`. -/
example (tau : List ℝ) (hnode : IsGauss tau ∨ IsRadau tau) (hpos : 0 < tau.length) (freshI : String → ℕ) (hI : 7 ≤ freshI "xdot") :
    ∃ C ≥ 0, ∀ (l : ℝ) (t : List ℝ) (H : ℝ), 0 ≤ l → 2 ≤ t.length → nd t 0 = 0 →
      (∀ n < t.length - 1, nd t n < nd t (n + 1) ∧ nd t (n + 1) - nd t n ≤ H) →
      ∀ (rootfinder : (List ℝ → List ℝ) → List ℝ → Except PyErr (List ℝ)) (tol : ℝ), 0 ≤ tol →
      (∀ f w0 sol, rootfinder f w0 = .ok sol → ∀ v ∈ f sol, |v| ≤ tol) → ∃ g,
      Integrator.new exFresh freshI (fun _ _ => .ok tau) idealCsFunction (stiffO l) t tau.length "legendre" none = .ok g ∧
      ∀ z0 u p out, g.call rootfinder ⟨1, 1, fun _ _ => 0⟩ z0 u p = .ok out →
        let T := nd t (t.length - 1)
        |out.qf.e 0 0 - (1 - Real.cos T)| ≤
          C * (T * ((T * H ^ tau.length + H ^ (tau.length + 1) + (T + (t.length - 1 : ℕ) + 1) * tol) + H ^ tau.length)) := by
  have hq : PosDefForm (fun _ _ => 1) 1 := by
    rintro v ⟨i, hi, hv⟩
    obtain rfl : i = 0 := by omega
    show 0 < ∑ i ∈ Finset.range 1, ∑ j ∈ Finset.range 1, _
    simp only [Finset.sum_range_one, one_mul]
    exact mul_self_pos.mpr hv
  obtain ⟨C, hC, h119⟩ := C119_contractive_integrator tau hnode (fun _ _ => 1) 1 hq
  refine ⟨C, hC, fun l t H hl two h0 ht rootfinder tol htol hrf => ?_⟩
  obtain ⟨F, pre⟩ := stiff_pre l freshI hI t tau two hpos
  obtain ⟨g, hg, h⟩ := h119 exFresh freshI _ _ _ _ _ _ _ _ _ _ _ _ idealCsFunction_spec pre (by constructor <;> decide) (.inl rfl) rfl rfl
    (stiff_contractiveOde l hl freshI) (stiff_locLipschitz l hl freshI) 1 0 zero_le_one (by
      intro e e' _ _ _ _ δ η hδ _ k _
      rw [one_mul, zero_mul, add_zero]
      exact hδ 0 Nat.one_pos) H ht rootfinder tol htol hrf
  refine ⟨g, hg, fun z0 u p out hout => ?_⟩
  intro T
  have key := h _ z0 u p out hout (fun _ τ => Real.sin τ) (fun _ τ => -Real.cos τ) (fun _ _ τ => Real.cos τ) (fun _ _ _ => 0)
    (fun _ _ τ => Real.sin τ)
    ⟨fun n _ i _ τ _ => (Real.hasDerivAt_sin τ).hasDerivWithinAt, fun n _ τ _ e h => (stiff_zero l freshI e).mpr (by
      have h1 := h.xdot 0 Nat.one_pos
      have h2 := h.x 0 Nat.one_pos
      have h3 := h.t
      simp only [stiffD, MXExpr.sym] at h1 h2 h3
      rw [h1, h2, h3]
      ring)⟩ ⟨fun n _ k _ τ _ => by
      have := (Real.hasDerivAt_cos τ).neg
      rw [neg_neg] at this
      exact this.hasDerivWithinAt, fun n _ τ _ v e h k _ => h.x 0 Nat.one_pos⟩ 1 1 zero_le_one zero_le_one
    (fun n _ i _ => Real.contDiff_cos.contDiffOn) (fun n hn i _ τ hτ => by
        rw [iteratedDerivWithin_eq_iteratedDeriv (uniqueDiffOn_Icc (ht n hn).1) Real.contDiff_cos.contDiffAt hτ]
        exact (abs_iteratedDeriv_trig _ τ).2)
    (fun n _ i _ => Real.contDiff_sin.contDiffOn) (fun n hn i _ τ hτ => by
        rw [iteratedDerivWithin_eq_iteratedDeriv (uniqueDiffOn_Icc (ht n hn).1) Real.contDiff_sin.contDiffAt hτ]
        exact (abs_iteratedDeriv_trig _ τ).1) 0 le_rfl (fun i hi => by
        rw [h0, Real.sin_zero, sub_self, abs_zero]) 0 Nat.one_pos
  simp only [h0, Real.cos_zero, sub_zero, zero_add, one_mul] at key
  rw [show 1 - Real.cos T = -Real.cos T - -1 by ring]
  exact key

end CE
