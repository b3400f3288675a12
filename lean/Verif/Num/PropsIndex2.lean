import Verif.Num.PropsIndex
import Verif.Num.PropsIntegrator

/-!
# Property C88, continued: semi-explicit models, quadratures, the integrator
-/

open Set

namespace CE

/-- The residual of the model vanishes iff `xdot = ode` and `alg = 0` (C33); the right-hand side is Lipschitz continuous in the state and the
algebraic state (with constants `Lx` and `Lf`), and the algebraic equation can be solved for the algebraic state: a change of the algebraic
state by `η` changes `alg` at least by `m * η`, up to `a` times the change of the state. -/
structure SemiExplicit (d : DaeObj ℝ) (xdot res ode alg : MXExpr ℝ) (Lx Lf a m : ℝ) : Prop where
  explicit : ∀ e, ResidualZero res e ↔ (∀ i < d.nx, xdot.val e i 0 = ode.val e i 0) ∧ ∀ k < d.nz, alg.val e k 0 = 0
  nonneg : 0 ≤ Lx ∧ 0 ≤ Lf ∧ 0 ≤ a ∧ 0 < m
  lipschitz : ∀ e e' : Env ℝ, (∀ i < d.u.rows, d.u.val e i 0 = d.u.val e' i 0) → (∀ i < d.p.rows, d.p.val e i 0 = d.p.val e' i 0) →
    d.t.val e 0 0 = d.t.val e' 0 0 → (∀ i < d.tdp.rows, ∀ j < d.tdp.cols, d.tdp.val e i j = d.tdp.val e' i j) →
    ∀ δ η, (∀ i < d.nx, |d.x.val e i 0 - d.x.val e' i 0| ≤ δ) → (∀ k < d.nz, |d.z.val e k 0 - d.z.val e' k 0| ≤ η) →
    ∀ i < d.nx, |ode.val e i 0 - ode.val e' i 0| ≤ Lx * δ + Lf * η
  regular : ∀ e e' : Env ℝ, (∀ i < d.u.rows, d.u.val e i 0 = d.u.val e' i 0) → (∀ i < d.p.rows, d.p.val e i 0 = d.p.val e' i 0) →
    d.t.val e 0 0 = d.t.val e' 0 0 → (∀ i < d.tdp.rows, ∀ j < d.tdp.cols, d.tdp.val e i j = d.tdp.val e' i j) →
    ∀ δ η, 0 ≤ δ → 0 ≤ η → (∀ i < d.nx, |d.x.val e i 0 - d.x.val e' i 0| ≤ δ) → (∀ k < d.nz, |alg.val e k 0 - alg.val e' k 0| ≤ η) →
    ∀ k < d.nz, m * |d.z.val e k 0 - d.z.val e' k 0| ≤ η + a * δ

/-- **C88** (semi-explicit models) A semi-explicit model whose algebraic equation can be solved for the algebraic state is of index one. -/
theorem C88_semi (d : DaeObj ℝ) (xdot res ode alg : MXExpr ℝ) (hnx : d.nx = d.x.rows) (hnz : d.nz = d.z.rows) (Lx Lf a m : ℝ)
    (se : SemiExplicit d xdot res ode alg Lx Lf a m) : IndexOne d xdot res (Lx + Lf * (a / m)) (a / m) := by
  obtain ⟨n1, n2, n3, n4⟩ := se.nonneg
  refine ⟨by positivity, fun e e' r r' hu hp ht htdp δ hδ0 hδ => ?_⟩
  obtain ⟨g1, g2⟩ := (se.explicit e).mp r
  obtain ⟨g3, g4⟩ := (se.explicit e').mp r'
  have hz : ∀ k < d.nz, |d.z.val e k 0 - d.z.val e' k 0| ≤ a / m * δ := by
    intro k hk
    have := se.regular e e' hu hp ht htdp δ 0 hδ0 le_rfl (by rw [hnx]; exact hδ) (fun k hk => by rw [g2 k hk, g4 k hk, sub_self, abs_zero]) k hk
    rw [zero_add] at this
    rw [div_mul_eq_mul_div, le_div_iff₀ n4, mul_comm]
    exact this
  refine ⟨fun i hi => ?_, by rw [← hnz]; exact hz⟩
  rw [← hnx] at hi
  rw [g1 i hi, g3 i hi]
  have := se.lipschitz e e' hu hp ht htdp δ (a / m * δ) (by rw [hnx]; exact hδ) hz i hi
  refine this.trans (le_of_eq ?_)
  ring

/-- The quadrature expression is Lipschitz continuous in the state and the algebraic state, with constants `L` and `Lz`, and does not
depend on the state derivative. -/
def LipschitzQuadZ (d : DaeObj ℝ) (L Lz : ℝ) : Prop :=
  ∀ e e' : Env ℝ, (∀ i < d.u.rows, d.u.val e i 0 = d.u.val e' i 0) → (∀ i < d.p.rows, d.p.val e i 0 = d.p.val e' i 0) →
    d.t.val e 0 0 = d.t.val e' 0 0 → (∀ i < d.tdp.rows, ∀ j < d.tdp.cols, d.tdp.val e i j = d.tdp.val e' i j) →
    ∀ δ η, (∀ i < d.nx, |d.x.val e i 0 - d.x.val e' i 0| ≤ δ) → (∀ k < d.nz, |d.z.val e k 0 - d.z.val e' k 0| ≤ η) →
    ∀ k < d.nq, |d.quad.val e k 0 - d.quad.val e' k 0| ≤ L * δ + Lz * η

/-- `Y` is an integral of the quadrature expression along the states `y` and the algebraic states `ζ`, with the inputs `u` (constant on
the intervals of `t`) and the parameter `p`: on every interval it has the derivative `g n`, and this is the value of the expression. -/
structure ExactQuadratureZ (d : DaeObj ℝ) (xdot : MXExpr ℝ) (tdp_fun : Option (ℝ → Mat ℝ)) (t : List ℝ) (u : ℕ → ℕ → ℝ) (p : ℕ → ℝ)
    (y : ℕ → ℝ → ℝ) (ζ : ℕ → ℕ → ℝ → ℝ) (Y : ℕ → ℝ → ℝ) (g : ℕ → ℕ → ℝ → ℝ) : Prop where
  deriv : ∀ n < t.length - 1, ∀ k < d.nq, ∀ τ ∈ Icc (nd t n) (nd t (n + 1)),
    HasDerivWithinAt (Y k) (g n k τ) (Icc (nd t n) (nd t (n + 1))) τ
  value : ∀ n < t.length - 1, ∀ τ ∈ Icc (nd t n) (nd t (n + 1)), ∀ (v : ℕ → ℝ) (e : Env ℝ),
    PointVals d xdot v (fun i => y i τ) (fun k => ζ n k τ) (fun i => u i n) p τ (tdpAt tdp_fun τ).e e → ∀ k < d.nq, d.quad.val e k 0 = g n k τ

section
variable (fresh freshI : String → ℕ) (casadiPoints : ℕ → String → Except PyErr (List ℝ))
    (csFunction : List (MXExpr ℝ) → List (MXExpr ℝ) → Except PyErr (CsFn ℝ))
    (dae : DaeObj ℝ) (t : List ℝ) (order : ℕ) (method : String) (tdp_fun : Option (ℝ → Mat ℝ))
    (d : DaeObj ℝ) (xdot res : MXExpr ℝ) (tau : List ℝ) (F : CsFn ℝ) (rep : Bool) (s : Scheme ℝ)

/-- **C88** (quadratures) If the states and the algebraic states at the collocation points differ from `y` and `ζ` at most by `E` and
`Ez`, the quadratures differ from the exact integrals along `y` and `ζ` at most by a constant times these errors plus a constant times `H`
to the number of nodes, per unit of time. -/
theorem C88_quadrature (hcs : IsCsFunction csFunction)
    (pre : SchemePre freshI casadiPoints csFunction dae t order method tdp_fun d xdot res tau F)
    (hs : Scheme.new fresh freshI casadiPoints csFunction dae t order method tdp_fun rep = .ok s)
    (hf : [fresh "x", fresh "K", fresh "Z", fresh "u", fresh "P"].Nodup) (L Lz : ℝ) (lip : LipschitzQuadZ d L Lz)
    (hd : tau.Nodup) (h01 : ∀ k < tau.length, nd tau k ∈ Icc (0 : ℝ) 1)
    (T : ButcherTableau ℝ) (hT : butcherTableuForCollocationPoints tau = .ok T) (β H : ℝ)
    (hβ : ∑ k ∈ Finset.range s.M, |T.b.e [k]| ≤ β)
    (ht : ∀ n < s.N, nd t n ≤ nd t (n + 1) ∧ nd t (n + 1) - nd t n ≤ H)
    (env : Env ℝ) (heq : ∀ v ∈ s.eq.vals env, v = 0)
    (y : ℕ → ℝ → ℝ) (ζ : ℕ → ℕ → ℝ → ℝ) (Y : ℕ → ℝ → ℝ) (g : ℕ → ℕ → ℝ → ℝ)
    (ex : ExactQuadratureZ d xdot tdp_fun t (s.u.val env) (fun i => s.p.val env i 0) y ζ Y g) (B E Ez : ℝ)
    (hsm : ∀ n < s.N, ∀ k < d.nq, ContDiffOn ℝ s.M (g n k) (Icc (nd t n) (nd t (n + 1))))
    (hB : ∀ n < s.N, ∀ k < d.nq, ∀ τ ∈ Icc (nd t n) (nd t (n + 1)),
      |iteratedDerivWithin s.M (g n k) (Icc (nd t n) (nd t (n + 1))) τ| ≤ B)
    (hE : ∀ n < s.N, ∀ j < s.M, ∀ i < d.nx, |s.X.val env i (n * s.M + j) - y i (nd s.tc (n * s.M + j))| ≤ E)
    (hEz : ∀ n < s.N, ∀ j < s.M, ∀ k < d.nz, |s.Z.val env k (n * s.M + j) - ζ n k (nd s.tc (n * s.M + j))| ≤ Ez)
    (hE0 : 0 ≤ L * E + Lz * Ez) :
    ∀ n ≤ s.N, ∀ k < d.nq, |s.q.val env k n - (Y k (nd t n) - Y k (nd t 0))| ≤
      (nd t n - nd t 0) * (β * (L * E + Lz * Ez) + (1 + β) * (B * H ^ s.M / ((s.M - 1).factorial : ℝ))) := by
  have b := pre.built hs
  have hN := b.N_eq
  have hM := b.M_eq
  rw [hM] at hβ hsm hB hE hEz ⊢
  have hnp : d.np = d.p.rows := by simp [DaeObj.np, MXExpr.numel, pre.p]
  have hnq : d.nq = d.quad.rows := by simp [DaeObj.nq, MXExpr.numel, pre.quad]
  obtain ⟨-, -, hpar⟩ := (Scheme.eq_zero_iff pre b env).mp heq
  refine quadrature_core fresh freshI casadiPoints csFunction dae t order method tdp_fun d xdot res tau F rep s pre b hd h01 T hT β H hβ ht
    env Y g ex.deriv B (L * E + Lz * Ez) hsm hB hE0 (fun n hn j hj k hk => ?_)
  have hn' : n < t.length - 1 := by rw [← hN]; exact hn
  have hc : n * order + j < (t.length - 1) * order := block_lt hn' hj
  have hmem : nd s.tc (n * order + j) ∈ Icc (nd t n) (nd t (n + 1)) := by
    have h1 := h01 j (by rw [pre.len]; exact hj)
    have h2 := (ht n hn).1
    rw [b.tc n j hn' hj]
    constructor <;> nlinarith [h1.1, h1.2]
  have hE' := hE n hn j hj
  have hEz' := hEz n hn j hj
  set τ := nd s.tc (n * order + j) with hτ
  obtain ⟨e1, a1⟩ := exists_atPoint hcs pre b.toCore env hc
  have v1 := a1.vals pre b.toCore
  rw [div_block hj, ← hτ] at v1
  obtain ⟨e2, v2⟩ := exists_pointVals fresh freshI casadiPoints csFunction dae t order method tdp_fun d xdot res tau F rep s hcs pre b hf
    env hn' hj (fun _ => 0) (fun i => y i τ) (fun k => ζ n k τ)
  rw [← hτ] at v2
  have hval := ex.value n hn' τ hmem (fun _ => 0) e2 ⟨v2.xdot, v2.x, v2.z, fun i hi => by rw [v2.u i hi, b.u]; rfl, fun i hi => by
    rw [v2.p i hi]
    cases hr : rep
    · rw [b.p]; rfl
    · have := hpar hr _ hc i (by rw [hnp]; exact hi)
      rw [b.p] at this ⊢
      exact this, v2.t, v2.tdp⟩ k hk
  rw [(a1.out hcs pre b.toCore hc).2 k (by rw [← hnq]; exact hk), ← hval]
  refine lip e1 e2 (fun i hi => by rw [v1.u i hi, v2.u i hi]) (fun i hi => by rw [v1.p i hi, v2.p i hi]) (by rw [v1.t, v2.t])
    (fun i hi l hl => by rw [v1.tdp i hi l hl, v2.tdp i hi l hl]) E Ez (fun i hi => ?_) (fun l hl => ?_) k hk
  · have hi' : i < d.x.rows := by rw [← pre.wf.nx]; exact hi
    rw [v1.x i hi', v2.x i hi']
    exact hE' i hi
  · have hl' : l < d.z.rows := by rw [← pre.wf.nz]; exact hl
    have := hEz' l hl
    rw [b.Z] at this
    rw [v1.z l hl', v2.z l hl']
    exact this

/-- **C88** (integrator) The states and algebraic states that the integrator of a model of index one returns differ from the exact
solution at most by the bounds of `C88_convergence`. -/
theorem C88_integrator (hcs : IsCsFunction csFunction)
    (pre : SchemePre freshI casadiPoints csFunction dae t order method tdp_fun d xdot res tau F)
    (hfr : DistinctSyms fresh) (hpq : dae.np = 0 ∨ dae.nq = 0) (L Lz θ : ℝ) (ix : IndexOne d xdot res L Lz)
    (hd : tau.Nodup) (h01 : ∀ k < tau.length, nd tau k ∈ Icc (0 : ℝ) 1)
    (T : ButcherTableau ℝ) (hT : butcherTableuForCollocationPoints tau = .ok T) (α β H : ℝ)
    (hα : ∀ j < order, ∑ k ∈ Finset.range order, |T.A.e [j, k]| ≤ α) (hβ : ∑ k ∈ Finset.range order, |T.b.e [k]| ≤ β)
    (ht : ∀ n < t.length - 1, nd t n ≤ nd t (n + 1) ∧ nd t (n + 1) - nd t n ≤ H) (hθ : θ < 1) (hstep : L * (H * α) ≤ θ)
    (rootfinder : (List ℝ → List ℝ) → List ℝ → Except PyErr (List ℝ)) (hrf : IsRootfinder rootfinder) :
    ∃ g, Integrator.new fresh freshI casadiPoints csFunction dae t order method tdp_fun = .ok g ∧
      ∀ x0 z0 u p out, g.call rootfinder x0 z0 u p = .ok out →
      ∀ (y : ℕ → ℝ → ℝ) (f ζ : ℕ → ℕ → ℝ → ℝ), ExactDae d xdot res tdp_fun t u.e (fun i => p.e i 0) y f ζ →
      ∀ B, 0 ≤ B → (∀ n < t.length - 1, ∀ i < d.nx, ContDiffOn ℝ order (f n i) (Icc (nd t n) (nd t (n + 1)))) →
      (∀ n < t.length - 1, ∀ i < d.nx, ∀ τ ∈ Icc (nd t n) (nd t (n + 1)),
        |iteratedDerivWithin order (f n i) (Icc (nd t n) (nd t (n + 1))) τ| ≤ B) →
      ∀ ε, 0 ≤ ε → (∀ i < d.nx, |x0.e i 0 - y i (nd t 0)| ≤ ε) →
      let Λ := β * L / (1 - θ)
      let D := B * H ^ order / ((order - 1).factorial : ℝ)
      let bound := fun n => Real.exp (Λ * (nd t n - nd t 0)) * (ε + (nd t n - nd t 0) * ((1 + β + Λ * H * (1 + α)) * D))
      (∀ n < t.length, ∀ i < d.nx, |out.x.e i n - y i (nd t n)| ≤ bound n) ∧
      (∀ n < t.length - 1, ∀ i < d.nx, |out.xf.e i n - y i (nd t (n + 1))| ≤ bound (n + 1)) ∧
      ∀ n < t.length - 1, ∀ j < order,
        (∀ i < d.nx, |out.X.e i (n * order + j) - y i (nd out.tc (n * order + j))| ≤ (bound n + H * (1 + α) * D) / (1 - θ)) ∧
        (∀ i < d.nx, |out.Kd.e i (n * order + j) - f n i (nd out.tc (n * order + j))| ≤ L * ((bound n + H * (1 + α) * D) / (1 - θ))) ∧
        ∀ k < d.nz, |out.Z.e k (n * order + j) - ζ n k (nd out.tc (n * order + j))| ≤ Lz * ((bound n + H * (1 + α) * D) / (1 - θ)) := by
  obtain ⟨s, x1, hs, -, hx1v, hnew⟩ := integrator_new fresh freshI casadiPoints csFunction dae t order method tdp_fun d xdot res tau F
    pre
  rw [if_neg (by omega)] at hnew
  have b := pre.built hs
  obtain ⟨px, -⟩ := makeImplicit_parts pre.impl
  have hnx : dae.nx = d.nx := by simp [DaeObj.nx, px]
  have hf : [fresh "x", fresh "K", fresh "Z", fresh "u", fresh "P"].Nodup := by
    simp [hfr.xK, hfr.xZ, hfr.xu, hfr.xP, hfr.KZ, hfr.Ku, hfr.KP, hfr.Zu, hfr.ZP, hfr.uP]
  have htwo := pre.two
  refine ⟨_, hnew, ?_⟩
  intro x0 z0 u p out hout y f ζ hex B hB0 hsm hB ε hε h0 Λ D bound
  unfold Integrator.call at hout
  simp only [bind, Except.bind] at hout
  split at hout
  · cases hout
  rename_i sol hsol
  have hroot := (hrf _ _ _ hsol).2
  have hout := Except.ok.inj hout
  set env := Integrator.envOf fresh s sol u p with henv
  have hu : s.u.val env = u.e := by
    rw [b.u]
    show Integrator.envOf fresh s sol u p (fresh "u") = _
    unfold Integrator.envOf
    rw [if_neg hfr.xu.symm, if_neg hfr.Ku.symm, if_neg hfr.Zu.symm, if_pos rfl]
  have hp : s.p.val env = p.e := by
    rw [b.p]
    show Integrator.envOf fresh s sol u p (fresh "P") = _
    unfold Integrator.envOf
    rw [if_neg hfr.xP.symm, if_neg hfr.KP.symm, if_neg hfr.ZP.symm, if_neg hfr.uP.symm, if_pos rfl]
  have hinit : ∀ i < d.nx, s.x.val env i 0 = x0.e i 0 := by
    intro i hi
    have := hroot (x1.val env i 0 - x0.e i 0)
      (List.mem_append_right _ (List.mem_map.mpr ⟨i, List.mem_range.mpr (by omega), rfl⟩))
    rw [hx1v] at this
    exact sub_eq_zero.mp this
  have key := C88_convergence fresh freshI casadiPoints csFunction dae t order method tdp_fun d xdot res tau F false s hcs pre hs hf
    L Lz θ ix hd h01 T hT α β H (by rw [b.M_eq]; exact hα) (by rw [b.M_eq]; exact hβ) (by rw [b.N_eq]; exact ht) hθ hstep env
    (fun v hv => hroot v (List.mem_append_left _ hv)) y f ζ (by rw [hu, hp]; exact hex) B ε (by rw [b.N_eq, b.M_eq]; exact hsm)
    (by rw [b.N_eq, b.M_eq]; exact hB) hB0 hε (fun i hi => by rw [hinit i hi]; exact h0 i hi)
  rw [b.N_eq, b.M_eq] at key
  rw [← hout]
  exact ⟨fun n hn i hi => key.1 n (by omega) i hi, fun n hn i hi => key.1 (n + 1) (by omega) i hi, key.2⟩

end
/-! ## Non-vacuity: `x' = -z`, `0 = z - x` with the quadrature `z` -/

/-- The model. -/
noncomputable def loopO : DaeObj ℝ :=
  ⟨.sym 0 1, .sym 1 1, .sym 2 0, .sym 3 0, .sym 4 1, ⟨1, 1, false, fun env _ _ => env 1 0 0⟩, .sym 5 0,
    .semi ⟨1, 1, false, fun env _ _ => -env 1 0 0⟩ ⟨1, 1, false, fun env _ _ => env 1 0 0 - env 0 0 0⟩⟩

/-- Its residual. -/
noncomputable def loopRes (freshI : String → ℕ) : MXExpr ℝ :=
  ⟨2, 1, false, fun env i j => if i < 1 then env (freshI "xdot") i j - -env 1 0 0 else env 1 0 0 - env 0 0 0⟩

/-- Its implicit form. -/
noncomputable def loopD (freshI : String → ℕ) : DaeObj ℝ :=
  ⟨.sym 0 1, .sym 1 1, .sym 2 0, .sym 3 0, .sym 4 1, ⟨1, 1, false, fun env _ _ => env 1 0 0⟩, .sym 5 0,
    .implicit (.sym (freshI "xdot") 1) (loopRes freshI)⟩

theorem loop_pre (freshI : String → ℕ) (hI : 7 ≤ freshI "xdot") (t tau : List ℝ) (two : 2 ≤ t.length) (pos : 0 < tau.length) :
    ∃ F : CsFn ℝ, SchemePre freshI (fun _ _ => .ok tau) idealCsFunction loopO t tau.length "legendre" none (loopD freshI)
        (.sym (freshI "xdot") 1) (loopRes freshI) tau F := by
  have hfun := isFunctionOf_syms (K := ℝ) [(freshI "xdot", 1, 1), (0, 1, 1), (1, 1, 1), (2, 0, 1), (3, 0, 1), (4, 1, 1), (5, 0, 1)]
    (by simp; omega) [loopRes freshI, ⟨1, 1, false, fun env _ _ => env 1 0 0⟩] (by
      intro o ho env1 env2 h
      simp only [List.mem_cons, List.not_mem_nil, or_false, forall_eq_or_imp, forall_eq] at h ho
      have h0 := h.2.1 0 (by omega) 0 (by omega)
      have h1 := h.2.2.1 0 (by omega) 0 (by omega)
      rcases ho with rfl | rfl
      · refine ⟨rfl, rfl, ?_⟩
        intro i hi j hj
        simp only [loopRes, MXExpr.at', h0, h1]
        split_ifs with hi1
        · rw [h.1 i hi1 j hj]
        · rfl
      · exact ⟨rfl, rfl, fun i _ j _ => h1⟩)
  have hF : ∃ F, idealCsFunction [MXExpr.sym (freshI "xdot") 1, .sym 0 1, .sym 1 1, .sym 2 0, .sym 3 0, .sym 4 1, .sym 5 0]
      [loopRes freshI, ⟨1, 1, false, fun env _ _ => env 1 0 0⟩] = .ok F := by
    unfold idealCsFunction
    rw [dif_pos ⟨_, hfun⟩]
    exact ⟨_, rfl⟩
  obtain ⟨F, hF⟩ := hF
  exact ⟨F, rfl, ⟨rfl, rfl, rfl, rfl, ⟨rfl, rfl⟩, rfl, rfl, rfl, rfl⟩, rfl, rfl, two, pos, rfl, rfl, ⟨rfl, rfl⟩, hF⟩

theorem loop_zero (freshI : String → ℕ) (e : Env ℝ) :
    ResidualZero (loopRes freshI) e ↔ e (freshI "xdot") 0 0 = -e 1 0 0 ∧ e 1 0 0 = e 0 0 0 := by
  constructor
  · intro h
    have h1 := h 0 (by change 0 < 2; omega) 0 Nat.one_pos
    have h2 := h 1 (by change 1 < 2; omega) 0 Nat.one_pos
    simp only [loopRes, Nat.zero_lt_one, if_true, lt_irrefl, if_false] at h1 h2
    exact ⟨sub_eq_zero.mp h1, sub_eq_zero.mp h2⟩
  · rintro ⟨h1, h2⟩ i hi j hj
    change i < 2 at hi
    change j < 1 at hj
    obtain rfl : j = 0 := by omega
    rcases (by omega : i = 0 ∨ i = 1) with rfl | rfl
    · simp [loopRes, h1]
    · simp [loopRes, h2]

/-- The example is semi-explicit, of index one, and solvable. -/
theorem loop_index (freshI : String → ℕ) : IndexOne (loopD freshI) (.sym (freshI "xdot") 1) (loopRes freshI) 1 1 ∧
    Solvable (loopD freshI) (.sym (freshI "xdot") 1) (loopRes freshI) := by
  constructor
  · have := C88_semi (loopD freshI) (.sym (freshI "xdot") 1) (loopRes freshI) ⟨1, 1, false, fun env _ _ => -env 1 0 0⟩
      ⟨1, 1, false, fun env _ _ => env 1 0 0 - env 0 0 0⟩ rfl rfl 0 1 1 1 ⟨fun e => ?_, by norm_num, fun e e' _ _ _ _ δ η _ hη i _ => ?_,
        fun e e' _ _ _ _ δ η _ _ hδ hη k hk => ?_⟩
    · norm_num at this
      exact this
    · rw [loop_zero]
      constructor
      · rintro ⟨h1, h2⟩
        refine ⟨fun i hi => ?_, fun k _ => sub_eq_zero.mpr h2⟩
        change i < 1 at hi
        obtain rfl : i = 0 := by omega
        exact h1
      · rintro ⟨h1, h2⟩
        exact ⟨h1 0 Nat.one_pos, sub_eq_zero.mp (h2 0 Nat.one_pos)⟩
    · have := hη 0 Nat.one_pos
      simp only [loopD, MXExpr.sym] at this
      rw [neg_sub_neg, abs_sub_comm]
      linarith
    · change k < 1 at hk
      obtain rfl : k = 0 := by omega
      have h1 := hδ 0 Nat.one_pos
      have h2 := hη 0 Nat.one_pos
      simp only [loopD, MXExpr.sym] at h1 h2 ⊢
      rw [one_mul, one_mul]
      calc |e 1 0 0 - e' 1 0 0| = |(e 1 0 0 - e 0 0 0 - (e' 1 0 0 - e' 0 0 0)) + (e 0 0 0 - e' 0 0 0)| := by ring_nf
        _ ≤ _ := (abs_add_le _ _).trans (add_le_add h2 h1)
  · intro ξ u p τ q
    refine ⟨fun _ => -ξ 0, fun _ => ξ 0, fun e h => (loop_zero freshI e).mpr ?_⟩
    have h1 := h.xdot 0 Nat.one_pos
    have h2 := h.x 0 Nat.one_pos
    have h3 := h.z 0 Nat.one_pos
    simp only [loopD, MXExpr.sym] at h1 h2 h3
    rw [h1, h2, h3]
    exact ⟨rfl, rfl⟩

/-- Midpoint rule for the example with `x(0) = 1` and steps of at most `H <= 1`: the solutions of the collocation equations exist, the states
differ from `exp(-t)` at most by `5*t*exp(2*t)*H`, and the algebraic states at the midpoints at most by twice that plus `3*H`. -/
example (freshI : String → ℕ) (hI : 7 ≤ freshI "xdot") (t : List ℝ) (two : 2 ≤ t.length) (H : ℝ) (hH : H ≤ 1) (h0 : nd t 0 = 0)
    (ht : ∀ n < t.length - 1, nd t n < nd t (n + 1) ∧ nd t (n + 1) - nd t n ≤ H) : ∃ s,
    Scheme.new exFresh freshI (fun _ _ => .ok [1 / 2]) idealCsFunction loopO t 1 "legendre" none = .ok s ∧ s.N = t.length - 1 ∧
    (∃ env, (∀ v ∈ s.eq.vals env, v = 0) ∧ s.x.val env 0 0 = 1) ∧
    ∀ env, (∀ v ∈ s.eq.vals env, v = 0) → s.x.val env 0 0 = 1 →
      (∀ n ≤ s.N, |s.x.val env 0 n - Real.exp (-nd t n)| ≤ Real.exp (2 * nd t n) * (nd t n * (5 * H))) ∧
      ∀ n < s.N, |s.Z.val env 0 n - Real.exp (-nd s.tc n)| ≤ 2 * (Real.exp (2 * nd t n) * (nd t n * (5 * H))) + 3 * H := by
  obtain ⟨F, pre⟩ := loop_pre freshI hI t [1 / 2] two (by simp)
  obtain ⟨s, hs⟩ := C26_constructed exFresh freshI _ _ _ _ _ _ _ _ _ _ _ _ false pre
  have b := pre.built hs
  have hN : s.N = t.length - 1 := b.N_eq
  have hM : s.M = 1 := b.M_eq
  obtain ⟨T, hT, hA, hB, -⟩ := C09_butcher_consistent ([1 / 2] : List ℝ) (by simp) (by simp)
  obtain ⟨T', hT', -, -, -, hc, -⟩ := C08_butcher_exact ([1 / 2] : List ℝ) (by simp)
  rw [hT] at hT'
  cases hT'
  have hA0 : T.A.e [0, 0] = 1 / 2 := by
    have := hA 0 (by simp)
    rw [hc 0 (by simp)] at this
    simpa using this
  have hB0 : T.b.e [0] = 1 := by simpa using hB
  have hf : [exFresh "x", exFresh "K", exFresh "Z", exFresh "u", exFresh "P"].Nodup := by decide
  obtain ⟨ix, sol⟩ := loop_index freshI
  have hpos : ∀ n ≤ s.N, 0 ≤ nd t n := by
    intro n
    induction n with
    | zero => intro _; exact h0.ge
    | succ n ih => intro hn; exact (ih (by omega)).trans (ht n (by omega)).1.le
  have hα : ∀ j < s.M, ∑ k ∈ Finset.range s.M, |T.A.e [j, k]| ≤ 1 / 2 := by
    intro j hj
    rw [hM] at hj ⊢
    obtain rfl : j = 0 := by omega
    rw [Finset.sum_range_one, hA0]
    norm_num
  have hβ : ∑ k ∈ Finset.range s.M, |T.b.e [k]| ≤ 1 := by
    rw [hM, Finset.sum_range_one, hB0, abs_one]
  refine ⟨s, hs, hN, ?_, fun env heq hx => ?_⟩
  · obtain ⟨env, heq, hx, -, -⟩ := C88_exists exFresh freshI _ _ _ _ _ _ _ _ _ _ _ _ false s idealCsFunction_spec pre hs hf 1 1 (1 / 2)
      ix sol (by norm_num) T hT (fun n hn j hj => by
        have h1 := hα j hj
        have h2 := ht n (by omega)
        rw [one_mul, abs_of_pos (by linarith)]
        calc _ ≤ (1 : ℝ) * (1 / 2) := mul_le_mul (by linarith) h1 (Finset.sum_nonneg fun _ _ => abs_nonneg _) zero_le_one
          _ = 1 / 2 := one_mul _) (fun _ _ _ => 0) (fun h => by cases h) (fun _ => 1)
    exact ⟨env, heq, hx 0⟩
  have hH0 : 0 ≤ H := by
    have := ht 0 (by omega)
    linarith [this.1, this.2]
  obtain ⟨ex, sm, bd⟩ := decay_exact freshI t 1 (s.u.val env) (fun i => s.p.val env i 0)
    (fun n hn => ⟨hpos n (by omega), (ht n (by omega)).1⟩)
  have key := C88_convergence exFresh freshI _ _ _ _ _ _ _ _ _ _ _ _ false s idealCsFunction_spec pre hs hf 1 1 (1 / 2)
    ix (by simp) (by intro k hk; obtain rfl : k = 0 := (by simpa using hk); norm_num [nd]) T hT (1 / 2) 1 H hα hβ
    (fun n hn => ⟨(ht n (by omega)).1.le, (ht n (by omega)).2⟩) (by norm_num) (by linarith) env heq (fun _ τ => Real.exp (-τ))
    (fun _ _ τ => -Real.exp (-τ)) (fun _ _ τ => Real.exp (-τ))
    ⟨fun n hn i hi => ex.deriv n hn i hi, fun n _ τ _ e h => (loop_zero freshI e).mpr (by
      have h1 := h.xdot 0 Nat.one_pos
      have h2 := h.x 0 Nat.one_pos
      have h3 := h.z 0 Nat.one_pos
      simp only [loopD, MXExpr.sym] at h1 h2 h3
      rw [h1, h2, h3]
      exact ⟨rfl, rfl⟩)⟩ 1 0
    (fun n hn i _ => by rw [hM]; exact sm n (by omega)) (fun n hn i _ => by rw [hM]; exact bd n (by omega)) zero_le_one le_rfl (by
      intro i hi
      obtain rfl : i = 0 := by change i < 1 at hi; omega
      rw [hx, h0]
      simp)
  have e2 : (1 : ℝ) * 1 / (1 - 1 / 2) = 2 := by norm_num
  have e3 : (1 : ℝ) * H ^ s.M / ((s.M - 1).factorial : ℝ) = H := by
    rw [hM]; simp
  simp only [e2, e3, h0, sub_zero, zero_add] at key
  have hbd : ∀ n ≤ s.N, Real.exp (2 * nd t n) * (nd t n * ((1 + 1 + 2 * H * (1 + 1 / 2)) * H)) ≤
      Real.exp (2 * nd t n) * (nd t n * (5 * H)) := by
    intro n hn
    have := hpos n hn
    gcongr
    linarith
  refine ⟨fun n hn => (key.1 n hn 0 Nat.one_pos).trans (hbd n hn), fun n hn => ?_⟩
  have := ((key.2 n hn 0 (by omega)).2.2 0 Nat.one_pos)
  rw [hM, mul_one, add_zero] at this
  refine this.trans ?_
  have h1 := hbd n hn.le
  have h2 : H * (1 + 1 / 2) * H ≤ 3 / 2 * H := by nlinarith
  rw [one_mul, div_le_iff₀ (by norm_num)]
  linarith

end CE
