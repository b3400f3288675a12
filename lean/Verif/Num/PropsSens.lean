import Verif.Num.PropsTangent
import Verif.Num.PropsInexact
import Mathlib.Analysis.Asymptotics.Lemmas
import Mathlib.Analysis.SpecialFunctions.Trigonometric.Bounds

/-!
# Property C132: differentiable dependence on the data

The solution of the collocation equations depends differentiably on initial state, inputs and parameters, and collocation of the
tangent model gives the derivative.  Other than in C131 differentiability is not assumed but proved.
-/

open Polynomial Filter Topology Asymptotics Set

namespace CE

/-- The equations of the tangent model are the derivatives of the equations of the model: where its residual vanishes, the residual
of the model vanishes together with its derivative along the curve. -/
structure TangentEquations (d d' : DaeObj ℝ) (xdot xdot' res res' : MXExpr ℝ) (tdp_fun : Option (ℝ → Mat ℝ)) : Prop
    extends Tangent d d' xdot xdot' res res' tdp_fun where
  equations : ∀ e e', TangentCurve d d' xdot xdot' tdp_fun e e' → ResidualZero res' e' → ∀ i < res.rows,
    res.val (e 0) i 0 = 0 ∧ HasDerivAt (fun ε => res.val (e ε) i 0) 0 0

/-- The data of the scheme `s'` (state at the beginning, inputs, parameters) are those of `s` under `env 0` and their derivatives at
0. -/
structure TangentData (s s' : Scheme ℝ) (d : DaeObj ℝ) (rep : Bool) (env : ℝ → Env ℝ) (env' : Env ℝ) : Prop where
  x : ∀ i < d.nx, s'.x.val env' i 0 = s.x.val (env 0) i 0 ∧
    HasDerivAt (fun ε => s.x.val (env ε) i 0) (s'.x.val env' (d.nx + i) 0) 0
  u : ∀ n < s.N, ∀ i < d.nu, s'.u.val env' i n = s.u.val (env 0) i n ∧
    HasDerivAt (fun ε => s.u.val (env ε) i n) (s'.u.val env' (d.nu + i) n) 0
  p : ∀ c < (if rep then s.N * s.M else 1), ∀ i < d.np, s'.p.val env' i c = s.p.val (env 0) i c ∧
    HasDerivAt (fun ε => s.p.val (env ε) i c) (s'.p.val env' (d.np + i) c) 0

/-- The matrix `a'` has the values of `a 0` in its first `m` rows and the derivatives of `a` at 0 in the next `m` rows. -/
def TangentMat (m cols : ℕ) (a : ℝ → Mat ℝ) (a' : Mat ℝ) : Prop :=
  ∀ i < m, ∀ j < cols, a'.e i j = (a 0).e i j ∧ HasDerivAt (fun ε => (a ε).e i j) (a'.e (m + i) j) 0

section

/-- A function that differs from an affine one by less than the first order has the slope as derivative. -/
theorem hasDerivAt_of_bound {w g : ℝ → ℝ} {a b : ℝ} (hg : g =o[𝓝 0] fun ε : ℝ => ε)
    (hw : ∀ᶠ ε in 𝓝 0, |w ε - (a + ε * b)| ≤ g ε) : a = w 0 ∧ HasDerivAt w b 0 := by
  have hg0 : g 0 = 0 := by
    have := (hg.bound one_pos).self_of_nhds
    simpa using this
  have h0 : a = w 0 := by
    have := hw.self_of_nhds
    rw [hg0, zero_mul, add_zero] at this
    have := abs_eq_zero.mp (le_antisymm this (abs_nonneg _))
    linarith
  refine ⟨h0, ?_⟩
  rw [hasDerivAt_iff_isLittleO_nhds_zero]
  refine IsBigO.trans_isLittleO ?_ hg
  refine IsBigO.of_bound 1 ?_
  filter_upwards [hw] with ε hε
  rw [one_mul, Real.norm_eq_abs, Real.norm_eq_abs]
  refine le_trans ?_ (hε.trans (le_abs_self _))
  rw [zero_add, ← h0, smul_eq_mul]
  exact le_of_eq (by congr 1; ring)

/-- A function with value and derivative 0 is of less than the first order. -/
theorem isLittleO_of_hasDerivAt {f : ℝ → ℝ} (h0 : f 0 = 0) (h : HasDerivAt f 0 0) : f =o[𝓝 0] fun ε : ℝ => ε := by
  rw [hasDerivAt_iff_isLittleO_nhds_zero] at h
  simpa [h0] using h

variable (fresh fresh' freshI freshI' : String → ℕ) (casadiPoints : ℕ → String → Except PyErr (List ℝ))
    (csFunction : List (MXExpr ℝ) → List (MXExpr ℝ) → Except PyErr (CsFn ℝ))
    (dae dae' : DaeObj ℝ) (t : List ℝ) (order : ℕ) (method : String) (tdp_fun : Option (ℝ → Mat ℝ))
    (d d' : DaeObj ℝ) (xdot res xdot' res' : MXExpr ℝ) (tau : List ℝ) (F F' : CsFn ℝ) (rep : Bool) (s s' : Scheme ℝ)

/-- The assignment whose states, derivatives and algebraic states are the first half of the values of `env'` plus `ε` times the
second half; the other values are those of `env ε`. -/
def linEnv (nx nz : ℕ) (env : ℝ → Env ℝ) (env' : Env ℝ) (ε : ℝ) : Env ℝ := fun id i j =>
  if id = fresh "x" then env' (fresh' "x") i j + ε * env' (fresh' "x") (nx + i) j
  else if id = fresh "K" then env' (fresh' "K") i j + ε * env' (fresh' "K") (nx + i) j
  else if id = fresh "Z" then env' (fresh' "Z") i j + ε * env' (fresh' "Z") (nz + i) j
  else env ε id i j

variable {fresh freshI casadiPoints csFunction dae t order method tdp_fun d xdot res tau F rep s} in
/-- Bounds for the three parts of the equations. -/
theorem Scheme.eq_le (pre : SchemePre freshI casadiPoints csFunction dae t order method tdp_fun d xdot res tau F)
    (b : s.Built fresh t order tdp_fun rep d xdot res tau F) {env : Env ℝ} {tol : ℝ} (h0 : 0 ≤ tol)
    (h1 : ∀ c < (t.length - 1) * order, ∀ i < res.rows, |s.eqCollocation.val env i c| ≤ tol)
    (h2 : ∀ n < t.length - 1, ∀ i < d.nx, s.eqContinuity.val env i n = 0)
    (h3 : rep = true → ∀ c < (t.length - 1) * order, ∀ i < d.np, s.p.val env i c = s.p.val env i 0) :
    ∀ v ∈ s.eq.vals env, |v| ≤ tol := by
  have hnp : d.np = d.p.rows := by simp [DaeObj.np, MXExpr.numel, pre.p]
  have hpc : s.p.cols = if rep then (t.length - 1) * order else 1 := by rw [b.p]; rfl
  have hpr : s.p.rows = d.np := by rw [b.p, hnp]; rfl
  have hmem : ∀ (e : MXExpr ℝ) (P : ℝ → Prop), (∀ i < e.rows, ∀ j < e.cols, P (e.val env i j)) → ∀ v ∈ e.vals env, P v := by
    intro e P h v hv
    unfold MXExpr.vals at hv
    obtain ⟨k, hk, rfl⟩ := List.mem_map.mp hv
    rw [List.mem_range] at hk
    have hr : 0 < e.rows := by
      rcases Nat.eq_zero_or_pos e.rows with h | h
      · rw [h, Nat.zero_mul] at hk; exact absurd hk (Nat.not_lt_zero _)
      · exact h
    exact h _ (Nat.mod_lt _ hr) _ (Nat.div_lt_of_lt_mul hk)
  intro v hv
  unfold Scheme.eq at hv
  rw [structMX_vals] at hv
  simp only [stackedVals, List.map_cons, List.map_nil, List.flatten_cons, List.flatten_nil, List.append_nil, List.mem_append] at hv
  rcases hv with hv | hv | hv
  · refine hmem _ (fun v => |v| ≤ tol) (fun i hi c hc => ?_) v hv
    rw [b.coll_shape.1, ← pre.wf.res_rows] at hi
    rw [b.coll_shape.2] at hc
    exact h1 c hc i hi
  · refine hmem _ (fun v => |v| ≤ tol) (fun i hi c hc => ?_) v hv
    rw [b.cont_shape.1, ← pre.wf.nx] at hi
    rw [b.cont_shape.2] at hc
    rw [h2 c hc i hi, abs_zero]
    exact h0
  · refine hmem _ (fun v => |v| ≤ tol) (fun i hi c hc => ?_) v hv
    rw [b.param] at hi hc ⊢
    simp only [MXExpr.diffCols] at hi hc ⊢
    rw [hpr] at hi
    rw [hpc] at hc
    cases rep
    · simp at hc
    · simp only [if_true] at hc
      rw [h3 rfl (c + 1) (by omega) i hi, h3 rfl c (by omega) i hi, sub_self, abs_zero]
      exact h0

/-- The affine assignment solves the equations up to less than the first order. -/
theorem linEnv_residual (hcs : IsCsFunction csFunction)
    (pre : SchemePre freshI casadiPoints csFunction dae t order method tdp_fun d xdot res tau F)
    (pre' : SchemePre freshI' casadiPoints csFunction dae' t order method tdp_fun d' xdot' res' tau F')
    (hs : Scheme.new fresh freshI casadiPoints csFunction dae t order method tdp_fun rep = .ok s)
    (hs' : Scheme.new fresh' freshI' casadiPoints csFunction dae' t order method tdp_fun rep = .ok s')
    (hfr : DistinctSyms fresh) (hT : TangentEquations d d' xdot xdot' res res' tdp_fun) (env : ℝ → Env ℝ) (env' : Env ℝ)
    (hf : TangentData s s' d rep env env') (h' : ∀ v ∈ s'.eq.vals env', v = 0) :
    ∃ ρ : ℝ → ℝ, (∀ ε, 0 ≤ ρ ε) ∧ (ρ =o[𝓝 0] fun ε : ℝ => ε) ∧
      ∀ ε, (∀ v ∈ s.eq.vals (env ε), v = 0) → ∀ v ∈ s.eq.vals (linEnv fresh fresh' d.nx d.nz env env' ε), |v| ≤ ρ ε := by
  have b := pre.built hs
  have b' := pre'.built hs'
  have hpos := pre.pos
  obtain ⟨r', c', -⟩ := (Scheme.eq_zero_iff pre' b' env').mp h'
  set env₂ := linEnv fresh fresh' d.nx d.nz env env' with henv
  have ex : ∀ ε i n, env₂ ε (fresh "x") i n = env' (fresh' "x") i n + ε * env' (fresh' "x") (d.nx + i) n := fun ε i n => by
    rw [henv]; simp only [linEnv, if_true]
  have ek : ∀ ε i n, env₂ ε (fresh "K") i n = env' (fresh' "K") i n + ε * env' (fresh' "K") (d.nx + i) n := fun ε i n => by
    rw [henv]; simp only [linEnv, if_true, if_neg hfr.xK.symm]
  have ez : ∀ ε i n, env₂ ε (fresh "Z") i n = env' (fresh' "Z") i n + ε * env' (fresh' "Z") (d.nz + i) n := fun ε i n => by
    rw [henv]; simp only [linEnv, if_true, if_neg hfr.xZ.symm, if_neg hfr.KZ.symm]
  have eu : ∀ ε i n, s.u.val (env₂ ε) i n = s.u.val (env ε) i n := fun ε i n => by
    rw [b.u, henv]
    simp only [MXExpr.sym, linEnv, if_neg hfr.xu.symm, if_neg hfr.Ku.symm, if_neg hfr.Zu.symm]
  have ep : ∀ ε i n, s.p.val (env₂ ε) i n = s.p.val (env ε) i n := fun ε i n => by
    rw [b.p, henv]
    simp only [MXExpr.sym, linEnv, if_neg hfr.xP.symm, if_neg hfr.KP.symm, if_neg hfr.ZP.symm]
  have haff : ∀ (f : ℝ → ℝ) (a c : ℝ), (∀ ε, f ε = a + ε * c) → HasDerivAt f c 0 := fun f a c h => by
    rw [funext h]
    simpa using ((hasDerivAt_id (0 : ℝ)).mul_const c).const_add a
  have hsplit : ∀ c < (t.length - 1) * order, ∃ n j, n < t.length - 1 ∧ j < order ∧ c = n * order + j := by
    intro c hc
    refine ⟨c / order, c % order, Nat.div_lt_of_lt_mul (by rwa [Nat.mul_comm]), Nat.mod_lt _ hpos, ?_⟩
    rw [Nat.mul_comm]; exact (Nat.div_add_mod c order).symm
  have htc : ∀ n < t.length - 1, ∀ j < order, nd s'.tc (n * order + j) = nd s.tc (n * order + j) := by
    intro n hn j hj
    rw [b.tc n j hn hj, b'.tc n j hn hj]
  have hX : ∀ ε, ∀ n < t.length - 1, ∀ j < order, ∀ i, s.X.val (env₂ ε) i (n * order + j) =
      s'.X.val env' i (n * order + j) + ε * s'.X.val env' (d.nx + i) (n * order + j) := by
    intro ε n hn j hj i
    rw [b.X _ i n j hn hj, b'.X _ i n j hn hj, b'.X _ (d.nx + i) n j hn hj, ex]
    simp only [ek, add_mul, Finset.sum_add_distrib]
    simp only [mul_assoc, ← Finset.mul_sum]
    ring
  have hcont : ∀ ε, ∀ n < t.length - 1, ∀ i < d.nx, s.eqContinuity.val (env₂ ε) i n = 0 := by
    intro ε n hn i hi
    have h1 := c' n hn i (by rw [hT.nx]; omega)
    have h2 := c' n hn (d.nx + i) (by rw [hT.nx]; omega)
    rw [b'.cont _ _ n hn] at h1 h2
    rw [b.cont _ i n hn, ex, ex]
    simp only [ek, add_mul, Finset.sum_add_distrib]
    simp only [mul_assoc, ← Finset.mul_sum]
    linear_combination h1 + ε * h2
  have hnp : d.np = d.p.rows := by simp [DaeObj.np, MXExpr.numel, pre.p]
  have hnp' : d'.np = d'.p.rows := by simp [DaeObj.np, MXExpr.numel, pre'.p]
  have hnx' := pre'.wf.nx
  have hnz' := pre'.wf.nz
  have hnu' := pre'.wf.nu
  rw [hT.nx] at hnx'
  rw [hT.nz] at hnz'
  rw [hT.nu] at hnu'
  rw [hT.np] at hnp'
  have hcoll : ∀ c < (t.length - 1) * order, ∀ i < res.rows, (fun ε => s.eqCollocation.val (env₂ ε) i c) =o[𝓝 0] fun ε : ℝ => ε := by
    intro c hc i hi
    obtain ⟨n, j, hn, hj, rfl⟩ := hsplit c hc
    have hcs2 : n * order + j < s.N * s.M := by rw [b.N_eq, b.M_eq]; exact hc
    choose e hat using fun ε => exists_atPoint hcs pre b.toCore (env₂ ε) hc
    obtain ⟨e', hat'⟩ := exists_atPoint hcs pre' b'.toCore env' hc
    have o := fun ε => (hat ε).out hcs pre b.toCore hc
    have o' := hat'.out hcs pre' b'.toCore hc
    have v := fun ε => (hat ε).vals pre b.toCore
    have v' := hat'.vals pre' b'.toCore
    rw [div_block hj] at v'
    have hr : TangentCurve d d' xdot xdot' tdp_fun e e' := by
      refine ⟨?_, ?_, ?_, ?_, ?_, ?_, ?_, ?_⟩
      · intro i hi
        have hi' : i < d.x.rows := by rw [← pre.wf.nx]; exact hi
        rw [v'.xdot i (by omega), v'.xdot (d.nx + i) (by omega), (v 0).xdot i hi', ek]
        exact ⟨by ring, haff _ _ _ fun ε => by rw [(v ε).xdot i hi', ek]⟩
      · intro i hi
        have hi' : i < d.x.rows := by rw [← pre.wf.nx]; exact hi
        rw [v'.x i (by omega), v'.x (d.nx + i) (by omega), (v 0).x i hi', hX 0 n hn j hj]
        exact ⟨by ring, haff _ _ _ fun ε => by rw [(v ε).x i hi', hX ε n hn j hj]⟩
      · intro i hi
        have hi' : i < d.z.rows := by rw [← pre.wf.nz]; exact hi
        rw [v'.z i (by omega), v'.z (d.nz + i) (by omega), (v 0).z i hi', ez]
        exact ⟨by ring, haff _ _ _ fun ε => by rw [(v ε).z i hi', ez]⟩
      · intro i hi
        have hi' : i < d.u.rows := by rw [← pre.wf.nu]; exact hi
        have := hf.u n (by rw [b.N_eq]; exact hn) i hi
        have hu : ∀ ε, d.u.val (e ε) i 0 = s.u.val (env ε) i n := fun ε => by
          rw [(hat ε).u i hi', b.M_eq, div_block hj, eu]
        rw [hat'.u i (by omega), hat'.u (d.nu + i) (by omega), hu 0, b'.M_eq, div_block hj]
        exact ⟨this.1, this.2.congr_of_eventuallyEq (Eventually.of_forall hu)⟩
      · intro i hi
        have hi' : i < d.p.rows := by rw [← hnp]; exact hi
        have := hf.p (if rep then n * order + j else 0) (by split_ifs; exacts [hcs2, Nat.one_pos]) i hi
        rw [hat'.p i (by omega), hat'.p (d.np + i) (by omega), (hat 0).p i hi', ep]
        refine ⟨this.1, this.2.congr_of_eventuallyEq (Eventually.of_forall fun ε => ?_)⟩
        dsimp only
        rw [(hat ε).p i hi', ep]
      · intro ε
        rw [(hat ε).t, hat'.t, htc n hn j hj]
      · intro f hfn ε i hi l hl
        rw [(hat ε).tdp f hfn i hi l hl, hat'.t, htc n hn j hj]
      · intro f hfn i hi l hl
        rw [hat'.tdp f hfn i hi l hl, hat'.t]
    have hz' : ResidualZero res' e' := by
      intro k hk l hl
      rw [pre'.wf.res_cols] at hl
      obtain rfl : l = 0 := by omega
      rw [← o'.1 k hk]
      exact r' _ hc k hk
    obtain ⟨q0, q1⟩ := hT.equations e e' hr hz' i hi
    refine (isLittleO_of_hasDerivAt q0 q1).congr_left fun ε => ?_
    rw [(o ε).1 i hi]
  refine ⟨fun ε => ∑ c ∈ Finset.range ((t.length - 1) * order), ∑ i ∈ Finset.range res.rows, |s.eqCollocation.val (env₂ ε) i c|,
    fun ε => Finset.sum_nonneg fun _ _ => Finset.sum_nonneg fun _ _ => abs_nonneg _, ?_, ?_⟩
  · refine IsLittleO.fun_sum fun c hc => IsLittleO.fun_sum fun i hi => ?_
    exact (hcoll c (Finset.mem_range.mp hc) i (Finset.mem_range.mp hi)).abs_left
  · intro ε hε
    refine Scheme.eq_le pre b (Finset.sum_nonneg fun _ _ => Finset.sum_nonneg fun _ _ => abs_nonneg _) ?_ (hcont ε) ?_
    · intro c hc i hi
      refine le_trans ?_ (Finset.single_le_sum (f := fun c => ∑ i ∈ Finset.range res.rows, |s.eqCollocation.val (env₂ ε) i c|)
        (fun _ _ => Finset.sum_nonneg fun _ _ => abs_nonneg _) (Finset.mem_range.mpr hc))
      exact Finset.single_le_sum (f := fun i => |s.eqCollocation.val (env₂ ε) i c|) (fun _ _ => abs_nonneg _) (Finset.mem_range.mpr hi)
    · intro hrep c hc i hi
      rw [ep, ep]
      exact ((Scheme.eq_zero_iff pre b (env ε)).mp hε).2.2 hrep c hc i hi

variable {fresh fresh' d s s'} in
/-- The values of the affine assignment in terms of the schemes. -/
theorem linEnv_vals {xdot' res' : MXExpr ℝ} {F' : CsFn ℝ} (b : s.Built fresh t order tdp_fun rep d xdot res tau F)
    (b' : s'.Built fresh' t order tdp_fun rep d' xdot' res' tau F')
    (hfr : DistinctSyms fresh) (env : ℝ → Env ℝ) (env' : Env ℝ) (ε : ℝ) (i n : ℕ) :
    s.x.val (linEnv fresh fresh' d.nx d.nz env env' ε) i n = s'.x.val env' i n + ε * s'.x.val env' (d.nx + i) n ∧
    s.Kd.val (linEnv fresh fresh' d.nx d.nz env env' ε) i n = s'.Kd.val env' i n + ε * s'.Kd.val env' (d.nx + i) n ∧
    s.Z.val (linEnv fresh fresh' d.nx d.nz env env' ε) i n = s'.Z.val env' i n + ε * s'.Z.val env' (d.nz + i) n ∧
    s.u.val (linEnv fresh fresh' d.nx d.nz env env' ε) i n = s.u.val (env ε) i n ∧
    s.p.val (linEnv fresh fresh' d.nx d.nz env env' ε) i n = s.p.val (env ε) i n := by
  rw [b.x, b.Kd, b.Z, b.u, b.p, b'.x, b'.Kd, b'.Z]
  simp only [MXExpr.sym, linEnv, if_true, if_neg hfr.xK.symm, if_neg hfr.xZ.symm, if_neg hfr.KZ.symm, if_neg hfr.xu.symm,
    if_neg hfr.Ku.symm, if_neg hfr.Zu.symm, if_neg hfr.xP.symm, if_neg hfr.KP.symm, if_neg hfr.ZP.symm, and_self]

variable {s s' d rep} in
/-- The distance of the initial states from the affine ones is of less than the first order. -/
theorem TangentData.initial {env : ℝ → Env ℝ} {env' : Env ℝ} (hf : TangentData s s' d rep env env') :
    (fun ε => ∑ i ∈ Finset.range d.nx, |s.x.val (env ε) i 0 - (s'.x.val env' i 0 + ε * s'.x.val env' (d.nx + i) 0)|) =o[𝓝 0]
      fun ε : ℝ => ε := by
  refine IsLittleO.fun_sum fun i hi => IsLittleO.abs_left ?_
  obtain ⟨h0, h1⟩ := hf.x i (Finset.mem_range.mp hi)
  rw [hasDerivAt_iff_isLittleO_nhds_zero] at h1
  refine h1.congr_left fun ε => ?_
  rw [zero_add, h0, smul_eq_mul]
  ring

/-- **C132** (small steps) The solution of the collocation equations of a regular model depends differentiably on initial state,
inputs and parameters: if these depend differentiably on `ε` and the variables solve the equations for all small `ε`, then all
variables, states at the collocation points and quadratures are differentiable at 0, and every solution of the collocation equations
of the tangent model with the derivatives of the data consists of the solution and its derivative. -/
theorem C132_small_steps (hcs : IsCsFunction csFunction)
    (pre : SchemePre freshI casadiPoints csFunction dae t order method tdp_fun d xdot res tau F)
    (pre' : SchemePre freshI' casadiPoints csFunction dae' t order method tdp_fun d' xdot' res' tau F')
    (hs : Scheme.new fresh freshI casadiPoints csFunction dae t order method tdp_fun rep = .ok s)
    (hs' : Scheme.new fresh' freshI' casadiPoints csFunction dae' t order method tdp_fun rep = .ok s')
    (hfr : DistinctSyms fresh) (hT : TangentEquations d d' xdot xdot' res res' tdp_fun)
    (L Lz G Gz θ : ℝ) (reg : RegularDae d xdot res L Lz G Gz)
    (T : ButcherTableau ℝ) (hTab : butcherTableuForCollocationPoints tau = .ok T) (α β H : ℝ)
    (hα : ∀ j < s.M, ∑ k ∈ Finset.range s.M, |T.A.e [j, k]| ≤ α) (hβ : ∑ k ∈ Finset.range s.M, |T.b.e [k]| ≤ β)
    (ht : ∀ n < s.N, nd t n ≤ nd t (n + 1) ∧ nd t (n + 1) - nd t n ≤ H) (hθ : θ < 1) (hstep : L * (H * α) ≤ θ)
    (env : ℝ → Env ℝ) (env' : Env ℝ) (hf : TangentData s s' d rep env env')
    (h : ∀ᶠ ε in 𝓝 0, ∀ v ∈ s.eq.vals (env ε), v = 0) (h' : ∀ v ∈ s'.eq.vals env', v = 0) :
    TangentVars s s' d rep env env' ∧
    (∀ c < s.N * s.M, ∀ i < d.nx, s'.X.val env' i c = s.X.val (env 0) i c ∧
      HasDerivAt (fun ε => s.X.val (env ε) i c) (s'.X.val env' (d.nx + i) c) 0) ∧
    (∀ n ≤ s.N, ∀ i < d.nq, s'.q.val env' i n = s.q.val (env 0) i n ∧
      HasDerivAt (fun ε => s.q.val (env ε) i n) (s'.q.val env' (d.nq + i) n) 0) ∧
    (∀ c < s.N * s.M, ∀ i < d.nq, s'.Q.val env' i c = s.Q.val (env 0) i c ∧
      HasDerivAt (fun ε => s.Q.val (env ε) i c) (s'.Q.val env' (d.nq + i) c) 0) := by
  have b := pre.built hs
  have b' := pre'.built hs'
  obtain ⟨ρ, hρ0, hρ, hle⟩ := linEnv_residual fresh fresh' freshI freshI' casadiPoints csFunction dae dae' t order method tdp_fun d d'
    xdot res xdot' res' tau F F' rep s s' hcs pre pre' hs hs' hfr hT env env' hf h'
  have hη := hf.initial
  set η : ℝ → ℝ := fun ε => ∑ i ∈ Finset.range d.nx, |s.x.val (env ε) i 0 - (s'.x.val env' i 0 + ε * s'.x.val env' (d.nx + i) 0)|
    with hηdef
  have hval := fun ε i n => linEnv_vals t order tdp_fun d' xdot res tau F rep b b' hfr env env' ε i n
  have hη0 : ∀ ε, 0 ≤ η ε := fun ε => Finset.sum_nonneg fun _ _ => abs_nonneg _
  have key := fun ε (hε : ∀ v ∈ s.eq.vals (env ε), v = 0) =>
    C97_inexact fresh freshI casadiPoints csFunction dae t order method tdp_fun d xdot res tau F rep s hcs pre hs L Lz G Gz θ
      reg T hTab α β H hα hβ ht hθ hstep (env ε) (linEnv fresh fresh' d.nx d.nz env env' ε) 0 (ρ ε) (η ε)
      (fun v hv => by rw [hε v hv, abs_zero]) (hle ε hε) ⟨le_rfl, hρ0 ε⟩ (fun n _ i _ => (hval ε i n).2.2.2.1.symm)
      (fun n _ i _ => (hval ε i n).2.2.2.2.symm) (hη0 ε) (fun i hi => by
        rw [(hval ε i 0).1]
        exact Finset.single_le_sum (f := fun i => |s.x.val (env ε) i 0 - (s'.x.val env' i 0 + ε * s'.x.val env' (d.nx + i) 0)|)
          (fun _ _ => abs_nonneg _) (Finset.mem_range.mpr hi))
  have hρ' : (fun ε => 0 + ρ ε) =o[𝓝 0] fun ε : ℝ => ε := by simpa using hρ
  have hbound : ∀ n : ℕ, (fun ε => Real.exp (β * L / (1 - θ) * (nd t n - nd t 0)) *
      (η ε + (nd t n - nd t 0) * (β * G / (1 - θ) * (0 + ρ ε)) + n * (0 + ρ ε))) =o[𝓝 0] fun ε : ℝ => ε := fun n =>
    ((hη.add ((hρ'.const_mul_left _).const_mul_left _)).add (hρ'.const_mul_left _)).const_mul_left _
  have hvars : TangentVars s s' d rep env env' := by
    refine ⟨?_, ?_, ?_, hf.u, hf.p⟩
    · intro n hn i hi
      refine hasDerivAt_of_bound (w := fun ε => s.x.val (env ε) i n) (hbound n) ?_
      filter_upwards [h] with ε hε
      rw [← (hval ε i n).1]
      exact (key ε hε).1 n hn i hi
    · intro c hc i hi
      have hM : 0 < s.M := by rw [b.M_eq]; exact pre.pos
      obtain ⟨n, j, hn, hj, rfl⟩ : ∃ n j, n < s.N ∧ j < s.M ∧ c = n * s.M + j :=
        ⟨c / s.M, c % s.M, Nat.div_lt_of_lt_mul (by rwa [Nat.mul_comm]), Nat.mod_lt _ hM, by
          rw [Nat.mul_comm]; exact (Nat.div_add_mod c _).symm⟩
      refine hasDerivAt_of_bound (w := fun ε => s.Kd.val (env ε) i (n * s.M + j)) (g := fun ε => (L * (Real.exp (β * L / (1 - θ) * (nd t n - nd t 0)) *
        (η ε + (nd t n - nd t 0) * (β * G / (1 - θ) * (0 + ρ ε)) + n * (0 + ρ ε))) + G * (0 + ρ ε)) / (1 - θ)) ?_ ?_
      · simp only [div_eq_inv_mul (_ + _) (1 - θ)]
        exact (((hbound n).const_mul_left L).add (hρ'.const_mul_left G)).const_mul_left _
      · filter_upwards [h] with ε hε
        rw [← (hval ε i _).2.1]
        exact (((key ε hε).2 n hn j hj).1 i hi).1
    · intro c hc i hi
      have hM : 0 < s.M := by rw [b.M_eq]; exact pre.pos
      obtain ⟨n, j, hn, hj, rfl⟩ : ∃ n j, n < s.N ∧ j < s.M ∧ c = n * s.M + j :=
        ⟨c / s.M, c % s.M, Nat.div_lt_of_lt_mul (by rwa [Nat.mul_comm]), Nat.mod_lt _ hM, by
          rw [Nat.mul_comm]; exact (Nat.div_add_mod c _).symm⟩
      refine hasDerivAt_of_bound (w := fun ε => s.Z.val (env ε) i (n * s.M + j)) (g := fun ε => Lz * ((Real.exp (β * L / (1 - θ) * (nd t n - nd t 0)) *
        (η ε + (nd t n - nd t 0) * (β * G / (1 - θ) * (0 + ρ ε)) + n * (0 + ρ ε)) + H * α * (G * (0 + ρ ε))) / (1 - θ)) +
        Gz * (0 + ρ ε)) ?_ ?_
      · simp only [div_eq_inv_mul (_ + _) (1 - θ)]
        exact ((((hbound n).add ((hρ'.const_mul_left G).const_mul_left _)).const_mul_left _).const_mul_left Lz).add
          (hρ'.const_mul_left Gz)
      · filter_upwards [h] with ε hε
        rw [← (hval ε i _).2.2.1]
        exact ((key ε hε).2 n hn j hj).2 i hi
  exact ⟨hvars, (C131_tangent fresh fresh' freshI freshI' casadiPoints csFunction dae dae' t order method tdp_fun d d' xdot res xdot'
    res' tau F F' rep s s' hcs pre pre' hs hs' hT.toTangent env env' hvars h).2⟩

/-- **C132** (contractive models, steps of any length) For Gauss or Radau nodes and an ordinary differential equation that is
contractive with respect to a positive definite form, the states at the grid points depend differentiably on initial state, inputs
and parameters, and every solution of the collocation equations of the tangent model with the derivatives of the data has them and
their derivatives as states. -/
theorem C132_contractive (hcs : IsCsFunction csFunction)
    (pre : SchemePre freshI casadiPoints csFunction dae t order method tdp_fun d xdot res tau F)
    (pre' : SchemePre freshI' casadiPoints csFunction dae' t order method tdp_fun d' xdot' res' tau F')
    (hs : Scheme.new fresh freshI casadiPoints csFunction dae t order method tdp_fun rep = .ok s)
    (hs' : Scheme.new fresh' freshI' casadiPoints csFunction dae' t order method tdp_fun rep = .ok s')
    (hfr : DistinctSyms fresh) (hT : TangentEquations d d' xdot xdot' res res' tdp_fun)
    (hnode : IsGauss tau ∨ IsRadau tau) (S : ℕ → ℕ → ℝ) (hpd : PosDefForm S d.nx) (ode : MXExpr ℝ)
    (con : ContractiveOde d xdot res ode S) (ht : ∀ n < s.N, nd t n < nd t (n + 1))
    (env : ℝ → Env ℝ) (env' : Env ℝ) (hf : TangentData s s' d rep env env')
    (h : ∀ᶠ ε in 𝓝 0, ∀ v ∈ s.eq.vals (env ε), v = 0) (h' : ∀ v ∈ s'.eq.vals env', v = 0) :
    ∀ n ≤ s.N, ∀ i < d.nx, s'.x.val env' i n = s.x.val (env 0) i n ∧
      HasDerivAt (fun ε => s.x.val (env ε) i n) (s'.x.val env' (d.nx + i) n) 0 := by
  have b := pre.built hs
  have b' := pre'.built hs'
  obtain ⟨ρ, hρ0, hρ, hle⟩ := linEnv_residual fresh fresh' freshI freshI' casadiPoints csFunction dae dae' t order method tdp_fun d d'
    xdot res xdot' res' tau F F' rep s s' hcs pre pre' hs hs' hfr hT env env' hf h'
  have hη := hf.initial
  set η : ℝ → ℝ := fun ε => ∑ i ∈ Finset.range d.nx, |s.x.val (env ε) i 0 - (s'.x.val env' i 0 + ε * s'.x.val env' (d.nx + i) 0)|
    with hηdef
  have hval := fun ε i n => linEnv_vals t order tdp_fun d' xdot res tau F rep b b' hfr env env' ε i n
  have hη0 : ∀ ε, 0 ≤ η ε := fun ε => Finset.sum_nonneg fun _ _ => abs_nonneg _
  obtain ⟨C, hC, h97⟩ := C97_contractive tau hnode S d.nx hpd
  obtain ⟨c, hc, hmax⟩ := qnorm_le_max S d.nx
  obtain ⟨c₁, hc₁, hmin⟩ := max_le_qnorm S d.nx hpd
  intro n hn i hi
  refine hasDerivAt_of_bound (w := fun ε => s.x.val (env ε) i n) (g := fun ε => c₁ * (c * η ε + C * ((nd t n - nd t 0 + n) * (0 + ρ ε)))) ?_ ?_
  · have hρ' : (fun ε => 0 + ρ ε) =o[𝓝 0] fun ε : ℝ => ε := by simpa using hρ
    exact ((hη.const_mul_left c).add ((hρ'.const_mul_left _).const_mul_left _)).const_mul_left _
  · filter_upwards [h] with ε hε
    have key := (h97 fresh freshI casadiPoints csFunction dae t order method tdp_fun d xdot res ode F rep s hcs pre hs rfl con ht (env ε)
      (linEnv fresh fresh' d.nx d.nz env env' ε) 0 (ρ ε) le_rfl (hρ0 ε)
      (fun v hv => by rw [hε v hv, abs_zero]) (hle ε hε) (fun n _ i _ => (hval ε i n).2.2.2.1.symm)
      (fun n _ i _ => (hval ε i n).2.2.2.2.symm)).1 n hn
    have h0 := hmax (fun i => s.x.val (env ε) i 0 - s.x.val (linEnv fresh fresh' d.nx d.nz env env' ε) i 0) (η ε) (hη0 ε) (fun i hi => by
        rw [(hval ε i 0).1]
        exact Finset.single_le_sum (f := fun i => |s.x.val (env ε) i 0 - (s'.x.val env' i 0 + ε * s'.x.val env' (d.nx + i) 0)|)
          (fun _ _ => abs_nonneg _) (Finset.mem_range.mpr hi))
    have h1 := hmin (fun i => s.x.val (env ε) i n - s.x.val (linEnv fresh fresh' d.nx d.nz env env' ε) i n) i hi
    rw [← (hval ε i n).1]
    exact h1.trans (mul_le_mul_of_nonneg_left (key.trans (add_le_add h0 le_rfl)) hc₁)

variable {fresh s} in
/-- What a call of the integrator returns are values of the scheme under an assignment that solves its equations. -/
theorem integrator_call_spec {dae : DaeObj ℝ} (b : s.Built fresh t order tdp_fun false d xdot res tau F) (hfr : DistinctSyms fresh)
    (hnx : dae.nx = d.nx) (x1 : MXExpr ℝ) (hx1 : ∀ env i, x1.val env i 0 = s.x.val env i 0) (g : Integrator ℝ) (hgs : g.scheme = s)
    (hge : g.env = Integrator.envOf fresh s) (hgr : ∀ w x0 u p, g.residual w x0 u p = s.eq.vals (Integrator.envOf fresh s w u p) ++
      (List.range dae.nx).map fun i => x1.val (Integrator.envOf fresh s w u p) i 0 - x0.e i 0)
    (rootfinder : (List ℝ → List ℝ) → List ℝ → Except PyErr (List ℝ)) (hrf : IsRootfinder rootfinder) (x0 z0 u p : Mat ℝ)
    (out : IntegratorOut ℝ) (hout : g.call rootfinder x0 z0 u p = .ok out) :
    ∃ env : Env ℝ, (∀ v ∈ s.eq.vals env, v = 0) ∧ (∀ i < d.nx, s.x.val env i 0 = x0.e i 0) ∧ s.u.val env = u.e ∧ s.p.val env = p.e ∧
      out.x.e = s.x.val env ∧ (out.xf.e = fun i j => s.x.val env i (j + 1)) ∧ out.X.e = s.X.val env ∧ out.Kd.e = s.Kd.val env ∧
      out.Z.e = s.Z.val env ∧ out.Q.e = s.Q.val env ∧ (out.qf.e = fun i _ => s.q.val env i (t.length - 1)) := by
  unfold Integrator.call at hout
  simp only [Bind.bind, Except.bind] at hout
  split at hout
  · cases hout
  rename_i sol hsol'
  have hroot := (hrf _ _ _ hsol').2
  have hout := Except.ok.inj hout
  rw [hgr] at hroot
  rw [hgs, hge] at hout
  refine ⟨Integrator.envOf fresh s sol u p, fun v hv => hroot v (List.mem_append_left _ hv), fun i hi => ?_, ?_, ?_, ?_⟩
  · have := hroot (x1.val (Integrator.envOf fresh s sol u p) i 0 - x0.e i 0)
      (List.mem_append_right _ (List.mem_map.mpr ⟨i, List.mem_range.mpr (by rw [hnx]; exact hi), rfl⟩))
    rw [hx1] at this
    exact sub_eq_zero.mp this
  · rw [b.u]
    show Integrator.envOf fresh s sol u p (fresh "u") = _
    unfold Integrator.envOf
    rw [if_neg hfr.xu.symm, if_neg hfr.Ku.symm, if_neg hfr.Zu.symm, if_pos rfl]
  · rw [b.p]
    show Integrator.envOf fresh s sol u p (fresh "P") = _
    unfold Integrator.envOf
    rw [if_neg hfr.xP.symm, if_neg hfr.KP.symm, if_neg hfr.ZP.symm, if_neg hfr.uP.symm, if_pos rfl]
  · rw [← hout]
    refine ⟨rfl, rfl, rfl, rfl, rfl, rfl, ?_⟩
    show (fun i _ => s.q.val _ i (s.q.cols - 1)) = _
    rw [b.q_shape.2, Nat.add_sub_cancel]

/-- **C132** (integrator) For a regular model and small steps the outputs of `CollocationIntegrator` depend differentiably on
initial state, inputs and parameters, and the integrator of the tangent model, called with the data and their derivatives, returns
the outputs and their derivatives. -/
theorem C132_integrator (hcs : IsCsFunction csFunction)
    (pre : SchemePre freshI casadiPoints csFunction dae t order method tdp_fun d xdot res tau F)
    (pre' : SchemePre freshI' casadiPoints csFunction dae' t order method tdp_fun d' xdot' res' tau F')
    (hfr : DistinctSyms fresh) (hfr' : DistinctSyms fresh') (hpq : dae.np = 0 ∨ dae.nq = 0)
    (hT : TangentEquations d d' xdot xdot' res res' tdp_fun)
    (L Lz G Gz θ : ℝ) (reg : RegularDae d xdot res L Lz G Gz)
    (T : ButcherTableau ℝ) (hTab : butcherTableuForCollocationPoints tau = .ok T) (α β H : ℝ)
    (hα : ∀ j < order, ∑ k ∈ Finset.range order, |T.A.e [j, k]| ≤ α) (hβ : ∑ k ∈ Finset.range order, |T.b.e [k]| ≤ β)
    (ht : ∀ n < t.length - 1, nd t n ≤ nd t (n + 1) ∧ nd t (n + 1) - nd t n ≤ H) (hθ : θ < 1) (hstep : L * (H * α) ≤ θ)
    (rootfinder : (List ℝ → List ℝ) → List ℝ → Except PyErr (List ℝ)) (hrf : IsRootfinder rootfinder) :
    ∃ g g', Integrator.new fresh freshI casadiPoints csFunction dae t order method tdp_fun = .ok g ∧
      Integrator.new fresh' freshI' casadiPoints csFunction dae' t order method tdp_fun = .ok g' ∧
      ∀ (x0 z0 u p : ℝ → Mat ℝ) (x0' z0' u' p' : Mat ℝ) (out : ℝ → IntegratorOut ℝ) (out' : IntegratorOut ℝ),
      TangentMat d.nx 1 x0 x0' → TangentMat d.nu (t.length - 1) u u' → TangentMat d.np 1 p p' →
      (∀ᶠ ε in 𝓝 0, g.call rootfinder (x0 ε) (z0 ε) (u ε) (p ε) = .ok (out ε)) → g'.call rootfinder x0' z0' u' p' = .ok out' →
      TangentMat d.nx t.length (fun ε => (out ε).x) out'.x ∧ TangentMat d.nx (t.length - 1) (fun ε => (out ε).xf) out'.xf ∧
      TangentMat d.nx ((t.length - 1) * order) (fun ε => (out ε).X) out'.X ∧
      TangentMat d.nx ((t.length - 1) * order) (fun ε => (out ε).Kd) out'.Kd ∧
      TangentMat d.nz ((t.length - 1) * order) (fun ε => (out ε).Z) out'.Z ∧
      TangentMat d.nq ((t.length - 1) * order) (fun ε => (out ε).Q) out'.Q ∧
      TangentMat d.nq 1 (fun ε => (out ε).qf) out'.qf := by
  obtain ⟨s, x1, hs, -, hx1v, hnew⟩ := integrator_new fresh freshI casadiPoints csFunction dae t order method tdp_fun d xdot res tau F pre
  obtain ⟨s', x1', hs', -, hx1v', hnew'⟩ := integrator_new fresh' freshI' casadiPoints csFunction dae' t order method tdp_fun d' xdot' res'
    tau F' pre'
  obtain ⟨px, pz, pu, pp, -, pq, -⟩ := makeImplicit_parts pre.impl
  obtain ⟨px', pz', pu', pp', -, pq', -⟩ := makeImplicit_parts pre'.impl
  have hnx : dae.nx = d.nx := by simp [DaeObj.nx, px]
  have hnx' : dae'.nx = d'.nx := by simp [DaeObj.nx, px']
  have hnp : dae.np = d.np := by simp [DaeObj.np, pp]
  have hnp' : dae'.np = d'.np := by simp [DaeObj.np, pp']
  have hnq : dae.nq = d.nq := by simp [DaeObj.nq, pq]
  have hnq' : dae'.nq = d'.nq := by simp [DaeObj.nq, pq']
  have hpq' : dae'.np = 0 ∨ dae'.nq = 0 := by
    rw [hnp', hnq', hT.np, hT.nq]
    rw [hnp, hnq] at hpq
    omega
  rw [if_neg (by omega)] at hnew hnew'
  have b := pre.built hs
  have b' := pre'.built hs'
  obtain ⟨g, hg, hgs, hge, hgr⟩ : ∃ g, Integrator.new fresh freshI casadiPoints csFunction dae t order method tdp_fun = .ok g ∧
      g.scheme = s ∧ g.env = Integrator.envOf fresh s ∧ ∀ w x0 u p, g.residual w x0 u p = s.eq.vals (Integrator.envOf fresh s w u p) ++
      (List.range dae.nx).map fun i => x1.val (Integrator.envOf fresh s w u p) i 0 - x0.e i 0 :=
    ⟨_, hnew, rfl, rfl, fun _ _ _ _ => rfl⟩
  obtain ⟨g', hg', hgs', hge', hgr'⟩ : ∃ g, Integrator.new fresh' freshI' casadiPoints csFunction dae' t order method tdp_fun = .ok g ∧
      g.scheme = s' ∧ g.env = Integrator.envOf fresh' s' ∧
      ∀ w x0 u p, g.residual w x0 u p = s'.eq.vals (Integrator.envOf fresh' s' w u p) ++
      (List.range dae'.nx).map fun i => x1'.val (Integrator.envOf fresh' s' w u p) i 0 - x0.e i 0 :=
    ⟨_, hnew', rfl, rfl, fun _ _ _ _ => rfl⟩
  refine ⟨g, g', hg, hg', ?_⟩
  intro x0 z0 u p x0' z0' u' p' out out' hx0 hu hp hout hout'
  have spec : ∀ ε, ∃ env : Env ℝ, _ → _ := fun ε => by
    by_cases hε : g.call rootfinder (x0 ε) (z0 ε) (u ε) (p ε) = .ok (out ε)
    · obtain ⟨env, henv⟩ := integrator_call_spec t order tdp_fun d xdot res tau F b hfr hnx x1 hx1v g hgs hge hgr rootfinder hrf _ _ _ _ _ hε
      exact ⟨env, fun _ => henv⟩
    · exact ⟨fun _ _ _ => 0, fun h => absurd h hε⟩
  choose env henv using spec
  obtain ⟨env', heq', hxi', hu', hp', ox', oxf', oX', oK', oZ', oQ', oq'⟩ := integrator_call_spec t order tdp_fun d' xdot' res' tau F' b'
    hfr' hnx' x1' hx1v' g' hgs' hge' hgr' rootfinder hrf _ _ _ _ _ hout'
  have hall := hout.mono fun ε hε => henv ε hε
  have h0 := hall.self_of_nhds
  have hdat : TangentData s s' d false env env' := by
    refine ⟨fun i hi => ?_, fun n hn i hi => ?_, fun c hc i hi => ?_⟩
    · obtain ⟨q1, q2⟩ := hx0 i hi 0 Nat.one_pos
      rw [hxi' i (by rw [hT.nx]; omega), hxi' (d.nx + i) (by rw [hT.nx]; omega), h0.2.1 i hi]
      refine ⟨q1, q2.congr_of_eventuallyEq ?_⟩
      filter_upwards [hall] with ε hε
      exact hε.2.1 i hi
    · obtain ⟨q1, q2⟩ := hu i hi n (by rw [← b.N_eq]; exact hn)
      rw [hu', h0.2.2.1]
      refine ⟨q1, q2.congr_of_eventuallyEq ?_⟩
      filter_upwards [hall] with ε hε
      rw [hε.2.2.1]
    · obtain ⟨q1, q2⟩ := hp i hi c hc
      rw [hp', h0.2.2.2.1]
      refine ⟨q1, q2.congr_of_eventuallyEq ?_⟩
      filter_upwards [hall] with ε hε
      rw [hε.2.2.2.1]
  obtain ⟨hvars, kX, kq, kQ⟩ := C132_small_steps fresh fresh' freshI freshI' casadiPoints csFunction dae dae' t order method tdp_fun d d'
    xdot res xdot' res' tau F F' false s s' hcs pre pre' hs hs' hfr hT L Lz G Gz θ reg T hTab α β H (by rw [b.M_eq]; exact hα)
    (by rw [b.M_eq]; exact hβ) (by rw [b.N_eq]; exact ht) hθ hstep env env' hdat (hall.mono fun ε hε => hε.1) heq'
  have htwo := pre.two
  obtain ⟨hx, hk, hz, -, -⟩ := hvars
  rw [b.N_eq] at hx hk hz kX kq kQ
  rw [b.M_eq] at hk hz kX kQ
  refine ⟨fun i hi n hn => ?_, fun i hi n hn => ?_, fun i hi c hc => ?_, fun i hi c hc => ?_, fun i hi c hc => ?_, fun i hi c hc => ?_,
    fun i hi c _ => ?_⟩
  · obtain ⟨q1, q2⟩ := hx n (by omega) i hi
    dsimp only
    rw [ox', h0.2.2.2.2.1]
    refine ⟨q1, q2.congr_of_eventuallyEq ?_⟩
    filter_upwards [hall] with ε hε
    rw [hε.2.2.2.2.1]
  · obtain ⟨q1, q2⟩ := hx (n + 1) (by omega) i hi
    dsimp only
    rw [oxf', h0.2.2.2.2.2.1]
    refine ⟨q1, q2.congr_of_eventuallyEq ?_⟩
    filter_upwards [hall] with ε hε
    rw [hε.2.2.2.2.2.1]
  · obtain ⟨q1, q2⟩ := kX c hc i hi
    dsimp only
    rw [oX', h0.2.2.2.2.2.2.1]
    refine ⟨q1, q2.congr_of_eventuallyEq ?_⟩
    filter_upwards [hall] with ε hε
    rw [hε.2.2.2.2.2.2.1]
  · obtain ⟨q1, q2⟩ := hk c hc i hi
    dsimp only
    rw [oK', h0.2.2.2.2.2.2.2.1]
    refine ⟨q1, q2.congr_of_eventuallyEq ?_⟩
    filter_upwards [hall] with ε hε
    rw [hε.2.2.2.2.2.2.2.1]
  · obtain ⟨q1, q2⟩ := hz c hc i hi
    dsimp only
    rw [oZ', h0.2.2.2.2.2.2.2.2.1]
    refine ⟨q1, q2.congr_of_eventuallyEq ?_⟩
    filter_upwards [hall] with ε hε
    rw [hε.2.2.2.2.2.2.2.2.1]
  · obtain ⟨q1, q2⟩ := kQ c hc i hi
    dsimp only
    rw [oQ', h0.2.2.2.2.2.2.2.2.2.1]
    refine ⟨q1, q2.congr_of_eventuallyEq ?_⟩
    filter_upwards [hall] with ε hε
    rw [hε.2.2.2.2.2.2.2.2.2.1]
  · obtain ⟨q1, q2⟩ := kq (t.length - 1) le_rfl i hi
    dsimp only
    rw [oq', h0.2.2.2.2.2.2.2.2.2.2]
    refine ⟨q1, q2.congr_of_eventuallyEq ?_⟩
    filter_upwards [hall] with ε hε
    rw [hε.2.2.2.2.2.2.2.2.2.2]

end

/-! ## Non-vacuity: `x' = f(x)`, one step of the midpoint rule -/

/-- `x' = f(x)`. -/
def rhs1 (f : ℝ → ℝ) : Env ℝ → ℕ → ℝ := fun env _ => f (env 0 0 0)

/-- `x' = f(x)`, `y' = f'(x) y`. -/
def rhs1T (f f' : ℝ → ℝ) : Env ℝ → ℕ → ℝ := fun env i => if i = 0 then f (env 0 0 0) else f' (env 0 0 0) * env 0 1 0

/-- A step of the midpoint rule with the value `m` at the midpoint. -/
noncomputable def env1 (f : ℝ → ℝ) (m : ℝ) : Env ℝ := fun id _ j =>
  if id = 0 then (if j = 0 then m - f m / 2 else m + f m / 2) else if id = 1 then f m else 0

/-- A step of the midpoint rule for the tangent model with the value `m` at the midpoint and the derivative 1 of the initial
state; `c` is the derivative of the right-hand side. -/
noncomputable def env1T (f : ℝ → ℝ) (m c : ℝ) : Env ℝ := fun id i j =>
  if id = 0 then (if i = 0 then (if j = 0 then m - f m / 2 else m + f m / 2) else (if j = 0 then 1 else 1 + c / (1 - c / 2)))
  else if id = 1 then (if i = 0 then f m else c / (1 - c / 2)) else 0

theorem tangentEquations1 (f f' : ℝ → ℝ) (hf : ∀ x, HasDerivAt f (f' x) x) (freshI : String → ℕ) :
    TangentEquations (odeD freshI 1 (rhs1 f)) (odeD freshI 2 (rhs1T f f')) (.sym (freshI "xdot") 1)
    (.sym (freshI "xdot") 2) (odeRes freshI 1 (rhs1 f)) (odeRes freshI 2 (rhs1T f f')) none := by
  have key : ∀ e e', TangentCurve (odeD freshI 1 (rhs1 f)) (odeD freshI 2 (rhs1T f f')) (.sym (freshI "xdot") 1)
      (.sym (freshI "xdot") 2) none e e' → e' (freshI "xdot") 0 0 = e 0 (freshI "xdot") 0 0 ∧ e' 0 0 0 = e 0 0 0 0 ∧
      HasDerivAt (fun ε => e ε (freshI "xdot") 0 0) (e' (freshI "xdot") 1 0) 0 ∧
      HasDerivAt (fun ε => f (e ε 0 0 0)) (f' (e' 0 0 0) * e' 0 1 0) 0 := by
    intro e e' h
    obtain ⟨k0, k1⟩ := h.xdot 0 (by show 0 < 1; omega)
    obtain ⟨x0, x1⟩ := h.x 0 (by show 0 < 1; omega)
    change e' 0 0 0 = e 0 0 0 0 at x0
    refine ⟨k0, x0, k1, ?_⟩
    rw [x0]
    exact (hf _).comp (0 : ℝ) x1
  refine ⟨⟨rfl, rfl, rfl, rfl, rfl, fun e e' h hz => ?_, fun e e' h hz i hi => absurd hi (Nat.not_lt_zero _)⟩, fun e e' h hz i hi => ?_⟩
  · obtain ⟨k0, x0, k1, f1⟩ := key e e' h
    have hz' : ∀ᶠ ε in 𝓝 0, e ε (freshI "xdot") 0 0 = f (e ε 0 0 0) := by
      filter_upwards [hz] with ε hε
      exact (ode_residual freshI 1 (rhs1 f) (e ε)).mp hε 0 (by omega)
    rw [ode_residual]
    intro i hi
    interval_cases i
    · rw [k0, hz'.self_of_nhds]
      simp [rhs1T, x0]
    · rw [k1.unique (f1.congr_of_eventuallyEq hz')]
      simp [rhs1T]
  · obtain ⟨k0, x0, k1, f1⟩ := key e e' h
    obtain rfl : i = 0 := by change i < 1 at hi; omega
    rw [ode_residual] at hz
    have z0 := hz 0 (by omega)
    have z1 := hz 1 (by omega)
    simp only [rhs1T, if_true, one_ne_zero, if_false] at z0 z1
    rw [k0, x0] at z0
    have hr : ∀ ε, (odeRes freshI 1 (rhs1 f)).val (e ε) 0 0 = e ε (freshI "xdot") 0 0 - f (e ε 0 0 0) := fun ε => by
      simp [odeRes, rhs1]
    refine ⟨by rw [hr, z0, sub_self], ?_⟩
    rw [funext hr]
    have := k1.sub f1
    rwa [z1, sub_self] at this

/-- The two schemes, their solutions and the data. -/
theorem step1 (f f' : ℝ → ℝ) (freshI : String → ℕ) (hI : 6 ≤ freshI "xdot") (m : ℝ → ℝ) (a : ℝ)
    (hm : ∀ ε, m ε - f (m ε) / 2 = a + ε) (hc : f' (m 0) < 2) : ∃ F F' s s',
    SchemePre freshI (fun _ _ => .ok [1 / 2]) idealCsFunction (odeO 1 (rhs1 f)) [0, 1] 1 "legendre" none (odeD freshI 1 (rhs1 f))
      (.sym (freshI "xdot") 1) (odeRes freshI 1 (rhs1 f)) [1 / 2] F ∧
    SchemePre freshI (fun _ _ => .ok [1 / 2]) idealCsFunction (odeO 2 (rhs1T f f')) [0, 1] 1 "legendre" none
      (odeD freshI 2 (rhs1T f f')) (.sym (freshI "xdot") 2) (odeRes freshI 2 (rhs1T f f')) [1 / 2] F' ∧
    Scheme.new exFresh freshI (fun _ _ => .ok [1 / 2]) idealCsFunction (odeO 1 (rhs1 f)) [0, 1] 1 "legendre" none = .ok s ∧
    Scheme.new exFresh freshI (fun _ _ => .ok [1 / 2]) idealCsFunction (odeO 2 (rhs1T f f')) [0, 1] 1 "legendre" none = .ok s' ∧
    s.N = 1 ∧ s.M = 1 ∧ (∀ m, ∀ v ∈ s.eq.vals (env1 f m), v = 0) ∧ (∀ v ∈ s'.eq.vals (env1T f (m 0) (f' (m 0))), v = 0) ∧
    TangentData s s' (odeD freshI 1 (rhs1 f)) false (fun ε => env1 f (m ε)) (env1T f (m 0) (f' (m 0))) ∧
    (∀ m, s.x.val (env1 f m) 0 1 = m + f m / 2) ∧
    s'.x.val (env1T f (m 0) (f' (m 0))) 1 1 = (1 + f' (m 0) / 2) / (1 - f' (m 0) / 2) := by
  obtain ⟨F, pre⟩ := ode_pre freshI hI 1 (rhs1 f) (fun e e' h _ i hi => by simp only [rhs1, h 0 (by omega)]) rfl [0, 1] [1 / 2]
    (by simp) (by simp)
  obtain ⟨F', pre'⟩ := ode_pre freshI hI 2 (rhs1T f f') (fun e e' h _ i hi => by
    simp only [rhs1T, h 0 (by omega), h 1 (by omega)]) rfl [0, 1] [1 / 2] (by simp) (by simp)
  obtain ⟨s, hs⟩ := C26_constructed exFresh freshI _ _ _ _ _ _ _ _ _ _ _ _ false pre
  obtain ⟨s', hs'⟩ := C26_constructed exFresh freshI _ _ _ _ _ _ _ _ _ _ _ _ false pre'
  have b := pre.built hs
  have b' := pre'.built hs'
  have hc' : 1 - f' (m 0) / 2 ≠ 0 := by linarith
  have hc2 : 2 - f' (m 0) ≠ 0 := by linarith
  refine ⟨F, F', s, s', pre, pre', hs, hs', b.N_eq, b.M_eq, fun m => ?_, ?_, ⟨fun i hi => ?_, ?_, ?_⟩, fun m => ?_, ?_⟩
  · refine ode_step freshI 1 (rhs1 f) F wA_half.1 wA_half.2 pre s hs (env1 f m) (fun e h _ i _ => ?_) (fun i _ => ?_)
    · simp only [rhs1]; rw [h 0 (by omega)]; simp [env1]; ring_nf
    · simp [env1]; ring
  · refine ode_step freshI 2 (rhs1T f f') F' wA_half.1 wA_half.2 pre' s' hs' _ (fun e h _ i hi => ?_) (fun i hi => ?_)
    · have h0 := h 0 (by omega)
      have h1 := h 1 (by omega)
      simp [env1T] at h0 h1
      interval_cases i
      · simp [rhs1T, env1T]
        rw [h0]; ring_nf
      · simp [rhs1T, env1T]
        rw [h0, h1]
        rw [show m 0 - f (m 0) / 2 + f (m 0) * 2⁻¹ = m 0 by ring]
        field_simp
        ring
    · interval_cases i <;> simp [env1T]
      ring
  · obtain rfl : i = 0 := by change i < 1 at hi; omega
    rw [b.x, b'.x]
    change env1T f (m 0) (f' (m 0)) 0 0 0 = env1 f (m 0) 0 0 0 ∧ HasDerivAt (fun ε => env1 f (m ε) 0 0 0) (env1T f (m 0) (f' (m 0)) 0 1 0) 0
    simp only [env1, env1T, if_true, one_ne_zero, if_false, hm, true_and]
    simpa using (hasDerivAt_id (0 : ℝ)).const_add a
  · intro n _ i hi; exact absurd hi (Nat.not_lt_zero _)
  · intro n _ i hi; exact absurd hi (Nat.not_lt_zero _)
  · rw [b.x]
    simp [MXExpr.sym, exFresh, env1]
  · rw [b'.x]
    simp [MXExpr.sym, exFresh, env1T]
    field_simp
    ring

/-- The model `x' = sin(x)` is regular. -/
theorem sin_regular (freshI : String → ℕ) : RegularDae (odeD freshI 1 (rhs1 Real.sin)) (.sym (freshI "xdot") 1) (odeRes freshI 1 (rhs1 Real.sin)) 1 0 1 0 := by
  refine ⟨by norm_num, fun e e' _ _ _ _ δ ρ _ _ hδ hρ => ⟨fun i hi => ?_, fun k hk => absurd hk (Nat.not_lt_zero _)⟩⟩
  obtain rfl : i = 0 := by change i < 1 at hi; omega
  have h1 : |e 0 0 0 - e' 0 0 0| ≤ δ := hδ 0 Nat.one_pos
  have h2 := hρ 0 Nat.one_pos
  simp only [odeRes, rhs1, Nat.one_pos, if_true] at h2
  change |e (freshI "xdot") 0 0 - e' (freshI "xdot") 0 0| ≤ _
  have h3 := (Real.abs_sin_sub_sin_le (e 0 0 0) (e' 0 0 0)).trans h1
  rw [abs_le] at h2 h3 ⊢
  constructor <;> linarith [h2.1, h2.2, h3.1, h3.2]

/-- The tableau of the midpoint rule. -/
theorem half_tableau : ∃ T : ButcherTableau ℝ, butcherTableuForCollocationPoints ([1 / 2] : List ℝ) = .ok T ∧ T.A.e [0, 0] = 1 / 2 ∧
    T.b.e [0] = 1 := by
  obtain ⟨T, hT, hA, hB, -⟩ := C09_butcher_consistent ([1 / 2] : List ℝ) (by simp) (by simp)
  obtain ⟨T', hT', -, -, -, hc, -⟩ := C08_butcher_exact ([1 / 2] : List ℝ) (by simp)
  rw [hT] at hT'
  cases hT'
  have hA0 : T.A.e [0, 0] = 1 / 2 := by
    have := hA 0 (by simp)
    rw [hc 0 (by simp)] at this
    simpa using this
  have hB0 : T.b.e [0] = 1 := by simpa using hB
  exact ⟨T, hT, hA0, hB0⟩

/-- C132 (small steps) for `x' = sin(x)`: the implicitly defined midpoint `m` of the step from `a + ε` gives a result of the step
that is differentiable, and the tangent model gives the derivative. -/
example (freshI : String → ℕ) (hI : 6 ≤ freshI "xdot") (m : ℝ → ℝ) (a : ℝ) (hm : ∀ ε, m ε - Real.sin (m ε) / 2 = a + ε) :
    HasDerivAt (fun ε => m ε + Real.sin (m ε) / 2) ((1 + Real.cos (m 0) / 2) / (1 - Real.cos (m 0) / 2)) 0 := by
  obtain ⟨F, F', s, s', pre, pre', hs, hs', hN, hM, heq, heq', hdat, hx, hx'⟩ := step1 Real.sin Real.cos freshI hI m a hm
    (by linarith [Real.cos_le_one (m 0)])
  have reg := sin_regular freshI
  obtain ⟨T, hT, hA0, hB0⟩ := half_tableau
  have key := (C132_small_steps exFresh exFresh freshI freshI _ _ _ _ _ _ _ _ _ _ _ _ _ _ _ F F' false s s' idealCsFunction_spec pre pre'
    hs hs' (by constructor <;> decide) (tangentEquations1 _ _ Real.hasDerivAt_sin freshI) 1 0 1 0 (1 / 2) reg T hT (1 / 2) 1 1
    (fun j hj => by
      rw [hM] at hj ⊢
      obtain rfl : j = 0 := by omega
      rw [Finset.sum_range_one, hA0]
      norm_num) (by rw [hM, Finset.sum_range_one, hB0, abs_one]) (fun n hn => by
        rw [hN] at hn
        obtain rfl : n = 0 := by omega
        norm_num [nd]) (by norm_num) (by norm_num) _ _ hdat (Eventually.of_forall fun ε => heq _) heq').1.x 1 (by rw [hN]) 0 Nat.one_pos
  simp only [hx] at key
  rw [show (odeD freshI 1 (rhs1 Real.sin)).nx + 0 = 1 from rfl, hx'] at key
  exact key.2

/-- C132 (integrator) for `x' = sin(x)`, the midpoint rule and any rootfinder: the second row of the final state that the integrator of
the tangent model returns is the derivative of the final state that the integrator of the model returns. -/
example (freshI : String → ℕ) (hI : 6 ≤ freshI "xdot") (a : ℝ)
    (rootfinder : (List ℝ → List ℝ) → List ℝ → Except PyErr (List ℝ)) (hrf : IsRootfinder rootfinder) : ∃ g g',
    Integrator.new exFresh freshI (fun _ _ => .ok [1 / 2]) idealCsFunction (odeO 1 (rhs1 Real.sin)) [0, 1] 1 "legendre" none = .ok g ∧
    Integrator.new exFresh freshI (fun _ _ => .ok [1 / 2]) idealCsFunction (odeO 2 (rhs1T Real.sin Real.cos)) [0, 1] 1 "legendre" none =
      .ok g' ∧
    ∀ (z0 u p : Mat ℝ) (out : ℝ → IntegratorOut ℝ) (out' : IntegratorOut ℝ),
      (∀ ε, g.call rootfinder ⟨1, 1, fun _ _ => a + ε⟩ z0 u p = .ok (out ε)) →
      g'.call rootfinder ⟨2, 1, fun i _ => if i = 0 then a else 1⟩ z0 u p = .ok out' →
      out'.xf.e 0 0 = (out 0).xf.e 0 0 ∧ HasDerivAt (fun ε => (out ε).xf.e 0 0) (out'.xf.e 1 0) 0 := by
  obtain ⟨F, pre⟩ := ode_pre freshI hI 1 (rhs1 Real.sin) (fun e e' h _ i hi => by simp only [rhs1, h 0 (by omega)]) rfl [0, 1] [1 / 2]
    (by simp) (by simp)
  obtain ⟨F', pre'⟩ := ode_pre freshI hI 2 (rhs1T Real.sin Real.cos) (fun e e' h _ i hi => by
    simp only [rhs1T, h 0 (by omega), h 1 (by omega)]) rfl [0, 1] [1 / 2] (by simp) (by simp)
  obtain ⟨T, hT, hA0, hB0⟩ := half_tableau
  obtain ⟨g, g', hg, hg', key⟩ := C132_integrator exFresh exFresh freshI freshI _ _ _ _ _ _ _ _ _ _ _ _ _ _ _ F F' idealCsFunction_spec pre
    pre' (by constructor <;> decide) (by constructor <;> decide) (.inl rfl) (tangentEquations1 _ _ Real.hasDerivAt_sin freshI) 1 0 1 0 (1 / 2)
    (sin_regular freshI) T hT (1 / 2) 1 1
    (fun j hj => by
      obtain rfl : j = 0 := by simp at hj; omega
      simp [hA0]) (by simp [hB0]) (fun n hn => by
        obtain rfl : n = 0 := by simp at hn; omega
        norm_num [nd]) (by norm_num) (by norm_num) rootfinder hrf
  refine ⟨g, g', hg, hg', fun z0 u p out out' h h' => ?_⟩
  have hk := key (fun ε => ⟨1, 1, fun _ _ => a + ε⟩) (fun _ => z0) (fun _ => u) (fun _ => p) _ z0 u p out out'
    (fun i hi j hj => by
      obtain rfl : i = 0 := by change i < 1 at hi; omega
      exact ⟨by simp, by simpa [odeD, DaeObj.nx, MXExpr.sym, MXExpr.numel] using (hasDerivAt_id (0 : ℝ)).const_add a⟩)
    (fun i hi => absurd hi (Nat.not_lt_zero _)) (fun i hi => absurd hi (Nat.not_lt_zero _)) (Eventually.of_forall h) h'
  exact hk.2.1 0 Nat.one_pos 0 (by simp)

/-- The midpoint is a Gauss node. -/
theorem isGauss_midpoint_real : IsGauss ([1 / 2] : List ℝ) := by
  intro q P hq hP
  have hq0 : q = C (q.coeff 0) := eq_C_of_degree_le_zero (by
    have : q.degree < (1 : ℕ) := hq
    exact Nat.WithBot.lt_one_iff_le_zero.mp (by simpa using this))
  have h1 : derivative P = derivative (C (q.coeff 0) * (C (1 / 2) * X ^ 2 - C (1 / 2) * X)) := by
    rw [hP]
    conv_lhs => rw [hq0]
    simp only [List.map_cons, List.map_nil, List.prod_cons, List.prod_nil, mul_one, derivative_C_mul, derivative_sub,
      derivative_X_pow, derivative_X]
    rw [← mul_assoc, ← C_mul]
    norm_num
    ring
  rw [antiderivative_diff h1]
  simp

/-- C132 (contractive models) for `x' = -l*x^3` with any `l >= 0`, which is not Lipschitz continuous. -/
example (freshI : String → ℕ) (hI : 6 ≤ freshI "xdot") (l : ℝ) (hl : 0 ≤ l) (m : ℝ → ℝ) (a : ℝ)
    (hm : ∀ ε, m ε + l * m ε ^ 3 / 2 = a + ε) :
    HasDerivAt (fun ε => m ε - l * m ε ^ 3 / 2) ((1 - 3 * l * m 0 ^ 2 / 2) / (1 + 3 * l * m 0 ^ 2 / 2)) 0 := by
  set f : ℝ → ℝ := fun x => -l * x ^ 3 with hf
  set f' : ℝ → ℝ := fun x => -l * (3 * x ^ 2) with hf'
  have hd : ∀ x, HasDerivAt f (f' x) x := fun x => by
    have := (hasDerivAt_pow 3 x).const_mul (-l)
    simpa [hf, hf'] using this
  obtain ⟨F, F', s, s', pre, pre', hs, hs', hN, hM, heq, heq', hdat, hx, hx'⟩ := step1 f f' freshI hI m a
    (fun ε => by rw [← hm ε, hf]; ring) (by rw [hf']; nlinarith [mul_nonneg hl (sq_nonneg (m 0))])
  have hpd : PosDefForm (fun _ _ => 1) (odeD freshI 1 (rhs1 f)).nx := by
    rintro v ⟨i, hi, hv⟩
    obtain rfl : i = 0 := by change i < 1 at hi; omega
    show 0 < ∑ i ∈ Finset.range 1, ∑ j ∈ Finset.range 1, _
    simp only [Finset.sum_range_one, one_mul]
    exact mul_self_pos.mpr hv
  have con : ContractiveOde (odeD freshI 1 (rhs1 f)) (.sym (freshI "xdot") 1) (odeRes freshI 1 (rhs1 f))
      ⟨1, 1, false, fun env i _ => rhs1 f env i⟩ (fun _ _ => 1) := by
    refine ⟨le_rfl, fun e i hi => ?_, fun e e' _ => ?_⟩
    · obtain rfl : i = 0 := by change i < 1 at hi; omega
      simp [odeRes, MXExpr.sym]
    · show ∑ i ∈ Finset.range 1, ∑ j ∈ Finset.range 1, _ ≤ _
      simp only [Finset.sum_range_one, one_mul, rhs1, odeD, MXExpr.sym, hf]
      have h1 : 0 ≤ (e 0 0 0 - e' 0 0 0) ^ 2 * (e 0 0 0 ^ 2 + e 0 0 0 * e' 0 0 0 + e' 0 0 0 ^ 2) :=
        mul_nonneg (sq_nonneg _) (by nlinarith [sq_nonneg (e 0 0 0 + e' 0 0 0), sq_nonneg (e 0 0 0), sq_nonneg (e' 0 0 0)])
      nlinarith [mul_nonneg hl h1]
  have key := (C132_contractive exFresh exFresh freshI freshI _ _ _ _ _ _ _ _ _ _ _ _ _ _ _ F F' false s s' idealCsFunction_spec pre pre'
    hs hs' (by constructor <;> decide) (tangentEquations1 _ _ hd freshI) (.inl isGauss_midpoint_real) _ hpd _ con
    (fun n hn => by
      rw [hN] at hn
      obtain rfl : n = 0 := by omega
      norm_num [nd]) _ _ hdat (Eventually.of_forall fun ε => heq _) heq') 1 (by rw [hN]) 0 Nat.one_pos
  simp only [hx] at key
  rw [show (odeD freshI 1 (rhs1 f)).nx + 0 = 1 from rfl, hx'] at key
  convert key.2 using 1
  · funext ε; rw [hf]; ring
  · rw [hf']; ring_nf

end CE
