import Verif.Num.PropsChange
import Mathlib.Analysis.Calculus.Deriv.Add
import Mathlib.Analysis.Calculus.Deriv.Mul
import Mathlib.Analysis.Calculus.Deriv.Pow

/-!
# Property C131: sensitivities

The tangent model of a model has the quantities of the model and their derivatives with respect to a parameter.  Collocation of
the tangent model gives the derivative of the collocation solution.
-/

open Polynomial Filter Topology

namespace CE

/-- Assignments `e ε` of the model `d` and the assignment `e'` of the model `d'` with twice as many symbols: the first half of the
values of `e'` is that of `e 0`, the second half is the derivative of `e ε` at 0; time does not depend on `ε`. -/
structure TangentCurve (d d' : DaeObj ℝ) (xdot xdot' : MXExpr ℝ) (tdp_fun : Option (ℝ → Mat ℝ)) (e : ℝ → Env ℝ) (e' : Env ℝ) :
    Prop where
  xdot : ∀ i < d.nx, xdot'.val e' i 0 = xdot.val (e 0) i 0 ∧
    HasDerivAt (fun ε => xdot.val (e ε) i 0) (xdot'.val e' (d.nx + i) 0) 0
  x : ∀ i < d.nx, d'.x.val e' i 0 = d.x.val (e 0) i 0 ∧ HasDerivAt (fun ε => d.x.val (e ε) i 0) (d'.x.val e' (d.nx + i) 0) 0
  z : ∀ i < d.nz, d'.z.val e' i 0 = d.z.val (e 0) i 0 ∧ HasDerivAt (fun ε => d.z.val (e ε) i 0) (d'.z.val e' (d.nz + i) 0) 0
  u : ∀ i < d.nu, d'.u.val e' i 0 = d.u.val (e 0) i 0 ∧ HasDerivAt (fun ε => d.u.val (e ε) i 0) (d'.u.val e' (d.nu + i) 0) 0
  p : ∀ i < d.np, d'.p.val e' i 0 = d.p.val (e 0) i 0 ∧ HasDerivAt (fun ε => d.p.val (e ε) i 0) (d'.p.val e' (d.np + i) 0) 0
  t : ∀ ε, d.t.val (e ε) 0 0 = d'.t.val e' 0 0
  tdp : ∀ f, tdp_fun = some f → ∀ ε, ∀ i < d.tdp.rows, ∀ j < d.tdp.cols, d.tdp.val (e ε) i j = (f (d'.t.val e' 0 0)).e i j
  tdp' : ∀ f, tdp_fun = some f → ∀ i < d'.tdp.rows, ∀ j < d'.tdp.cols, d'.tdp.val e' i j = (f (d'.t.val e' 0 0)).e i j

/-- `d'` is a tangent model of `d`: its residual vanishes at the derivative of every curve on which the residual of `d` vanishes,
and its quadrature expression consists of that of `d` and the derivative. -/
structure Tangent (d d' : DaeObj ℝ) (xdot xdot' res res' : MXExpr ℝ) (tdp_fun : Option (ℝ → Mat ℝ)) : Prop where
  nx : d'.nx = d.nx + d.nx
  nz : d'.nz = d.nz + d.nz
  nu : d'.nu = d.nu + d.nu
  np : d'.np = d.np + d.np
  nq : d'.nq = d.nq + d.nq
  residual : ∀ e e', TangentCurve d d' xdot xdot' tdp_fun e e' → (∀ᶠ ε in 𝓝 0, ResidualZero res (e ε)) → ResidualZero res' e'
  quadrature : ∀ e e', TangentCurve d d' xdot xdot' tdp_fun e e' → (∀ᶠ ε in 𝓝 0, ResidualZero res (e ε)) → ∀ i < d.nq,
    d'.quad.val e' i 0 = d.quad.val (e 0) i 0 ∧ HasDerivAt (fun ε => d.quad.val (e ε) i 0) (d'.quad.val e' (d.nq + i) 0) 0

/-- The variables of the scheme `s'` are those of `s` under `env 0` and their derivatives at 0. -/
structure TangentVars (s s' : Scheme ℝ) (d : DaeObj ℝ) (rep : Bool) (env : ℝ → Env ℝ) (env' : Env ℝ) : Prop where
  x : ∀ n ≤ s.N, ∀ i < d.nx, s'.x.val env' i n = s.x.val (env 0) i n ∧
    HasDerivAt (fun ε => s.x.val (env ε) i n) (s'.x.val env' (d.nx + i) n) 0
  k : ∀ c < s.N * s.M, ∀ i < d.nx, s'.Kd.val env' i c = s.Kd.val (env 0) i c ∧
    HasDerivAt (fun ε => s.Kd.val (env ε) i c) (s'.Kd.val env' (d.nx + i) c) 0
  z : ∀ c < s.N * s.M, ∀ i < d.nz, s'.Z.val env' i c = s.Z.val (env 0) i c ∧
    HasDerivAt (fun ε => s.Z.val (env ε) i c) (s'.Z.val env' (d.nz + i) c) 0
  u : ∀ n < s.N, ∀ i < d.nu, s'.u.val env' i n = s.u.val (env 0) i n ∧
    HasDerivAt (fun ε => s.u.val (env ε) i n) (s'.u.val env' (d.nu + i) n) 0
  p : ∀ c < (if rep then s.N * s.M else 1), ∀ i < d.np, s'.p.val env' i c = s.p.val (env 0) i c ∧
    HasDerivAt (fun ε => s.p.val (env ε) i c) (s'.p.val env' (d.np + i) c) 0

section

/-- The derivative of an affine combination. -/
theorem hasDerivAt_step {M : ℕ} {a : ℝ → ℝ} {a' h : ℝ} {κ : ℝ → ℕ → ℝ} {κ' w : ℕ → ℝ} (ha : HasDerivAt a a' 0)
    (hκ : ∀ k < M, HasDerivAt (fun ε => κ ε k) (κ' k) 0) :
    HasDerivAt (fun ε => a ε + h * ∑ k ∈ Finset.range M, κ ε k * w k) (a' + h * ∑ k ∈ Finset.range M, κ' k * w k) 0 := by
  refine ha.add (HasDerivAt.const_mul h ?_)
  exact HasDerivAt.fun_sum fun k hk => (hκ k (Finset.mem_range.mp hk)).mul_const (w k)

variable (fresh fresh' freshI freshI' : String → ℕ) (casadiPoints : ℕ → String → Except PyErr (List ℝ))
    (csFunction : List (MXExpr ℝ) → List (MXExpr ℝ) → Except PyErr (CsFn ℝ))
    (dae dae' : DaeObj ℝ) (t : List ℝ) (order : ℕ) (method : String) (tdp_fun : Option (ℝ → Mat ℝ))
    (d d' : DaeObj ℝ) (xdot res xdot' res' : MXExpr ℝ) (tau : List ℝ) (F F' : CsFn ℝ) (rep : Bool) (s s' : Scheme ℝ)

/-- **C131** If the variables depend differentiably on a parameter and solve the collocation equations of a model, then they and
their derivatives solve the collocation equations of the tangent model; the states at the collocation points and the quadratures
of the tangent model are those of the model and their derivatives. -/
theorem C131_tangent (hcs : IsCsFunction csFunction)
    (pre : SchemePre freshI casadiPoints csFunction dae t order method tdp_fun d xdot res tau F)
    (pre' : SchemePre freshI' casadiPoints csFunction dae' t order method tdp_fun d' xdot' res' tau F')
    (hs : Scheme.new fresh freshI casadiPoints csFunction dae t order method tdp_fun rep = .ok s)
    (hs' : Scheme.new fresh' freshI' casadiPoints csFunction dae' t order method tdp_fun rep = .ok s')
    (hT : Tangent d d' xdot xdot' res res' tdp_fun) (env : ℝ → Env ℝ) (env' : Env ℝ) (hf : TangentVars s s' d rep env env')
    (h : ∀ᶠ ε in 𝓝 0, ∀ v ∈ s.eq.vals (env ε), v = 0) :
    (∀ v ∈ s'.eq.vals env', v = 0) ∧
    (∀ c < s.N * s.M, ∀ i < d.nx, s'.X.val env' i c = s.X.val (env 0) i c ∧
      HasDerivAt (fun ε => s.X.val (env ε) i c) (s'.X.val env' (d.nx + i) c) 0) ∧
    (∀ n ≤ s.N, ∀ i < d.nq, s'.q.val env' i n = s.q.val (env 0) i n ∧
      HasDerivAt (fun ε => s.q.val (env ε) i n) (s'.q.val env' (d.nq + i) n) 0) ∧
    (∀ c < s.N * s.M, ∀ i < d.nq, s'.Q.val env' i c = s.Q.val (env 0) i c ∧
      HasDerivAt (fun ε => s.Q.val (env ε) i c) (s'.Q.val env' (d.nq + i) c) 0) := by
  have b := pre.built hs
  have b' := pre'.built hs'
  have hpos := pre.pos
  have h0 := h.self_of_nhds
  have hsplit : ∀ c < (t.length - 1) * order, ∃ n j, n < t.length - 1 ∧ j < order ∧ c = n * order + j := by
    intro c hc
    refine ⟨c / order, c % order, Nat.div_lt_of_lt_mul (by rwa [Nat.mul_comm]), Nat.mod_lt _ hpos, ?_⟩
    rw [Nat.mul_comm]; exact (Nat.div_add_mod c order).symm
  have hx : ∀ n ≤ t.length - 1, ∀ i < d.nx, env' (fresh' "x") i n = env 0 (fresh "x") i n ∧
      HasDerivAt (fun ε => env ε (fresh "x") i n) (env' (fresh' "x") (d.nx + i) n) 0 := by
    have := hf.x
    rw [b.N_eq, b.x, b'.x] at this
    exact this
  have hk : ∀ c < (t.length - 1) * order, ∀ i < d.nx, env' (fresh' "K") i c = env 0 (fresh "K") i c ∧
      HasDerivAt (fun ε => env ε (fresh "K") i c) (env' (fresh' "K") (d.nx + i) c) 0 := by
    have := hf.k
    rw [b.N_eq, b.M_eq, b.Kd, b'.Kd] at this
    exact this
  have htc : ∀ n < t.length - 1, ∀ j < order, nd s'.tc (n * order + j) = nd s.tc (n * order + j) := by
    intro n hn j hj
    rw [b.tc n j hn hj, b'.tc n j hn hj]
  have hX : ∀ n < t.length - 1, ∀ j < order, ∀ i < d.nx, s'.X.val env' i (n * order + j) = s.X.val (env 0) i (n * order + j) ∧
      HasDerivAt (fun ε => s.X.val (env ε) i (n * order + j)) (s'.X.val env' (d.nx + i) (n * order + j)) 0 := by
    intro n hn j hj i hi
    constructor
    · rw [b'.X env' i n j hn hj, b.X (env 0) i n j hn hj, (hx n (by omega) i hi).1]
      congr 2
      exact Finset.sum_congr rfl fun k hkl => by rw [(hk _ (block_lt hn (Finset.mem_range.mp hkl)) i hi).1]
    · rw [b'.X env' _ n j hn hj]
      refine (hasDerivAt_step (hx n (by omega) i hi).2 fun k hkl => (hk _ (block_lt hn hkl) i hi).2).congr_of_eventuallyEq
        (Eventually.of_forall fun ε => ?_)
      exact b.X (env ε) i n j hn hj
  have hcont : ∀ n < t.length - 1, ∀ i < d.nx, s'.eqContinuity.val env' i n = s.eqContinuity.val (env 0) i n ∧
      HasDerivAt (fun ε => s.eqContinuity.val (env ε) i n) (s'.eqContinuity.val env' (d.nx + i) n) 0 := by
    intro n hn i hi
    constructor
    · rw [b'.cont env' i n hn, b.cont (env 0) i n hn, (hx n (by omega) i hi).1, (hx (n + 1) (by omega) i hi).1]
      congr 3
      exact Finset.sum_congr rfl fun k hkl => by rw [(hk _ (block_lt hn (Finset.mem_range.mp hkl)) i hi).1]
    · rw [b'.cont env' _ n hn]
      refine ((hasDerivAt_step (hx n (by omega) i hi).2 fun k hkl => (hk _ (block_lt hn hkl) i hi).2).sub
        (hx (n + 1) (by omega) i hi).2).congr_of_eventuallyEq (Eventually.of_forall fun ε => ?_)
      exact b.cont (env ε) i n hn
  have hnp : d.np = d.p.rows := by simp [DaeObj.np, MXExpr.numel, pre.p]
  have hnp' : d'.np = d'.p.rows := by simp [DaeObj.np, MXExpr.numel, pre'.p]
  have hnq : d.nq = d.quad.rows := by simp [DaeObj.nq, MXExpr.numel, pre.quad]
  have hnq' : d'.nq = d'.quad.rows := by simp [DaeObj.nq, MXExpr.numel, pre'.quad]
  have hnx' := pre'.wf.nx
  have hnz' := pre'.wf.nz
  have hnu' := pre'.wf.nu
  rw [hT.nx] at hnx'
  rw [hT.nz] at hnz'
  rw [hT.nu] at hnu'
  rw [hT.np] at hnp'
  rw [hT.nq] at hnq'
  have hrel : ∀ n < t.length - 1, ∀ j < order, (∀ i < res'.rows, s'.eqCollocation.val env' i (n * order + j) = 0) ∧
      ∀ i < d.nq, s'.quad.val env' i (n * order + j) = s.quad.val (env 0) i (n * order + j) ∧
        HasDerivAt (fun ε => s.quad.val (env ε) i (n * order + j)) (s'.quad.val env' (d.nq + i) (n * order + j)) 0 := by
    intro n hn j hj
    have hc : n * order + j < (t.length - 1) * order := block_lt hn hj
    have hcs2 : n * order + j < s.N * s.M := by rw [b.N_eq, b.M_eq]; exact hc
    choose e hat using fun ε => exists_atPoint hcs pre b.toCore (env ε) hc
    obtain ⟨e', hat'⟩ := exists_atPoint hcs pre' b'.toCore env' hc
    have o := fun ε => (hat ε).out hcs pre b.toCore hc
    have o' := hat'.out hcs pre' b'.toCore hc
    have hr : TangentCurve d d' xdot xdot' tdp_fun e e' := by
      refine ⟨?_, ?_, ?_, ?_, ?_, ?_, ?_, ?_⟩
      · intro i hi
        have hi' : i < d.x.rows := by rw [← pre.wf.nx]; exact hi
        rw [hat'.xdot i (by omega), hat'.xdot (d.nx + i) (by omega), (hat 0).xdot i hi']
        refine ⟨(hf.k _ hcs2 i hi).1, (hf.k _ hcs2 i hi).2.congr_of_eventuallyEq (Eventually.of_forall fun ε => (hat ε).xdot i hi')⟩
      · intro i hi
        have hi' : i < d.x.rows := by rw [← pre.wf.nx]; exact hi
        rw [hat'.x i (by omega), hat'.x (d.nx + i) (by omega), (hat 0).x i hi']
        exact ⟨(hX n hn j hj i hi).1, (hX n hn j hj i hi).2.congr_of_eventuallyEq (Eventually.of_forall fun ε => (hat ε).x i hi')⟩
      · intro i hi
        have hi' : i < d.z.rows := by rw [← pre.wf.nz]; exact hi
        rw [hat'.z i (by omega), hat'.z (d.nz + i) (by omega), (hat 0).z i hi']
        exact ⟨(hf.z _ hcs2 i hi).1, (hf.z _ hcs2 i hi).2.congr_of_eventuallyEq (Eventually.of_forall fun ε => (hat ε).z i hi')⟩
      · intro i hi
        have hi' : i < d.u.rows := by rw [← pre.wf.nu]; exact hi
        have := hf.u n (by rw [b.N_eq]; exact hn) i hi
        have hu : ∀ ε, d.u.val (e ε) i 0 = s.u.val (env ε) i n := fun ε => by
          rw [(hat ε).u i hi', b.M_eq, div_block hj]
        rw [hat'.u i (by omega), hat'.u (d.nu + i) (by omega), hu 0, b'.M_eq, div_block hj]
        exact ⟨this.1, this.2.congr_of_eventuallyEq (Eventually.of_forall hu)⟩
      · intro i hi
        have hi' : i < d.p.rows := by rw [← hnp]; exact hi
        have := hf.p (if rep then n * order + j else 0) (by split_ifs; exacts [hcs2, Nat.one_pos]) i hi
        rw [hat'.p i (by omega), hat'.p (d.np + i) (by omega), (hat 0).p i hi']
        exact ⟨this.1, this.2.congr_of_eventuallyEq (Eventually.of_forall fun ε => (hat ε).p i hi')⟩
      · intro ε
        rw [(hat ε).t, hat'.t, htc n hn j hj]
      · intro f hfn ε i hi l hl
        rw [(hat ε).tdp f hfn i hi l hl, hat'.t, htc n hn j hj]
      · intro f hfn i hi l hl
        rw [hat'.tdp f hfn i hi l hl, hat'.t]
    have hz : ∀ᶠ ε in 𝓝 0, ResidualZero res (e ε) := by
      filter_upwards [h] with ε hε i hi l hl
      rw [pre.wf.res_cols] at hl
      obtain rfl : l = 0 := by omega
      rw [← (o ε).1 i hi]
      exact ((Scheme.eq_zero_iff pre b (env ε)).mp hε).1 _ hc i hi
    constructor
    · intro i hi
      rw [o'.1 i hi]
      exact hT.residual e e' hr hz i hi 0 (by rw [pre'.wf.res_cols]; exact Nat.one_pos)
    · intro i hi
      have hi' : i < d.quad.rows := by rw [← hnq]; exact hi
      have := hT.quadrature e e' hr hz i hi
      rw [o'.2 i (by omega), o'.2 (d.nq + i) (by omega), (o 0).2 i hi']
      exact ⟨this.1, this.2.congr_of_eventuallyEq (Eventually.of_forall fun ε => (o ε).2 i hi')⟩
  have hq : ∀ n ≤ t.length - 1, ∀ i < d.nq, s'.q.val env' i n = s.q.val (env 0) i n ∧
      HasDerivAt (fun ε => s.q.val (env ε) i n) (s'.q.val env' (d.nq + i) n) 0 := by
    intro n
    induction n with
    | zero =>
      intro _ i _
      simp only [b.q_zero, b'.q_zero, true_and]
      exact hasDerivAt_const _ _
    | succ n ih =>
      intro hn i hi
      constructor
      · rw [b'.q env' i n (by omega), b.q (env 0) i n (by omega), (ih (by omega) i hi).1]
        congr 2
        exact Finset.sum_congr rfl fun k hkl => by rw [((hrel n (by omega) k (Finset.mem_range.mp hkl)).2 i hi).1]
      · rw [b'.q env' _ n (by omega)]
        refine (hasDerivAt_step (ih (by omega) i hi).2 fun k hkl => ((hrel n (by omega) k hkl).2 i hi).2).congr_of_eventuallyEq
          (Eventually.of_forall fun ε => ?_)
        exact b.q (env ε) i n (by omega)
  refine ⟨(Scheme.eq_zero_iff pre' b' env').mpr ⟨?_, ?_, ?_⟩, ?_, ?_, ?_⟩
  · intro c hc i hi
    obtain ⟨n, j, hn, hj, rfl⟩ := hsplit c hc
    exact (hrel n hn j hj).1 i hi
  · intro n hn i hi
    rw [hT.nx] at hi
    by_cases hlt : i < d.nx
    · rw [(hcont n hn i hlt).1]
      exact ((Scheme.eq_zero_iff pre b (env 0)).mp h0).2.1 n hn i hlt
    · obtain ⟨k, rfl⟩ := Nat.exists_eq_add_of_le (not_lt.mp hlt)
      refine (hcont n hn k (by omega)).2.unique ((hasDerivAt_const (0 : ℝ) (0 : ℝ)).congr_of_eventuallyEq ?_)
      filter_upwards [h] with ε hε
      exact ((Scheme.eq_zero_iff pre b (env ε)).mp hε).2.1 n hn k (by omega)
  · intro hr c hc i hi
    subst hr
    have hp := hf.p
    simp only [if_true] at hp
    rw [b.N_eq, b.M_eq] at hp
    rw [hT.np] at hi
    by_cases hlt : i < d.np
    · rw [(hp c hc i hlt).1, (hp 0 (by omega) i hlt).1]
      exact ((Scheme.eq_zero_iff pre b (env 0)).mp h0).2.2 rfl c hc i hlt
    · obtain ⟨k, rfl⟩ := Nat.exists_eq_add_of_le (not_lt.mp hlt)
      refine (hp c hc k (by omega)).2.unique ((hp 0 (by omega) k (by omega)).2.congr_of_eventuallyEq ?_)
      filter_upwards [h] with ε hε
      exact ((Scheme.eq_zero_iff pre b (env ε)).mp hε).2.2 rfl c hc k (by omega)
  · rw [b.N_eq, b.M_eq]
    intro c hc i hi
    obtain ⟨n, j, hn, hj, rfl⟩ := hsplit c hc
    exact hX n hn j hj i hi
  · rw [b.N_eq]
    exact hq
  · rw [b.N_eq, b.M_eq]
    intro c hc i hi
    obtain ⟨n, j, hn, hj, rfl⟩ := hsplit c hc
    constructor
    · rw [b'.Q env' i n j hn hj, b.Q (env 0) i n j hn hj, (hq n (by omega) i hi).1]
      congr 2
      exact Finset.sum_congr rfl fun k hkl => by rw [((hrel n hn k (Finset.mem_range.mp hkl)).2 i hi).1]
    · rw [b'.Q env' _ n j hn hj]
      refine (hasDerivAt_step (hq n (by omega) i hi).2 fun k hkl => ((hrel n hn k hkl).2 i hi).2).congr_of_eventuallyEq
        (Eventually.of_forall fun ε => ?_)
      exact b.Q (env ε) i n j hn hj

end

/-! ## Non-vacuity: `x' = x^2` -/

/-- `x' = x^2`. -/
def rhsSq : Env ℝ → ℕ → ℝ := fun env _ => env 0 0 0 ^ 2

/-- `x' = x^2`, `y' = 2 x y`. -/
def rhsSqT : Env ℝ → ℕ → ℝ := fun env i => if i = 0 then env 0 0 0 ^ 2 else 2 * env 0 0 0 * env 0 1 0

/-- A step of the midpoint rule with the value `m` at the midpoint: from `m - m^2/2` to `m + m^2/2`. -/
noncomputable def envSq (m : ℝ) : Env ℝ := fun id _ j =>
  if id = 0 then (if j = 0 then m - m ^ 2 / 2 else m + m ^ 2 / 2) else if id = 1 then m ^ 2 else 0

/-- The step with `m = 1/2` and its derivative. -/
noncomputable def envSqT : Env ℝ := fun id i j =>
  if id = 0 then (if i = 0 then (if j = 0 then 3 / 8 else 5 / 8) else (if j = 0 then 1 / 2 else 3 / 2))
  else if id = 1 then (if i = 0 then 1 / 4 else 1) else 0

theorem wA_half : wA ([1 / 2] : List ℝ) 0 0 = 1 / 2 ∧ wb ([1 / 2] : List ℝ) 0 = 1 := by
  have hd : ([1 / 2] : List ℝ).Nodup := by simp
  have h1 := wA_affine (K := ℝ) hd 0 1 (P := X) (by rw [degree_X]; simp) (by simp) 0
  have h2 := wb_affine (K := ℝ) hd 0 1 (P := X) (by rw [degree_X]; simp) (by simp)
  simp only [List.length_singleton, Finset.sum_range_one, derivative_X, eval_one, eval_X, one_mul, zero_add, sub_zero] at h1 h2
  exact ⟨by simpa using h1, h2⟩

theorem tangent_sq (freshI : String → ℕ) : Tangent (odeD freshI 1 rhsSq) (odeD freshI 2 rhsSqT) (.sym (freshI "xdot") 1)
    (.sym (freshI "xdot") 2) (odeRes freshI 1 rhsSq) (odeRes freshI 2 rhsSqT) none := by
  refine ⟨rfl, rfl, rfl, rfl, rfl, fun e e' h hz => ?_, fun e e' h hz i hi => absurd hi (Nat.not_lt_zero _)⟩
  obtain ⟨k0, k1⟩ := h.xdot 0 (by show 0 < 1; omega)
  obtain ⟨x0, x1⟩ := h.x 0 (by show 0 < 1; omega)
  change e' (freshI "xdot") 0 0 = e 0 (freshI "xdot") 0 0 at k0
  change HasDerivAt (fun ε => e ε (freshI "xdot") 0 0) (e' (freshI "xdot") 1 0) 0 at k1
  change e' 0 0 0 = e 0 0 0 0 at x0
  change HasDerivAt (fun ε => e ε 0 0 0) (e' 0 1 0) 0 at x1
  have hz' : ∀ᶠ ε in 𝓝 0, e ε (freshI "xdot") 0 0 = e ε 0 0 0 ^ 2 := by
    filter_upwards [hz] with ε hε
    exact (ode_residual freshI 1 rhsSq (e ε)).mp hε 0 (by omega)
  rw [ode_residual]
  intro i hi
  interval_cases i
  · rw [k0, hz'.self_of_nhds]
    simp [rhsSqT, x0]
  · have := k1.unique ((x1.pow 2).congr_of_eventuallyEq hz')
    rw [this]
    simp [rhsSqT, x0]

/-- C131: the derivative of the step solves the collocation equations of the tangent model. -/
example (freshI : String → ℕ) (hI : 6 ≤ freshI "xdot") : ∃ s s',
    Scheme.new exFresh freshI (fun _ _ => .ok [1 / 2]) idealCsFunction (odeO 1 rhsSq) [0, 1] 1 "legendre" none = .ok s ∧
    Scheme.new exFresh freshI (fun _ _ => .ok [1 / 2]) idealCsFunction (odeO 2 rhsSqT) [0, 1] 1 "legendre" none = .ok s' ∧
    (∀ m, ∀ v ∈ s.eq.vals (envSq m), v = 0) ∧ (∀ v ∈ s'.eq.vals envSqT, v = 0) ∧
    s.x.val (envSq (1 / 2)) 0 1 = 5 / 8 ∧ s'.x.val envSqT 1 1 = 3 / 2 := by
  obtain ⟨F, pre⟩ := ode_pre freshI hI 1 rhsSq (fun e e' h _ i hi => by simp only [rhsSq, h 0 (by omega)]) rfl [0, 1] [1 / 2]
    (by simp) (by simp)
  obtain ⟨F', pre'⟩ := ode_pre freshI hI 2 rhsSqT (fun e e' h _ i hi => by
    simp only [rhsSqT, h 0 (by omega), h 1 (by omega)]) rfl [0, 1] [1 / 2] (by simp) (by simp)
  obtain ⟨s, hs⟩ := C26_constructed exFresh freshI _ _ _ _ _ _ _ _ _ _ _ _ false pre
  obtain ⟨s', hs'⟩ := C26_constructed exFresh freshI _ _ _ _ _ _ _ _ _ _ _ _ false pre'
  have heq : ∀ m, ∀ v ∈ s.eq.vals (envSq m), v = 0 := fun m =>
    ode_step freshI 1 rhsSq F wA_half.1 wA_half.2 pre s hs (envSq m) (fun e h _ i _ => by
      simp only [rhsSq]; rw [h 0 (by omega)]; simp [envSq]; ring) (fun i _ => by simp [envSq]; ring)
  have b := pre.built hs
  have b' := pre'.built hs'
  have hN : s.N = 1 := b.N_eq
  have hM : s.M = 1 := b.M_eq
  have hx : ∀ m i j, s.x.val (envSq m) i j = envSq m 0 i j := fun m i j => by rw [b.x]; rfl
  have hk : ∀ m i j, s.Kd.val (envSq m) i j = envSq m 1 i j := fun m i j => by rw [b.Kd]; rfl
  have hx' : ∀ i j, s'.x.val envSqT i j = envSqT 0 i j := fun i j => by rw [b'.x]; rfl
  have hk' : ∀ i j, s'.Kd.val envSqT i j = envSqT 1 i j := fun i j => by rw [b'.Kd]; rfl
  have hm : HasDerivAt (fun ε : ℝ => 1 / 2 + ε) 1 0 := (hasDerivAt_id (0 : ℝ)).const_add _
  have hm2 : HasDerivAt (fun ε : ℝ => (1 / 2 + ε) ^ 2) 1 0 := by
    have := hm.pow 2
    norm_num at this
    exact this
  have hf : TangentVars s s' (odeD freshI 1 rhsSq) false (fun ε => envSq (1 / 2 + ε)) envSqT := by
    refine ⟨?_, ?_, ?_, ?_, ?_⟩
    · intro n hn i hi
      obtain rfl : i = 0 := by change i < 1 at hi; omega
      rw [hN] at hn
      change s'.x.val envSqT 0 n = _ ∧ HasDerivAt _ (s'.x.val envSqT 1 n) 0
      simp only [hx, hx']
      interval_cases n
      · refine ⟨by norm_num [envSq, envSqT], ?_⟩
        have := hm.sub (hm2.div_const 2)
        norm_num [envSq, envSqT] at this ⊢
        exact this
      · refine ⟨by norm_num [envSq, envSqT], ?_⟩
        have := hm.add (hm2.div_const 2)
        norm_num [envSq, envSqT] at this ⊢
        exact this
    · intro n hn i hi
      obtain rfl : i = 0 := by change i < 1 at hi; omega
      change s'.Kd.val envSqT 0 n = _ ∧ HasDerivAt _ (s'.Kd.val envSqT 1 n) 0
      simp only [hk, hk']
      refine ⟨by norm_num [envSq, envSqT], ?_⟩
      norm_num [envSq, envSqT] at hm2 ⊢
      exact hm2
    · intro c _ i hi; exact absurd hi (Nat.not_lt_zero _)
    · intro c _ i hi; exact absurd hi (Nat.not_lt_zero _)
    · intro c _ i hi; exact absurd hi (Nat.not_lt_zero _)
  refine ⟨s, s', hs, hs', heq, (C131_tangent exFresh exFresh freshI freshI _ _ _ _ _ _ _ _ _ _ _ _ _ _ _ F F' false s s'
    idealCsFunction_spec pre pre' hs hs' (tangent_sq freshI) _ _ hf (Eventually.of_forall fun ε => heq _)).1,
    by rw [hx]; norm_num [envSq], by rw [hx']; norm_num [envSqT]⟩

end CE
