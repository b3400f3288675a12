import Verif.Num.PropsScheme2

/-!
# Schemes over different grids whose variables have the same columns
-/

open Polynomial

namespace CE

variable {K : Type} [Field K]

/-- The variables of the scheme `s'` have the values of columns of the variables of `s`: column `n` of `x` is column `bd n`,
column `n` of `u` is column `iv n`, column `c` of `K`, `Z` and (with a parameter column per point) of `p` is column `pt c`. -/
structure Columns (s s' : Scheme K) (d : DaeObj K) (rep : Bool) (env env' : Env K) (bd iv pt : ℕ → ℕ) : Prop where
  x : ∀ n ≤ s'.N, ∀ i < d.nx, s'.x.val env' i n = s.x.val env i (bd n)
  k : ∀ c < s'.N * s'.M, ∀ i < d.nx, s'.Kd.val env' i c = s.Kd.val env i (pt c)
  z : ∀ c < s'.N * s'.M, ∀ i < d.nz, s'.Z.val env' i c = s.Z.val env i (pt c)
  u : ∀ n < s'.N, ∀ i < d.nu, s'.u.val env' i n = s.u.val env i (iv n)
  p : ∀ c < (if rep then s'.N * s'.M else 1), ∀ i < d.np, s'.p.val env' i c = s.p.val env i (if rep then pt c else 0)

section
variable [DecidableEq K] [CharZero K] {fresh freshI : String → ℕ} {casadiPoints : ℕ → String → Except PyErr (List K)}
    {csFunction : List (MXExpr K) → List (MXExpr K) → Except PyErr (CsFn K)}
    {dae : DaeObj K} {t t' : List K} {order : ℕ} {method : String} {tdp_fun : Option (K → Mat K)}
    {d : DaeObj K} {xdot res : MXExpr K} {tau : List K} {F : CsFn K} {rep : Bool} {s s' : Scheme K}

/-- The equations of the scheme, part by part. -/
theorem Scheme.eq_zero_iff (pre : SchemePre freshI casadiPoints csFunction dae t order method tdp_fun d xdot res tau F)
    (b : s.Built fresh t order tdp_fun rep d xdot res tau F) (env : Env K) :
    (∀ v ∈ s.eq.vals env, v = 0) ↔
      (∀ c < (t.length - 1) * order, ∀ i < res.rows, s.eqCollocation.val env i c = 0) ∧
      (∀ n < t.length - 1, ∀ i < d.nx, s.eqContinuity.val env i n = 0) ∧
      (rep = true → ∀ c < (t.length - 1) * order, ∀ i < d.np, s.p.val env i c = s.p.val env i 0) := by
  have hnp : d.np = d.p.rows := by simp [DaeObj.np, MXExpr.numel, pre.p]
  have hpc : s.p.cols = if rep then (t.length - 1) * order else 1 := by rw [b.p]; rfl
  have hpr : s.p.rows = d.np := by rw [b.p, hnp]; rfl
  have hsplit : (∀ v ∈ s.eq.vals env, v = 0) ↔ (∀ v ∈ s.eqCollocation.vals env, v = 0) ∧
      (∀ v ∈ s.eqContinuity.vals env, v = 0) ∧ (∀ v ∈ s.eqParam.vals env, v = 0) := by
    unfold Scheme.eq
    rw [structMX_vals]
    simp only [stackedVals, List.map_cons, List.map_nil, List.flatten_cons, List.flatten_nil, List.append_nil,
      List.mem_append]
    constructor
    · intro h; exact ⟨fun v hv => h v (.inl hv), fun v hv => h v (.inr (.inl hv)), fun v hv => h v (.inr (.inr hv))⟩
    · rintro ⟨h1, h2, h3⟩ v (hv | hv | hv)
      exacts [h1 v hv, h2 v hv, h3 v hv]
  rw [hsplit, vals_zero_iff, vals_zero_iff, vals_zero_iff, b.coll_shape.1, b.coll_shape.2, b.cont_shape.1, b.cont_shape.2,
    pre.wf.nx, pre.wf.res_rows]
  refine and_congr ⟨fun h c hc i hi => h i hi c hc, fun h i hi c hc => h c hc i hi⟩
    (and_congr ⟨fun h c hc i hi => h i hi c hc, fun h i hi c hc => h c hc i hi⟩ ?_)
  rw [b.param]
  simp only [MXExpr.diffCols]
  rw [hpr, hpc]
  cases rep
  · simp
  · simp only [if_true, forall_const]
    constructor
    · intro h c hc i hi
      induction c with
      | zero => rfl
      | succ c ih => rw [← ih (by omega)]; exact sub_eq_zero.mp (h i hi c (by omega))
    · intro h i hi c hc
      rw [h (c + 1) (by omega) i hi, h c (by omega) i hi, sub_self]

/-- If the variables, times and states at a point are those of a point of the other scheme, so are the residual and the
quadrature. -/
theorem Columns.out {env env' : Env K} {bd iv pt : ℕ → ℕ} (hcs : IsCsFunction csFunction)
    (pre : SchemePre freshI casadiPoints csFunction dae t order method tdp_fun d xdot res tau F)
    (pre' : SchemePre freshI casadiPoints csFunction dae t' order method tdp_fun d xdot res tau F)
    (b : s.Built fresh t order tdp_fun rep d xdot res tau F) (b' : s'.Built fresh t' order tdp_fun rep d xdot res tau F)
    (h : Columns s s' d rep env env' bd iv pt) (c : ℕ) (hc' : c < (t'.length - 1) * order) (hc : pt c < (t.length - 1) * order)
    (hiv : iv (c / order) = pt c / order) (htc : nd s'.tc c = nd s.tc (pt c))
    (hX : ∀ i < d.nx, s'.X.val env' i c = s.X.val env i (pt c)) :
    (∀ i < res.rows, s'.eqCollocation.val env' i c = s.eqCollocation.val env i (pt c)) ∧
    (∀ i < d.nq, s'.quad.val env' i c = s.quad.val env i (pt c)) := by
  have hnq : d.nq = d.quad.rows := by simp [DaeObj.nq, MXExpr.numel, pre.quad]
  have hnp : d.np = d.p.rows := by simp [DaeObj.np, MXExpr.numel, pre.p]
  obtain ⟨e, hat'⟩ := exists_atPoint hcs pre' b'.toCore env' hc'
  have hc2 : c < s'.N * s'.M := by rw [b'.N_eq, b'.M_eq]; exact hc'
  have hat : AtPoint s d xdot tdp_fun rep env e (pt c) := by
    refine ⟨?_, ?_, ?_, ?_, ?_, ?_, ?_⟩
    · intro i hi; rw [hat'.xdot i hi, h.k c hc2 i (by rw [pre.wf.nx]; exact hi)]
    · intro i hi; rw [hat'.x i hi, hX i (by rw [pre.wf.nx]; exact hi)]
    · intro i hi; rw [hat'.z i hi, h.z c hc2 i (by rw [pre.wf.nz]; exact hi)]
    · intro i hi
      rw [hat'.u i hi, b'.M_eq, h.u _ (by rw [b'.N_eq]; exact Nat.div_lt_of_lt_mul (by rwa [Nat.mul_comm])) i
        (by rw [pre.wf.nu]; exact hi), hiv, b.M_eq]
    · intro i hi
      rw [hat'.p i hi]
      have := h.p (if rep then c else 0) (by split_ifs; exacts [hc2, Nat.one_pos]) i (by rw [hnp]; exact hi)
      rw [this]
      cases rep <;> rfl
    · rw [hat'.t, htc]
    · intro f hf i hi j hj; rw [hat'.tdp f hf i hi j hj, htc]
  have o := hat.out hcs pre b.toCore hc
  have o' := hat'.out hcs pre' b'.toCore hc'
  exact ⟨fun i hi => by rw [o'.1 i hi, o.1 i hi], fun i hi => by rw [o'.2 i (hnq ▸ hi), o.2 i (hnq ▸ hi)]⟩

end

end CE
