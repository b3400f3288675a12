import Verif.Num.SchemeLemmas

/-!
# Properties C24-C28: the collocation equations

The theorems are about `s` with `Scheme.new … = .ok s` under the hypotheses `SchemePre` on the arguments (which make the
construction succeed, `C26_constructed`); `csFunction` is CasADi's `cs.Function`, of which `IsCsFunction` states what is
assumed.
-/

open Polynomial

namespace CE

variable {K : Type} [Field K]

/-- `F` is the function of the expressions `outs` in the symbols `ins`: (1) the inputs are independent symbols, so that
they can take any values; (2) `F` computes from the values of the inputs the values of the outputs. -/
structure IsFunctionOf (ins outs : List (MXExpr K)) (F : CsFn K) : Prop where
  free : ∀ args : List (Mat K),
    List.Forall₂ (fun (a : Mat K) (e : MXExpr K) => a.rows = e.rows ∧ a.cols = e.cols) args ins →
      ∃ env, List.Forall₂ (fun (a : Mat K) (e : MXExpr K) => a.Same (e.at' env)) args ins
  sound : ∀ (args : List (Mat K)) env,
    List.Forall₂ (fun (a : Mat K) (e : MXExpr K) => a.Same (e.at' env)) args ins →
      List.Forall₂ (fun (a : Mat K) (e : MXExpr K) => a.Same (e.at' env)) (F args) outs

/-- What is assumed about `cs.Function(name, ins, outs)`: if it accepts the expressions (it rejects inputs that are not
symbols, repeated inputs and outputs with other symbols), the result is the function. -/
def IsCsFunction (csFunction : List (MXExpr K) → List (MXExpr K) → Except PyErr (CsFn K)) : Prop :=
  ∀ ins outs F, csFunction ins outs = .ok F → IsFunctionOf ins outs F

/-- `P` is the polynomial that describes state `i` on interval `n`: degree at most the number of collocation points, it
starts at `x[i, n]`, and its derivative at the collocation points is `K[i, ·]`. -/
structure IsCollocationPoly (s : Scheme K) (env : Env K) (i n : ℕ) (P : K[X]) : Prop where
  degree : P.degree ≤ s.M
  start : P.eval (nd s.t n) = s.x.val env i n
  deriv : ∀ j < s.M, (derivative P).eval (nd s.tc (n * s.M + j)) = s.Kd.val env i (n * s.M + j)

/-- The assignment `env'` gives the symbols of the (implicit) model `d` the values that belong to collocation point `c`
when the variables of the scheme have the values `env`: the point's state derivative, state, algebraic state, the input
of the point's interval, the parameter (its column `c` if there is one column per point), the point's time, and the
value of the time-dependent parameter at that time. -/
structure AtPoint (s : Scheme K) (d : DaeObj K) (xdot : MXExpr K) (tdp_fun : Option (K → Mat K)) (rep : Bool)
    (env env' : Env K) (c : ℕ) : Prop where
  xdot : ∀ i < d.x.rows, xdot.val env' i 0 = s.Kd.val env i c
  x : ∀ i < d.x.rows, d.x.val env' i 0 = s.X.val env i c
  z : ∀ i < d.z.rows, d.z.val env' i 0 = s.Z.val env i c
  u : ∀ i < d.u.rows, d.u.val env' i 0 = s.u.val env i (c / s.M)
  p : ∀ i < d.p.rows, d.p.val env' i 0 = s.p.val env i (if rep then c else 0)
  t : d.t.val env' 0 0 = nd s.tc c
  tdp : ∀ f, tdp_fun = some f → ∀ i < d.tdp.rows, ∀ j < d.tdp.cols, d.tdp.val env' i j = (f (nd s.tc c)).e i j

/-! ## Lemmas -/

section
variable [CharZero K]

/-- Evaluation of the antiderivative on an interval: `R(s) = P(a + h s)`. -/
theorem weights_affine [DecidableEq K] {tau : List K} (hd : tau.Nodup) (a h : K) {p P : K[X]} (hp : p.degree < tau.length)
    (hP : derivative P = p) (x : K) :
    h * ∑ k ∈ Finset.range tau.length, p.eval (a + h * nd tau k) * ((butcherPoly tau k).polyint).eval x
      = P.eval (a + h * x) - P.eval a := by
  have h1 : derivative (P.comp (C h * X + C a)) = C h * p.comp (C h * X + C a) := by
    rw [derivative_comp, hP]
    simp
  have hdeg : (C h * p.comp (C h * X + C a)).degree < tau.length := by
    refine lt_of_le_of_lt (degree_mul_le _ _) ?_
    by_cases hh : h = 0
    · simp [hh]
    · rw [degree_C hh, zero_add]
      exact degree_comp_linear_lt h a hp
  have := sum_pint hd hdeg h1 x
  simp only [eval_mul, eval_C, eval_comp, eval_add, eval_X] at this
  rw [mul_zero, zero_add, add_comm (h * x)] at this
  rw [← this, Finset.mul_sum]
  exact Finset.sum_congr rfl fun k _ => by rw [add_comm (h * nd tau k)]; ring

omit [CharZero K] in
theorem affine_injOn {tau : List K} (hd : tau.Nodup) {a h : K} (hh : h ≠ 0) :
    Set.InjOn (fun j => a + h * nd tau j) (Finset.range tau.length : Set ℕ) := by
  classical
  intro i hi j hj hij
  exact nd_injOn hd hi hj (mul_left_cancel₀ hh (add_left_cancel hij))

omit [CharZero K] in
/-- Interpolation at the images of the nodes. -/
theorem exists_interp {tau : List K} (hd : tau.Nodup) {a h : K} (hh : h ≠ 0) (f : ℕ → K) :
    ∃ p : K[X], p.degree < tau.length ∧ ∀ j < tau.length, p.eval (a + h * nd tau j) = f j := by
  classical
  refine ⟨Lagrange.interpolate (Finset.range tau.length) (fun j => a + h * nd tau j) f, ?_, ?_⟩
  · have := Lagrange.degree_interpolate_lt (s := Finset.range tau.length) f (affine_injOn hd hh (a := a))
    simpa using this
  · intro j hj
    exact Lagrange.eval_interpolate_at_node f (affine_injOn hd hh) (Finset.mem_range.mpr hj)

theorem degree_antiderivative {p P : K[X]} {m : ℕ} (hp : p.degree < m) (hP : derivative P = p) : P.degree ≤ m := by
  by_cases h0 : 0 < P.natDegree
  · have := degree_derivative_eq P h0
    rw [hP] at this
    rw [this] at hp
    refine degree_le_of_natDegree_le ?_
    have hp : P.natDegree - 1 < m := by exact_mod_cast hp
    omega
  · refine degree_le_of_natDegree_le ?_
    omega

theorem degree_deriv_lt {P : K[X]} {m : ℕ} (hm : 0 < m) (h : P.degree ≤ m) : (derivative P).degree < m := by
  by_cases h0 : P = 0
  · rw [h0]; simp only [derivative_zero, degree_zero]; exact WithBot.bot_lt_coe _
  · exact lt_of_lt_of_le (degree_derivative_lt h0) h

end

section Built
variable [DecidableEq K] [CharZero K] {fresh freshI : String → ℕ} {casadiPoints : ℕ → String → Except PyErr (List K)}
    {csFunction : List (MXExpr K) → List (MXExpr K) → Except PyErr (CsFn K)}
    {dae : DaeObj K} {t : List K} {order : ℕ} {method : String} {tdp_fun : Option (K → Mat K)}
    {d : DaeObj K} {xdot res : MXExpr K} {tau : List K} {F : CsFn K} {rep : Bool} {s : Scheme K}

theorem SchemePre.built (pre : SchemePre freshI casadiPoints csFunction dae t order method tdp_fun d xdot res tau F)
    (hs : Scheme.new fresh freshI casadiPoints csFunction dae t order method tdp_fun rep = .ok s) :
    s.Built fresh t order tdp_fun rep d xdot res tau F := by
  obtain ⟨s', h1, h2⟩ := Scheme.new_built (fresh := fresh) rep pre
  rw [hs] at h1
  cases h1
  exact h2

theorem col_same {e : MXExpr K} {r : ℕ} (he : e.rows = r) (env env' : Env K) (c : ℕ) (f : MXExpr K) (hf : f.rows = r)
    (hfc : f.cols = 1) (h : ∀ i < r, f.val env' i 0 = e.val env i c) : (e.col env c).Same (f.at' env') := by
  refine ⟨by show e.rows = f.rows; rw [he, hf], by show 1 = f.cols; exact hfc.symm, ?_⟩
  intro i hi j hj
  have hj : j = 0 := by change j < 1 at hj; omega
  subst hj
  show e.val env i (c * 1 + 0) = f.val env' i 0
  rw [h i (he ▸ hi)]; simp

/-- The arguments of the call number `c` are the values of the inputs of the DAE function under an assignment
that belongs to the point. -/
theorem AtPoint.args (pre : SchemePre freshI casadiPoints csFunction dae t order method tdp_fun d xdot res tau F)
    (b : s.Core fresh t order tdp_fun rep d F) {env env' : Env K} {c : ℕ} (hc : c < (t.length - 1) * order)
    (h : AtPoint s d xdot tdp_fun rep env env' c) :
    List.Forall₂ (fun (a : Mat K) (e : MXExpr K) => a.Same (e.at' env'))
      [s.Kd.col env c, s.X.col env c, s.Z.col env c, s.U.col env c,
      if rep then s.p.col env c else s.p.at' env, ⟨1, 1, fun _ j => nd s.tc (c * 1 + j)⟩, s.tdp.blk env d.tdp.cols c]
      [xdot, d.x, d.z, d.u, d.p, d.t, d.tdp] := by
  have wf := pre.wf
  refine .cons (col_same (by rw [b.Kd]; rfl) _ _ _ _ wf.xdot_rows wf.xdot_cols h.xdot) (.cons
    (col_same b.X_shape.1 _ _ _ _ rfl wf.x h.x) (.cons (col_same (by rw [b.Z]; rfl) _ _ _ _ rfl wf.z h.z) (.cons
    (col_same b.U_shape.1 _ _ _ _ rfl wf.u ?_) (.cons ?_ (.cons ?_ (.cons
      ⟨b.tdp_shape.1, rfl, ?_⟩ .nil))))))
  · intro i hi
    rw [h.u i hi, b.M_eq, b.u]
    have hmod := Nat.div_add_mod c order
    rw [Nat.mul_comm] at hmod
    have := b.U env i (c / order) (c % order) (Nat.div_lt_of_lt_mul (by rw [Nat.mul_comm]; exact hc)) (Nat.mod_lt _ pre.pos)
    rw [hmod] at this
    rw [this]; rfl
  · have hp := h.p
    cases rep
    · simp only [Bool.false_eq_true, if_false] at hp ⊢
      have hpe := b.p
      simp only [Bool.false_eq_true, if_false] at hpe
      rw [hpe] at hp ⊢
      refine ⟨rfl, pre.p.symm, ?_⟩
      intro i hi j hj
      have hj : j = 0 := by change j < 1 at hj; omega
      subst hj
      exact (hp i hi).symm
    · simp only [if_true] at hp ⊢
      exact col_same (by rw [b.p]; rfl) _ _ _ _ rfl pre.p hp
  · refine ⟨wf.t.1.symm, wf.t.2.symm, ?_⟩
    intro i hi j hj
    have hi : i = 0 := by change i < 1 at hi; omega
    have hj : j = 0 := by change j < 1 at hj; omega
    subst hi hj
    show nd s.tc (c * 1 + 0) = _
    rw [Nat.mul_one, Nat.add_zero]
    exact h.t.symm
  · intro i hi j hj
    have hi : i < d.tdp.rows := b.tdp_shape.1 ▸ hi
    show s.tdp.val env i (c * d.tdp.cols + j) = d.tdp.val env' i j
    rw [b.tdp env i c hc hi j hj]
    cases hf : tdp_fun with
    | none =>
      have := pre.tdpFun
      rw [hf] at this
      exact absurd (this.1 ▸ hi) (Nat.not_lt_zero i)
    | some f => exact (h.tdp f hf i hi j hj).symm

/-- There is an assignment for every point. -/
theorem exists_atPoint (hcs : IsCsFunction csFunction)
    (pre : SchemePre freshI casadiPoints csFunction dae t order method tdp_fun d xdot res tau F)
    (b : s.Core fresh t order tdp_fun rep d F) (env : Env K) {c : ℕ} (hc : c < (t.length - 1) * order) :
    ∃ env', AtPoint s d xdot tdp_fun rep env env' c := by
  have wf := pre.wf
  obtain ⟨env', he⟩ := (hcs _ _ _ pre.fn).free
    [s.Kd.col env c, s.X.col env c, s.Z.col env c, s.U.col env c,
      if rep then s.p.col env c else s.p.at' env, ⟨1, 1, fun _ j => nd s.tc (c * 1 + j)⟩, s.tdp.blk env d.tdp.cols c] (by
    refine .cons ⟨?_, wf.xdot_cols.symm⟩ (.cons ⟨b.X_shape.1, wf.x.symm⟩ (.cons ⟨?_, wf.z.symm⟩ (.cons ⟨b.U_shape.1, wf.u.symm⟩
      (.cons ?_ (.cons ⟨wf.t.1.symm, wf.t.2.symm⟩ (.cons ⟨b.tdp_shape.1, rfl⟩ .nil))))))
    · rw [wf.xdot_rows]; show s.Kd.rows = _; rw [b.Kd]; rfl
    · show s.Z.rows = _; rw [b.Z]; rfl
    · cases rep
      · simp only [Bool.false_eq_true, if_false]
        have hpe := b.p
        rw [hpe, pre.p]; exact ⟨rfl, rfl⟩
      · simp only [if_true]
        rw [pre.p]
        refine ⟨?_, rfl⟩
        show s.p.rows = _; rw [b.p]; rfl)
  simp only [List.forall₂_cons, List.forall₂_nil_left_iff, and_true] at he
  obtain ⟨h1, h2, h3, h4, h5, h6, h7⟩ := he
  refine ⟨env', ?_, ?_, ?_, ?_, ?_, ?_, ?_⟩
  · intro i hi
    have := h1.2.2 i (by show i < s.Kd.rows; rw [b.Kd]; exact hi) 0 Nat.one_pos
    rw [show s.Kd.val env i c = (s.Kd.col env c).e i 0 by simp [MXExpr.col, Mat.colSlice, MXExpr.at'], this]; rfl
  · intro i hi
    have := h2.2.2 i (by show i < s.X.rows; rw [b.X_shape.1]; exact hi) 0 Nat.one_pos
    rw [show s.X.val env i c = (s.X.col env c).e i 0 by simp [MXExpr.col, Mat.colSlice, MXExpr.at'], this]; rfl
  · intro i hi
    have := h3.2.2 i (by show i < s.Z.rows; rw [b.Z]; exact hi) 0 Nat.one_pos
    rw [show s.Z.val env i c = (s.Z.col env c).e i 0 by simp [MXExpr.col, Mat.colSlice, MXExpr.at'], this]; rfl
  · intro i hi
    have := h4.2.2 i (by show i < s.U.rows; rw [b.U_shape.1]; exact hi) 0 Nat.one_pos
    rw [show (s.U.col env c).e i 0 = s.U.val env i c by simp [MXExpr.col, Mat.colSlice, MXExpr.at']] at this
    have hmod := Nat.div_add_mod c order
    rw [Nat.mul_comm] at hmod
    have hU := b.U env i (c / order) (c % order) (Nat.div_lt_of_lt_mul (by rw [Nat.mul_comm]; exact hc)) (Nat.mod_lt _ pre.pos)
    rw [hmod] at hU
    rw [b.M_eq, b.u]
    exact this.symm.trans hU
  · intro i hi
    cases rep
    · simp only [Bool.false_eq_true, if_false] at h5 ⊢
      have hpe := b.p
      simp only [Bool.false_eq_true, if_false] at hpe
      exact (h5.2.2 i (by show i < s.p.rows; rw [hpe]; exact hi) 0 (by show 0 < s.p.cols; rw [hpe]; exact Nat.one_pos)).symm
    · simp only [if_true] at h5 ⊢
      have := h5.2.2 i (by show i < s.p.rows; rw [b.p]; exact hi) 0 Nat.one_pos
      rw [show s.p.val env i c = (s.p.col env c).e i 0 by simp [MXExpr.col, Mat.colSlice, MXExpr.at'], this]; rfl
  · have := h6.2.2 0 Nat.one_pos 0 Nat.one_pos
    rw [show nd s.tc c = nd s.tc (c * 1 + 0) by simp]
    exact this.symm
  · intro f hf i hi j hj
    have := h7.2.2 i (by show i < s.tdp.rows; rw [b.tdp_shape.1]; exact hi) j hj
    have ht := b.tdp env i c hc hi j hj
    rw [hf] at ht
    exact this.symm.trans ht

/-- The values of `eq['collocation']` and `quad` in column `c` are those of the model's residual and quadrature at the
point. -/
theorem AtPoint.out (hcs : IsCsFunction csFunction)
    (pre : SchemePre freshI casadiPoints csFunction dae t order method tdp_fun d xdot res tau F)
    (b : s.Core fresh t order tdp_fun rep d F) {env env' : Env K} {c : ℕ} (hc : c < (t.length - 1) * order)
    (h : AtPoint s d xdot tdp_fun rep env env' c) :
    (∀ i < res.rows, s.eqCollocation.val env i c = res.val env' i 0) ∧
    (∀ i < d.quad.rows, s.quad.val env i c = d.quad.val env' i 0) := by
  have hF := (hcs _ _ _ pre.fn).sound _ env' (h.args pre b hc)
  have hout := b.out env c hc
  revert hF hout
  generalize F _ = r
  intro hF hout
  cases hF with
  | cons hr hF =>
    cases hF with
    | cons hq hF =>
      constructor
      · intro i hi
        rw [(hout i).1]
        exact hr.2.2 i (by rw [hr.1]; exact hi) 0 (by rw [hr.2.1]; show 0 < res.cols; rw [pre.wf.res_cols]; exact Nat.one_pos)
      · intro i hi
        rw [(hout i).2]
        exact hq.2.2 i (by rw [hq.1]; exact hi) 0 (by rw [hq.2.1]; show 0 < d.quad.cols; rw [pre.quad]; exact Nat.one_pos)

end Built

/-! ## C26 -/

section
variable [DecidableEq K] [CharZero K] (fresh freshI : String → ℕ) (casadiPoints : ℕ → String → Except PyErr (List K))
    (csFunction : List (MXExpr K) → List (MXExpr K) → Except PyErr (CsFn K))
    (dae : DaeObj K) (t : List K) (order : ℕ) (method : String) (tdp_fun : Option (K → Mat K))
    (d : DaeObj K) (xdot res : MXExpr K) (tau : List K) (F : CsFn K) (rep : Bool) (s : Scheme K)

/-- The construction succeeds. -/
theorem C26_constructed (pre : SchemePre freshI casadiPoints csFunction dae t order method tdp_fun d xdot res tau F) :
    ∃ s, Scheme.new fresh freshI casadiPoints csFunction dae t order method tdp_fun rep = .ok s := by
  obtain ⟨s, hs, _⟩ := Scheme.new_built (fresh := fresh) rep pre
  exact ⟨s, hs⟩

/-- **C26** Times and inputs at the collocation points, number of points, and the shapes of the variables. -/
theorem C26_points_and_inputs
    (pre : SchemePre freshI casadiPoints csFunction dae t order method tdp_fun d xdot res tau F)
    (hs : Scheme.new fresh freshI casadiPoints csFunction dae t order method tdp_fun rep = .ok s) :
    (s.N = t.length - 1 ∧ s.M = order ∧ s.t = t ∧ s.numTotalCollocationPoints = s.N * s.M) ∧
    (s.tc.length = s.N * s.M ∧
      ∀ n < s.N, ∀ j < s.M, nd s.tc (n * s.M + j) = nd t n + (nd t (n + 1) - nd t n) * nd tau j) ∧
    (s.u.rows = d.nu ∧ s.u.cols = s.N ∧ s.U.rows = d.nu ∧ s.U.cols = s.N * s.M ∧
      ∀ env, ∀ n < s.N, ∀ j < s.M, ∀ i < d.nu, s.U.val env i (n * s.M + j) = s.u.val env i n) ∧
    (s.x.rows = d.nx ∧ s.x.cols = s.N + 1 ∧ s.Kd.rows = d.nx ∧ s.Kd.cols = s.N * s.M ∧ s.X.rows = d.nx ∧
      s.X.cols = s.N * s.M ∧ s.Z.rows = d.nz ∧ s.Z.cols = s.N * s.M ∧ s.p.rows = d.np ∧
      s.p.cols = if rep then s.N * s.M else 1) := by
  have b := pre.built hs
  have hnp : d.np = d.p.rows := by simp [DaeObj.np, MXExpr.numel, pre.p]
  rw [b.N_eq, b.M_eq, pre.wf.nu, pre.wf.nx, pre.wf.nz, hnp]
  refine ⟨⟨rfl, rfl, b.t_eq, ?_⟩, ⟨b.tc_len, fun n hn j hj => b.tc n j hn hj⟩,
    ⟨by rw [b.u]; rfl, by rw [b.u]; rfl, b.U_shape.1, b.U_shape.2, fun env n hn j hj i _ => ?_⟩,
    ⟨by rw [b.x]; rfl, by rw [b.x]; rfl, by rw [b.Kd]; rfl, by rw [b.Kd]; rfl, b.X_shape.1, b.X_shape.2,
      by rw [b.Z]; rfl, by rw [b.Z]; rfl, by rw [b.p]; rfl, by rw [b.p]; rfl⟩⟩
  · rw [Scheme.numTotalCollocationPoints, b.N_eq, b.M_eq, Nat.mul_comm]
  · rw [b.U env i n j hn hj, b.u]; rfl

/-! ## C24 -/

/-- **C24** On every interval there is exactly one collocation polynomial per state; `X` is its value at the collocation
points and the continuity equation compares its value at the end of the interval with the next `x`. -/
theorem C24_state_integration
    (pre : SchemePre freshI casadiPoints csFunction dae t order method tdp_fun d xdot res tau F)
    (hs : Scheme.new fresh freshI casadiPoints csFunction dae t order method tdp_fun rep = .ok s)
    (hd : tau.Nodup) (env : Env K) (i n : ℕ) (hn : n < s.N) :
    (nd t n ≠ nd t (n + 1) → ∃! P, IsCollocationPoly s env i n P) ∧
    ∀ P, IsCollocationPoly s env i n P →
      (∀ j < s.M, s.X.val env i (n * s.M + j) = P.eval (nd s.tc (n * s.M + j))) ∧
      s.eqContinuity.val env i n = P.eval (nd t (n + 1)) - s.x.val env i (n + 1) := by
  have b := pre.built hs
  have hlen := pre.len
  have hpos := pre.pos
  rw [b.N_eq] at hn
  constructor
  · intro hne
    have hh : nd t (n + 1) - nd t n ≠ 0 := sub_ne_zero.mpr hne.symm
    obtain ⟨p, hp, hpv⟩ := exists_interp hd (a := nd t n) hh (fun j => s.Kd.val env i (n * order + j))
    obtain ⟨P, hP⟩ := exists_antiderivative p
    have hder : derivative (P + C (s.x.val env i n - P.eval (nd t n))) = p := by simp [hP]
    refine ⟨P + C (s.x.val env i n - P.eval (nd t n)), ⟨?_, ?_, ?_⟩, ?_⟩
    · rw [b.M_eq, ← hlen]; exact degree_antiderivative hp hder
    · simp [b.t_eq]
    · intro j hj
      rw [b.M_eq] at hj ⊢
      rw [b.tc n j hn hj, hder, hpv j (by omega)]
    · rintro Q ⟨hQ1, hQ2, hQ3⟩
      have hQd : derivative Q = p := by
        refine Polynomial.eq_of_degrees_lt_of_eval_finset_eq
          ((Finset.range tau.length).image fun j => nd t n + (nd t (n + 1) - nd t n) * nd tau j) ?_ ?_ ?_
        · rw [Finset.card_image_of_injOn (affine_injOn hd hh), Finset.card_range, hlen]
          rw [b.M_eq] at hQ1
          exact degree_deriv_lt hpos hQ1
        · rw [Finset.card_image_of_injOn (affine_injOn hd hh), Finset.card_range]; exact hp
        · intro x hx
          obtain ⟨j, hj, rfl⟩ := Finset.mem_image.mp hx
          have hj := Finset.mem_range.mp hj
          have := hQ3 j (by rw [b.M_eq]; omega)
          rw [b.M_eq, b.tc n j hn (by omega)] at this
          rw [this, hpv j hj]
      haveI : Infinite K := Infinite.of_injective (Nat.cast : ℕ → K) Nat.cast_injective
      refine Polynomial.funext fun x => ?_
      have := antiderivative_diff (hQd.trans hder.symm) x (nd t n)
      rw [b.t_eq] at hQ2
      rw [hQ2] at this
      simp only [eval_add, eval_C] at this ⊢
      linear_combination this
  · rintro P ⟨hP1, hP2, hP3⟩
    rw [b.M_eq] at hP1 hP3 ⊢
    rw [b.t_eq] at hP2
    have hdeg : (derivative P).degree < tau.length := by rw [hlen]; exact degree_deriv_lt hpos hP1
    have hw := fun x => weights_affine hd (nd t n) (nd t (n + 1) - nd t n) hdeg rfl x
    have hsum : ∀ w : ℕ → K, ∑ k ∈ Finset.range order, env (fresh "K") i (n * order + k) * w k =
        ∑ k ∈ Finset.range tau.length,
          (derivative P).eval (nd t n + (nd t (n + 1) - nd t n) * nd tau k) * w k := by
      intro w
      rw [hlen]
      refine Finset.sum_congr rfl fun k hk => ?_
      have hk := Finset.mem_range.mp hk
      have := hP3 k hk
      rw [b.tc n k hn hk, b.Kd] at this
      rw [this]; rfl
    have hx : ∀ m, s.x.val env i m = env (fresh "x") i m := fun m => by rw [b.x]; rfl
    constructor
    · intro j hj
      rw [b.X env i n j hn hj, b.tc n j hn hj, hsum (wA tau j)]
      simp only [wA]
      rw [hw, ← hx, ← hP2]
      ring
    · rw [b.cont env i n hn, hsum (wb tau)]
      simp only [wb]
      rw [hw, ← hx, ← hx, ← hP2]
      ring_nf

/-! ## C25 -/

omit [DecidableEq K] [CharZero K] in
theorem vals_zero_iff (e : MXExpr K) (env : Env K) :
    (∀ v ∈ e.vals env, v = 0) ↔ ∀ i < e.rows, ∀ j < e.cols, e.val env i j = 0 := by
  unfold MXExpr.vals
  constructor
  · intro h i hi j hj
    apply h
    rw [List.mem_map]
    have hlt : j * e.rows + i < e.cols * e.rows := block_lt hj hi
    refine ⟨j * e.rows + i, List.mem_range.mpr (by rw [Nat.mul_comm e.rows]; exact hlt), ?_⟩
    rw [mod_block hi, div_block hi]
  · intro h v hv
    obtain ⟨k, hk, rfl⟩ := List.mem_map.mp hv
    have hk := List.mem_range.mp hk
    have hr : 0 < e.rows := Nat.pos_of_ne_zero fun h0 => by simp [h0] at hk
    exact h _ (Nat.mod_lt _ hr) _ (Nat.div_lt_of_lt_mul hk)

/-- **C25** The equations hold exactly when the residuals of the model vanish at every collocation point, every collocation
polynomial ends at the next `x`, and (with a parameter column per point) all parameter columns are equal; number of
equations. -/
theorem C25_equations (hcs : IsCsFunction csFunction)
    (pre : SchemePre freshI casadiPoints csFunction dae t order method tdp_fun d xdot res tau F)
    (hs : Scheme.new fresh freshI casadiPoints csFunction dae t order method tdp_fun rep = .ok s)
    (hd : tau.Nodup) (ht : ∀ n < s.N, nd t n ≠ nd t (n + 1)) (env : Env K) :
    ((∀ v ∈ s.eq.vals env, v = 0) ↔
      (∀ c < s.N * s.M, ∀ env', AtPoint s d xdot tdp_fun rep env env' c → ResidualZero res env') ∧
      (∀ n < s.N, ∀ i < d.nx, ∀ P, IsCollocationPoly s env i n P → P.eval (nd t (n + 1)) = s.x.val env i (n + 1)) ∧
      (rep = true → ∀ c < s.N * s.M, ∀ i < d.np, s.p.val env i c = s.p.val env i 0)) ∧
    (∀ c < s.N * s.M, ∃ env', AtPoint s d xdot tdp_fun rep env env' c) ∧
    (s.eq.vals env).length = (d.nx + d.nz) * (s.N * s.M) + d.nx * s.N + (if rep then d.np * (s.N * s.M - 1) else 0) := by
  have b := pre.built hs
  have hnp : d.np = d.p.rows := by simp [DaeObj.np, MXExpr.numel, pre.p]
  have h24 := fun i n hn => C24_state_integration fresh freshI casadiPoints csFunction dae t order method tdp_fun d xdot
    res tau F rep s pre hs hd env i n hn
  have hpc : s.p.cols = if rep then (t.length - 1) * order else 1 := by rw [b.p]; rfl
  have hpr : s.p.rows = d.np := by rw [b.p, hnp]; rfl
  refine ⟨?_, ?_, ?_⟩
  · have hsplit : (∀ v ∈ s.eq.vals env, v = 0) ↔ (∀ v ∈ s.eqCollocation.vals env, v = 0) ∧
        (∀ v ∈ s.eqContinuity.vals env, v = 0) ∧ (∀ v ∈ s.eqParam.vals env, v = 0) := by
      unfold Scheme.eq
      rw [structMX_vals]
      simp only [stackedVals, List.map_cons, List.map_nil, List.flatten_cons, List.flatten_nil, List.append_nil,
        List.mem_append]
      constructor
      · intro h; exact ⟨fun v hv => h v (.inl hv), fun v hv => h v (.inr (.inl hv)), fun v hv => h v (.inr (.inr hv))⟩
      · rintro ⟨h1, h2, h3⟩ v (hv | hv | hv)
        exacts [h1 v hv, h2 v hv, h3 v hv]
    rw [hsplit, vals_zero_iff, vals_zero_iff, vals_zero_iff, b.coll_shape.1, b.coll_shape.2, b.cont_shape.1, b.cont_shape.2]
    rw [pre.wf.nx, b.N_eq, b.M_eq]
    refine and_congr ?_ (and_congr ?_ ?_)
    · constructor
      · intro h c hc env' hat i hi j hj
        rw [pre.wf.res_cols] at hj
        have hj : j = 0 := by omega
        subst hj
        rw [← (hat.out hcs pre b.toCore hc).1 i hi]
        exact h i (by rw [← pre.wf.res_rows]; exact hi) c hc
      · intro h i hi c hc
        rw [← pre.wf.res_rows] at hi
        obtain ⟨env', hat⟩ := exists_atPoint hcs pre b.toCore env hc
        rw [(hat.out hcs pre b.toCore hc).1 i hi]
        exact h c hc env' hat i hi 0 (by rw [pre.wf.res_cols]; exact Nat.one_pos)
    · constructor
      · intro h n hn i hi P hP
        have := ((h24 i n (by rw [b.N_eq]; exact hn)).2 P hP).2
        rw [h i hi n hn] at this
        exact (sub_eq_zero.mp this.symm)
      · intro h i hi n hn
        obtain ⟨P, hP, -⟩ := (h24 i n (by rw [b.N_eq]; exact hn)).1 (ht n (by rw [b.N_eq]; exact hn))
        rw [((h24 i n (by rw [b.N_eq]; exact hn)).2 P hP).2, h n hn i hi P hP, sub_self]
    · rw [b.param]
      simp only [MXExpr.diffCols]
      rw [hpr, hpc]
      cases rep
      · simp
      · simp only [if_true, forall_const]
        constructor
        · intro h c hc i hi
          induction c with
          | zero => rfl
          | succ c ih => rw [← ih (by omega)]; exact sub_eq_zero.mp (h i hi c (by omega))
        · intro h i hi c hc
          rw [h (c + 1) (by omega) i hi, h c (by omega) i hi, sub_self]
  · intro c hc
    rw [b.N_eq, b.M_eq] at hc
    exact exists_atPoint hcs pre b.toCore env hc
  · rw [vals_length]
    show ((List.map MXExpr.numel [s.eqCollocation, s.eqContinuity, s.eqParam]).sum) * 1 = _
    simp only [List.map_cons, List.map_nil, List.sum_cons, List.sum_nil, MXExpr.numel, b.coll_shape.1, b.coll_shape.2,
      b.cont_shape.1, b.cont_shape.2, b.param, MXExpr.diffCols, hpr, hpc, b.N_eq, b.M_eq, pre.wf.nx, pre.wf.nz]
    cases rep
    · simp
    · simp only [if_true]; ring

/-! ## C27 -/

/-- **C27** The quadrature state: it starts at zero; with `p` the polynomial through the values of `quad` at the points of
an interval and `P` an antiderivative, the increment over the interval is the integral of `p`, and `Q` adds the integral up
to the point.  The values of `quad` are those of the model's quadrature expression at the points. -/
theorem C27_quadrature (hcs : IsCsFunction csFunction)
    (pre : SchemePre freshI casadiPoints csFunction dae t order method tdp_fun d xdot res tau F)
    (hs : Scheme.new fresh freshI casadiPoints csFunction dae t order method tdp_fun rep = .ok s)
    (hd : tau.Nodup) (env : Env K) :
    (s.q.rows = d.nq ∧ s.q.cols = s.N + 1 ∧ s.Q.rows = d.nq ∧ s.Q.cols = s.N * s.M ∧ s.quad.rows = d.nq ∧
      s.quad.cols = s.N * s.M) ∧
    (∀ c < s.N * s.M, ∀ env', AtPoint s d xdot tdp_fun rep env env' c →
      ∀ i < d.nq, s.quad.val env i c = d.quad.val env' i 0) ∧
    (∀ i, s.q.val env i 0 = 0) ∧
    ∀ n < s.N, ∀ i,
      (nd t n ≠ nd t (n + 1) → ∃ p : K[X], p.degree < s.M ∧
        ∀ j < s.M, p.eval (nd s.tc (n * s.M + j)) = s.quad.val env i (n * s.M + j)) ∧
      ∀ p P : K[X], p.degree < s.M → (∀ j < s.M, p.eval (nd s.tc (n * s.M + j)) = s.quad.val env i (n * s.M + j)) →
        derivative P = p →
        s.q.val env i (n + 1) = s.q.val env i n + (P.eval (nd t (n + 1)) - P.eval (nd t n)) ∧
        ∀ j < s.M, s.Q.val env i (n * s.M + j) = s.q.val env i n + (P.eval (nd s.tc (n * s.M + j)) - P.eval (nd t n)) := by
  have b := pre.built hs
  have hnq : d.nq = d.quad.rows := by simp [DaeObj.nq, MXExpr.numel, pre.quad]
  have hlen := pre.len
  rw [b.N_eq, b.M_eq, hnq]
  refine ⟨⟨b.q_shape.1, b.q_shape.2, b.Q_shape.1, b.Q_shape.2, b.quad_shape.1, b.quad_shape.2⟩,
    fun c hc env' hat => (hat.out hcs pre b.toCore hc).2, b.q_zero env, ?_⟩
  intro n hn i
  constructor
  · intro hne
    obtain ⟨p, hp, hpv⟩ := exists_interp hd (a := nd t n) (sub_ne_zero.mpr hne.symm)
      (fun j => s.quad.val env i (n * order + j))
    rw [hlen] at hp hpv
    exact ⟨p, hp, fun j hj => by rw [b.tc n j hn hj, hpv j hj]⟩
  · intro p P hp hpv hP
    have hw := fun x => weights_affine hd (nd t n) (nd t (n + 1) - nd t n) (by rw [hlen]; exact hp) hP x
    have hsum : ∀ w : ℕ → K, ∑ k ∈ Finset.range order, s.quad.val env i (n * order + k) * w k =
        ∑ k ∈ Finset.range tau.length, p.eval (nd t n + (nd t (n + 1) - nd t n) * nd tau k) * w k := by
      intro w
      rw [hlen]
      refine Finset.sum_congr rfl fun k hk => ?_
      have hk := Finset.mem_range.mp hk
      rw [← hpv k hk, b.tc n k hn hk]
    constructor
    · rw [b.q env i n hn, hsum (wb tau)]
      simp only [wb]
      rw [hw]
      ring_nf
    · intro j hj
      rw [b.Q env i n j hn hj, b.tc n j hn hj, hsum (wA tau j)]
      simp only [wA]
      rw [hw]

end

end CE
