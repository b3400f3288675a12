import Verif.Num.PropsStable

/-!
# Property C82: collocation points at the bounds of the intervals
-/

open Polynomial

namespace CE

/-- The symbols of the model have the values of one collocation point, except that state and time are those of the grid
point `m`. -/
structure AtBound {K : Type} [Field K] (s : Scheme K) (d : DaeObj K) (xdot : MXExpr K) (tdp_fun : Option (K → Mat K)) (rep : Bool)
    (env env' : Env K) (n j m : ℕ) : Prop where
  xdot : ∀ i < d.x.rows, xdot.val env' i 0 = s.Kd.val env i (n * s.M + j)
  x : ∀ i < d.x.rows, d.x.val env' i 0 = s.x.val env i m
  z : ∀ i < d.z.rows, d.z.val env' i 0 = s.Z.val env i (n * s.M + j)
  u : ∀ i < d.u.rows, d.u.val env' i 0 = s.u.val env i n
  p : ∀ i < d.p.rows, d.p.val env' i 0 = s.p.val env i 0
  t : d.t.val env' 0 0 = nd s.t m
  tdp : ∀ f, tdp_fun = some f → ∀ i < d.tdp.rows, ∀ j < d.tdp.cols, d.tdp.val env' i j = (f (nd s.t m)).e i j

section
variable {K : Type} [Field K] [CharZero K] [DecidableEq K]
variable (fresh freshI : String → ℕ) (casadiPoints : ℕ → String → Except PyErr (List K))
    (csFunction : List (MXExpr K) → List (MXExpr K) → Except PyErr (CsFn K))
    (dae : DaeObj K) (t : List K) (order : ℕ) (method : String) (tdp_fun : Option (K → Mat K))
    (d : DaeObj K) (xdot res : MXExpr K) (tau : List K) (F : CsFn K) (rep : Bool) (s : Scheme K)

/-- At a solution of the collocation equations the residual vanishes at a bound with which a collocation point coincides. -/
theorem residual_at_bound (hcs : IsCsFunction csFunction)
    (pre : SchemePre freshI casadiPoints csFunction dae t order method tdp_fun d xdot res tau F)
    (b : s.Built fresh t order tdp_fun rep d xdot res tau F) (env : Env K) (heq : ∀ v ∈ s.eq.vals env, v = 0) (n j m : ℕ)
    (hn : n < t.length - 1) (hj : j < order) (ht : nd s.tc (n * order + j) = nd t m)
    (hx : ∀ i < d.nx, s.X.val env i (n * order + j) = s.x.val env i m) (env' : Env K)
    (hat : AtBound s d xdot tdp_fun rep env env' n j m) : ResidualZero res env' := by
  have hc : n * order + j < (t.length - 1) * order := block_lt hn hj
  have hnp : d.np = d.p.rows := by simp [DaeObj.np, MXExpr.numel, pre.p]
  obtain ⟨hcol, -, hpar⟩ := (Scheme.eq_zero_iff pre b env).mp heq
  have hat' : AtPoint s d xdot tdp_fun rep env env' (n * order + j) := by
    refine ⟨fun i hi => ?_, fun i hi => ?_, fun i hi => ?_, fun i hi => ?_, fun i hi => ?_, ?_, fun f hf i hi k hk => ?_⟩
    · rw [hat.xdot i hi, b.M_eq]
    · rw [hat.x i hi, hx i (by rw [pre.wf.nx]; exact hi)]
    · rw [hat.z i hi, b.M_eq]
    · rw [hat.u i hi, b.M_eq, div_block hj]
    · rw [hat.p i hi]
      cases rep
      · rfl
      · exact (hpar rfl _ hc i (by rw [hnp]; exact hi)).symm
    · rw [hat.t, ht, b.t_eq]
    · rw [hat.tdp f hf i hi k hk, ht, b.t_eq]
  intro i hi k hk
  rw [pre.wf.res_cols] at hk
  obtain rfl : k = 0 := by omega
  rw [← (hat'.out hcs pre b.toCore hc).1 i hi]
  exact hcol _ hc i hi

/-- **C82** (right end) If a node is 1, then at every solution of the collocation equations the collocation point of this node is the
next grid point: time, state and quadratures agree, and the residual of the model vanishes with the state at the grid point;
in particular the algebraic equations hold there. -/
theorem C82_right_end (hcs : IsCsFunction csFunction)
    (pre : SchemePre freshI casadiPoints csFunction dae t order method tdp_fun d xdot res tau F)
    (hs : Scheme.new fresh freshI casadiPoints csFunction dae t order method tdp_fun rep = .ok s)
    (env : Env K) (heq : ∀ v ∈ s.eq.vals env, v = 0) (n j : ℕ) (hn : n < s.N) (hj : j < s.M) (h1 : nd tau j = 1) :
    nd s.tc (n * s.M + j) = nd t (n + 1) ∧ (∀ i < d.nx, s.X.val env i (n * s.M + j) = s.x.val env i (n + 1)) ∧
    (∀ k, s.Q.val env k (n * s.M + j) = s.q.val env k (n + 1)) ∧
    ∀ env', AtBound s d xdot tdp_fun rep env env' n j (n + 1) → ResidualZero res env' := by
  have b := pre.built hs
  rw [b.N_eq] at hn
  rw [b.M_eq] at hj
  have hw : ∀ k, wA tau j k = wb tau k := fun k => by rw [wA, wb, h1]
  have ht : nd s.tc (n * order + j) = nd t (n + 1) := by rw [b.tc n j hn hj, h1]; ring
  have hx : ∀ i < d.nx, s.X.val env i (n * order + j) = s.x.val env i (n + 1) := by
    intro i hi
    have := ((Scheme.eq_zero_iff pre b env).mp heq).2.1 n hn i hi
    rw [b.cont env i n hn] at this
    rw [b.X env i n j hn hj, b.x]
    simp only [hw]
    exact sub_eq_zero.mp this
  refine ⟨by rw [b.M_eq]; exact ht, by rw [b.M_eq]; exact hx, fun k => ?_,
    fun env' hat => residual_at_bound fresh freshI casadiPoints csFunction dae t order method tdp_fun d xdot res tau F rep s hcs
      pre b env heq n j (n + 1) hn hj ht hx env' hat⟩
  rw [b.M_eq, b.Q env k n j hn hj, b.q env k n hn]
  simp only [hw]

/-- **C82** (left end) If a node is 0, then the collocation point of this node is the grid point at which the interval begins. -/
theorem C82_left_end (hcs : IsCsFunction csFunction)
    (pre : SchemePre freshI casadiPoints csFunction dae t order method tdp_fun d xdot res tau F)
    (hs : Scheme.new fresh freshI casadiPoints csFunction dae t order method tdp_fun rep = .ok s)
    (env : Env K) (n j : ℕ) (hn : n < s.N) (hj : j < s.M) (h0 : nd tau j = 0) :
    nd s.tc (n * s.M + j) = nd t n ∧ (∀ i, s.X.val env i (n * s.M + j) = s.x.val env i n) ∧
    (∀ k, s.Q.val env k (n * s.M + j) = s.q.val env k n) ∧
    ((∀ v ∈ s.eq.vals env, v = 0) → ∀ env', AtBound s d xdot tdp_fun rep env env' n j n → ResidualZero res env') := by
  have b := pre.built hs
  rw [b.N_eq] at hn
  rw [b.M_eq] at hj
  have hw : ∀ k, wA tau j k = 0 := fun k => by rw [wA, h0, Poly1d.eval_eq, Poly1d.eval_zero_polyint]
  have ht : nd s.tc (n * order + j) = nd t n := by rw [b.tc n j hn hj, h0, mul_zero, add_zero]
  have hx : ∀ i, s.X.val env i (n * order + j) = s.x.val env i n := by
    intro i
    rw [b.X env i n j hn hj, b.x]
    simp [hw, MXExpr.sym]
  refine ⟨by rw [b.M_eq]; exact ht, by rw [b.M_eq]; exact hx, fun k => ?_,
    fun heq env' hat => residual_at_bound fresh freshI casadiPoints csFunction dae t order method tdp_fun d xdot res tau F rep s hcs
      pre b env heq n j n hn hj ht (fun i _ => hx i) env' hat⟩
  rw [b.M_eq, b.Q env k n j hn hj]
  simp [hw]
end

/-- `x' = -x` with the nodes 1/3 and 1: the last derivative of each interval is minus the next state. With the nodes 0 and 1 also
the first derivative is minus the state at the beginning. -/
example (freshI : String → ℕ) (hI : 7 ≤ freshI "xdot") (t : List ℝ) (two : 2 ≤ t.length) (c : ℝ) : ∃ s,
    Scheme.new exFresh freshI (fun _ _ => .ok [c, 1]) idealCsFunction decayO t 2 "legendre" none = .ok s ∧ s.N = t.length - 1 ∧
    ∀ env, (∀ v ∈ s.eq.vals env, v = 0) → ∀ n < s.N, s.Kd.val env 0 (n * 2 + 1) = -s.x.val env 0 (n + 1) ∧
      (c = 0 → s.Kd.val env 0 (n * 2) = -s.x.val env 0 n) := by
  obtain ⟨F, pre⟩ := decay_pre freshI hI t [c, 1] two (by simp)
  obtain ⟨s, hs⟩ := C26_constructed exFresh freshI _ _ _ _ _ _ _ _ _ _ _ _ false pre
  have b := pre.built hs
  have hM : s.M = 2 := b.M_eq
  refine ⟨s, hs, b.N_eq, fun env heq n hn => ?_⟩
  have hK := ((decay_eq freshI t [c, 1] F s pre b env).mp heq).1
  have hn' : n < t.length - 1 := by rw [← b.N_eq]; exact hn
  constructor
  · have h := (C82_right_end exFresh freshI _ _ _ _ _ _ _ _ _ _ _ _ false s idealCsFunction_spec pre hs env heq n 1 hn (by omega)
      (by simp [nd])).2.1 0 Nat.one_pos
    rw [hM] at h
    rw [← h, b.Kd]
    exact hK _ (block_lt hn' (by simp))
  · intro hc
    have h := (C82_left_end exFresh freshI _ _ _ _ _ _ _ _ _ _ _ _ false s idealCsFunction_spec pre hs env n 0 hn (by omega)
      (by simp [nd, hc])).2.1 0
    rw [hM, Nat.add_zero] at h
    rw [← h, b.Kd]
    exact hK (n * 2 + 0) (block_lt hn' (by simp))

end CE
