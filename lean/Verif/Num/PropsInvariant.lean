import Verif.Num.PropsScheme2

/-!
# Properties C73, C74: balance laws and quadratic invariants of the collocation equations

A balance law of a model says that some expression of the states changes at the rate that a quadrature expression gives
(zero for a conserved quantity).  The laws are hypotheses on the model (its residual implies them); the theorems say that
every solution of the collocation equations obeys them.
-/

open Polynomial

namespace CE

variable {K : Type} [Field K]

/-- Linear balance law with weights `w` for the states and `v` for the quadratures: wherever the residual vanishes,
`sum w[i]*xdot[i] = sum v[k]*quad[k]`. -/
def LinearLaw (d : DaeObj K) (xdot res : MXExpr K) (w v : ℕ → K) : Prop :=
  ∀ env', ResidualZero res env' → ∑ i ∈ Finset.range d.nx, w i * xdot.val env' i 0 =
    ∑ k ∈ Finset.range d.nq, v k * d.quad.val env' k 0

/-- Quadratic balance law with matrix `S` and weights `v`: wherever the residual vanishes, the time derivative of
`x' S x`, `sum S[i,j]*(xdot[i]*x[j] + x[i]*xdot[j])`, is `sum v[k]*quad[k]`. -/
def QuadraticLaw (d : DaeObj K) (xdot res : MXExpr K) (S : ℕ → ℕ → K) (v : ℕ → K) : Prop :=
  ∀ env', ResidualZero res env' → ∑ i ∈ Finset.range d.nx, ∑ j ∈ Finset.range d.nx,
      S i j * (xdot.val env' i 0 * d.x.val env' j 0 + d.x.val env' i 0 * xdot.val env' j 0) =
    ∑ k ∈ Finset.range d.nq, v k * d.quad.val env' k 0

/-- The nodes are those of a quadrature formula on [0, 1] that is exact for all polynomials of degree less than twice their
number (Gauss): their node polynomial is orthogonal to all polynomials of smaller degree.  `'legendre'` points are. -/
def IsGauss (tau : List K) : Prop :=
  ∀ q P : K[X], q.degree < tau.length → derivative P = (tau.map fun c => X - C c).prod * q → P.eval 1 - P.eval 0 = 0

section
variable [DecidableEq K] [CharZero K] (fresh freshI : String → ℕ) (casadiPoints : ℕ → String → Except PyErr (List K))
    (csFunction : List (MXExpr K) → List (MXExpr K) → Except PyErr (CsFn K))
    (dae : DaeObj K) (t : List K) (order : ℕ) (method : String) (tdp_fun : Option (K → Mat K))
    (d : DaeObj K) (xdot res : MXExpr K) (tau : List K) (F : CsFn K) (rep : Bool) (s : Scheme K)

/-- **C73** Every solution of the collocation equations obeys the linear balance laws of the model, at the interval bounds
and at the collocation points. -/
theorem C73_linear_balance (hcs : IsCsFunction csFunction)
    (pre : SchemePre freshI casadiPoints csFunction dae t order method tdp_fun d xdot res tau F)
    (hs : Scheme.new fresh freshI casadiPoints csFunction dae t order method tdp_fun rep = .ok s)
    (hd : tau.Nodup) (ht : ∀ n < s.N, nd t n ≠ nd t (n + 1)) (env : Env K) (heq : ∀ v ∈ s.eq.vals env, v = 0)
    (w v : ℕ → K) (law : LinearLaw d xdot res w v) :
    (∀ n ≤ s.N, ∑ i ∈ Finset.range d.nx, w i * s.x.val env i n =
      ∑ i ∈ Finset.range d.nx, w i * s.x.val env i 0 + ∑ k ∈ Finset.range d.nq, v k * s.q.val env k n) ∧
    ∀ c < s.N * s.M, ∑ i ∈ Finset.range d.nx, w i * s.X.val env i c =
      ∑ i ∈ Finset.range d.nx, w i * s.x.val env i 0 + ∑ k ∈ Finset.range d.nq, v k * s.Q.val env k c := by
  have b := pre.built hs
  have h25 := C25_equations fresh freshI casadiPoints csFunction dae t order method tdp_fun d xdot res tau F rep s hcs pre hs
    hd ht env
  obtain ⟨hres, -, -⟩ := h25.1.mp heq
  have hcont : ∀ i < d.nx, ∀ n < t.length - 1, s.eqContinuity.val env i n = 0 := by
    intro i hi n hn
    have h1 : ∀ v ∈ s.eqContinuity.vals env, v = 0 := by
      intro v hv
      apply heq
      unfold Scheme.eq
      rw [structMX_vals]
      simp only [stackedVals, List.map_cons, List.map_nil, List.flatten_cons, List.mem_append]
      exact .inr (.inl hv)
    rw [vals_zero_iff, b.cont_shape.1, b.cont_shape.2] at h1
    exact h1 i (by rw [← pre.wf.nx]; exact hi) n hn
  have hnq : d.nq = d.quad.rows := by simp [DaeObj.nq, MXExpr.numel, pre.quad]
  -- the law at a collocation point
  have hpt : ∀ c < s.N * s.M, ∑ i ∈ Finset.range d.nx, w i * s.Kd.val env i c =
      ∑ k ∈ Finset.range d.nq, v k * s.quad.val env k c := by
    intro c hc
    obtain ⟨env', hat⟩ := h25.2.1 c hc
    have h0 := law env' (hres c hc env' hat)
    rw [b.N_eq, b.M_eq] at hc
    have hout := (hat.out hcs pre b.toCore hc).2
    rw [show ∑ i ∈ Finset.range d.nx, w i * s.Kd.val env i c = ∑ i ∈ Finset.range d.nx, w i * xdot.val env' i 0 from
      Finset.sum_congr rfl fun i hi => by
        rw [hat.xdot i (by rw [← pre.wf.nx]; exact Finset.mem_range.mp hi)], h0]
    exact Finset.sum_congr rfl fun k hk => by rw [hout k (by rw [← hnq]; exact Finset.mem_range.mp hk)]
  -- weights of the tableau
  have hsum : ∀ n < t.length - 1, ∀ g : ℕ → K, ∑ i ∈ Finset.range d.nx,
        w i * ∑ k ∈ Finset.range order, env (fresh "K") i (n * order + k) * g k =
      ∑ j ∈ Finset.range d.nq, v j * ∑ k ∈ Finset.range order, s.quad.val env j (n * order + k) * g k := by
    intro n hn g
    simp only [Finset.mul_sum]
    rw [Finset.sum_comm, Finset.sum_comm (s := Finset.range d.nq)]
    refine Finset.sum_congr rfl fun k hk => ?_
    have h1 := hpt (n * order + k) (by rw [b.N_eq, b.M_eq]; exact block_lt hn (Finset.mem_range.mp hk))
    rw [b.Kd] at h1
    calc _ = (∑ i ∈ Finset.range d.nx, w i * env (fresh "K") i (n * order + k)) * g k := by
          rw [Finset.sum_mul]; exact Finset.sum_congr rfl fun i _ => by ring
      _ = (∑ j ∈ Finset.range d.nq, v j * s.quad.val env j (n * order + k)) * g k := by
          rw [← h1]; rfl
      _ = _ := by rw [Finset.sum_mul]; exact Finset.sum_congr rfl fun i _ => by ring
  have hx : ∀ i m, s.x.val env i m = env (fresh "x") i m := fun i m => by rw [b.x]; rfl
  have hbounds : ∀ n ≤ s.N, ∑ i ∈ Finset.range d.nx, w i * s.x.val env i n =
      ∑ i ∈ Finset.range d.nx, w i * s.x.val env i 0 + ∑ k ∈ Finset.range d.nq, v k * s.q.val env k n := by
    intro n
    induction n with
    | zero => intro _; simp [b.q_zero]
    | succ n ih =>
      intro hn
      rw [b.N_eq] at hn
      have h1 := ih (by rw [b.N_eq]; omega)
      have h2 : ∑ i ∈ Finset.range d.nx, w i * s.x.val env i (n + 1) = ∑ i ∈ Finset.range d.nx, w i * s.x.val env i n +
          (nd t (n + 1) - nd t n) * ∑ i ∈ Finset.range d.nx,
            w i * ∑ k ∈ Finset.range order, env (fresh "K") i (n * order + k) * wb tau k := by
        rw [Finset.mul_sum, ← Finset.sum_add_distrib]
        refine Finset.sum_congr rfl fun i hi => ?_
        have := hcont i (Finset.mem_range.mp hi) n (by omega)
        rw [b.cont env i n (by omega)] at this
        rw [hx, hx]
        linear_combination -(w i) * this
      rw [h2, h1, hsum n (by omega), add_assoc]
      congr 1
      rw [Finset.mul_sum, ← Finset.sum_add_distrib]
      refine Finset.sum_congr rfl fun k _ => ?_
      rw [b.q env k n (by omega)]
      ring
  refine ⟨hbounds, fun c hc => ?_⟩
  rw [b.N_eq, b.M_eq] at hc
  have hpos := pre.pos
  obtain ⟨n, j, hn, hj, rfl⟩ : ∃ n j, n < t.length - 1 ∧ j < order ∧ c = n * order + j :=
    ⟨c / order, c % order, Nat.div_lt_of_lt_mul (by rwa [Nat.mul_comm]), Nat.mod_lt _ hpos, (Nat.div_add_mod' c order).symm⟩
  have h2 : ∑ i ∈ Finset.range d.nx, w i * s.X.val env i (n * order + j) = ∑ i ∈ Finset.range d.nx, w i * s.x.val env i n +
      (nd t (n + 1) - nd t n) * ∑ i ∈ Finset.range d.nx,
        w i * ∑ k ∈ Finset.range order, env (fresh "K") i (n * order + k) * wA tau j k := by
    rw [Finset.mul_sum, ← Finset.sum_add_distrib]
    refine Finset.sum_congr rfl fun i _ => ?_
    rw [b.X env i n j hn hj, hx]
    ring
  rw [h2, hbounds n (by rw [b.N_eq]; omega), hsum n hn, add_assoc]
  congr 1
  rw [Finset.mul_sum, ← Finset.sum_add_distrib]
  refine Finset.sum_congr rfl fun k _ => ?_
  rw [b.Q env k n j hn hj]
  ring

/-- **C74** With Gauss nodes every solution of the collocation equations obeys the quadratic balance laws of the model at the
interval bounds. -/
theorem C74_quadratic_balance (hcs : IsCsFunction csFunction)
    (pre : SchemePre freshI casadiPoints csFunction dae t order method tdp_fun d xdot res tau F)
    (hs : Scheme.new fresh freshI casadiPoints csFunction dae t order method tdp_fun rep = .ok s)
    (hd : tau.Nodup) (hg : IsGauss tau) (ht : ∀ n < s.N, nd t n ≠ nd t (n + 1)) (env : Env K)
    (heq : ∀ v ∈ s.eq.vals env, v = 0) (S : ℕ → ℕ → K) (v : ℕ → K) (law : QuadraticLaw d xdot res S v) :
    ∀ n ≤ s.N, ∑ i ∈ Finset.range d.nx, ∑ j ∈ Finset.range d.nx, S i j * (s.x.val env i n * s.x.val env j n) =
      ∑ i ∈ Finset.range d.nx, ∑ j ∈ Finset.range d.nx, S i j * (s.x.val env i 0 * s.x.val env j 0) +
        ∑ k ∈ Finset.range d.nq, v k * s.q.val env k n := by
  have b := pre.built hs
  have h25 := C25_equations fresh freshI casadiPoints csFunction dae t order method tdp_fun d xdot res tau F rep s hcs pre hs
    hd ht env
  obtain ⟨hres, hend, -⟩ := h25.1.mp heq
  have hnq : d.nq = d.quad.rows := by simp [DaeObj.nq, MXExpr.numel, pre.quad]
  have h24 := fun i n hn => C24_state_integration fresh freshI casadiPoints csFunction dae t order method tdp_fun d xdot
    res tau F rep s pre hs hd env i n hn
  have h10 := (C10_quadrature_order tau hd tau.length)
  obtain ⟨T, hT, h10⟩ := h10
  have hTb : ∀ k < tau.length, T.b.e [k] = wb tau k := by
    intro k hk
    rw [butcher_ok] at hT; cases hT
    simp only [NdArray.vec, List.headD_cons, nd_map_range _ hk, wb]
  replace h10 := h10.mp hg
  have hpos := pre.pos
  intro n
  induction n with
  | zero => intro _; simp [b.q_zero]
  | succ n ih =>
    intro hn
    have hn' : n < s.N := hn
    have hne := ht n hn'
    choose P hP _ using fun i => (h24 i n hn').1 hne
    -- the quadratic form along the collocation polynomials
    let V : K[X] := ∑ i ∈ Finset.range d.nx, ∑ j ∈ Finset.range d.nx, C (S i j) * (P i * P j)
    let h := nd t (n + 1) - nd t n
    have hVs : V.eval (nd t n) = ∑ i ∈ Finset.range d.nx, ∑ j ∈ Finset.range d.nx,
        S i j * (s.x.val env i n * s.x.val env j n) := by
      simp only [V, eval_finset_sum, eval_mul, eval_C]
      refine Finset.sum_congr rfl fun i _ => Finset.sum_congr rfl fun j _ => ?_
      rw [← (hP i).start, ← (hP j).start, b.t_eq]
    have hVe : V.eval (nd t (n + 1)) = ∑ i ∈ Finset.range d.nx, ∑ j ∈ Finset.range d.nx,
        S i j * (s.x.val env i (n + 1) * s.x.val env j (n + 1)) := by
      simp only [V, eval_finset_sum, eval_mul, eval_C]
      refine Finset.sum_congr rfl fun i hi => Finset.sum_congr rfl fun j hj => ?_
      rw [← hend n hn' i (Finset.mem_range.mp hi) _ (hP i), ← hend n hn' j (Finset.mem_range.mp hj) _ (hP j)]
    have hV' : derivative V = ∑ i ∈ Finset.range d.nx, ∑ j ∈ Finset.range d.nx,
        C (S i j) * (derivative (P i) * P j + P i * derivative (P j)) := by
      simp only [V, derivative_sum, derivative_mul, derivative_C, zero_mul, zero_add]
    have hVdeg : (derivative V).degree < (tau.length + tau.length : ℕ) := by
      refine degree_deriv_lt (by have := pre.len; omega) ?_
      refine (degree_sum_le _ _).trans (Finset.sup_le fun i _ => (degree_sum_le _ _).trans (Finset.sup_le fun j _ => ?_))
      refine (degree_mul_le _ _).trans ?_
      refine (add_le_add degree_C_le (degree_mul_le _ _)).trans ?_
      rw [zero_add, Nat.cast_add, pre.len]
      have h1 := (hP i).degree
      have h2 := (hP j).degree
      rw [b.M_eq] at h1 h2
      exact add_le_add h1 h2
    have hpt : ∀ k < order, (derivative V).eval (nd t n + h * nd tau k) =
        ∑ j ∈ Finset.range d.nq, v j * s.quad.val env j (n * order + k) := by
      intro k hk
      have hc : n * order + k < s.N * s.M := by rw [b.M_eq]; exact block_lt hn' hk
      obtain ⟨env', hat⟩ := h25.2.1 _ hc
      have h0 := law env' (hres _ hc env' hat)
      have hc' := hc
      rw [b.N_eq, b.M_eq] at hc'
      have hout := (hat.out hcs pre b.toCore hc').2
      have htc : nd s.tc (n * order + k) = nd t n + h * nd tau k := b.tc n k (by rw [← b.N_eq]; exact hn') hk
      have hX : ∀ i < d.nx, (P i).eval (nd t n + h * nd tau k) = d.x.val env' i 0 := by
        intro i hi
        rw [hat.x i (by rw [← pre.wf.nx]; exact hi)]
        have := ((h24 i n hn').2 (P i) (hP i)).1 k (by rw [b.M_eq]; exact hk)
        rw [b.M_eq] at this
        rw [this, htc]
      have hK : ∀ i < d.nx, (derivative (P i)).eval (nd t n + h * nd tau k) = xdot.val env' i 0 := by
        intro i hi
        rw [hat.xdot i (by rw [← pre.wf.nx]; exact hi)]
        have := (hP i).deriv k (by rw [b.M_eq]; exact hk)
        rw [b.M_eq] at this
        rw [← this, htc]
      rw [show ∑ j ∈ Finset.range d.nq, v j * s.quad.val env j (n * order + k) =
          ∑ j ∈ Finset.range d.nq, v j * d.quad.val env' j 0 from
        Finset.sum_congr rfl fun j hj => by rw [hout j (by rw [← hnq]; exact Finset.mem_range.mp hj)], ← h0, hV']
      simp only [eval_finset_sum, eval_mul, eval_C, eval_add]
      refine Finset.sum_congr rfl fun i hi => Finset.sum_congr rfl fun j hj => ?_
      rw [hX i (Finset.mem_range.mp hi), hX j (Finset.mem_range.mp hj), hK i (Finset.mem_range.mp hi),
        hK j (Finset.mem_range.mp hj)]
    -- the weights integrate the derivative exactly
    have hint : h * ∑ k ∈ Finset.range order, wb tau k * (derivative V).eval (nd t n + h * nd tau k) =
        V.eval (nd t (n + 1)) - V.eval (nd t n) := by
      have hd1 : derivative (V.comp (C h * X + C (nd t n))) = C h * (derivative V).comp (C h * X + C (nd t n)) := by
        rw [derivative_comp]; simp
      have hdeg : (C h * (derivative V).comp (C h * X + C (nd t n))).degree < (tau.length + tau.length : ℕ) := by
        refine lt_of_le_of_lt (degree_mul_le _ _) ?_
        refine lt_of_le_of_lt (add_le_add degree_C_le le_rfl) ?_
        rw [zero_add]
        exact degree_comp_linear_lt h (nd t n) hVdeg
      have := h10 _ _ hdeg hd1
      simp only [eval_mul, eval_C, eval_comp, eval_add, eval_X, mul_one, mul_zero, zero_add] at this
      rw [show h + nd t n = nd t (n + 1) from by simp only [h]; ring] at this
      rw [← this, pre.len, Finset.mul_sum]
      refine Finset.sum_congr rfl fun k hk => ?_
      rw [hTb k (by rw [pre.len]; exact Finset.mem_range.mp hk), add_comm (h * nd tau k)]
      ring
    have hq : ∑ k ∈ Finset.range d.nq, v k * s.q.val env k (n + 1) = ∑ k ∈ Finset.range d.nq, v k * s.q.val env k n +
        h * ∑ k ∈ Finset.range order, wb tau k * ∑ j ∈ Finset.range d.nq, v j * s.quad.val env j (n * order + k) := by
      have : ∑ k ∈ Finset.range order, wb tau k * ∑ j ∈ Finset.range d.nq, v j * s.quad.val env j (n * order + k) =
          ∑ j ∈ Finset.range d.nq, v j * ∑ k ∈ Finset.range order, s.quad.val env j (n * order + k) * wb tau k := by
        simp only [Finset.mul_sum]
        rw [Finset.sum_comm]
        exact Finset.sum_congr rfl fun j _ => Finset.sum_congr rfl fun k _ => by ring
      rw [this, Finset.mul_sum, ← Finset.sum_add_distrib]
      refine Finset.sum_congr rfl fun k _ => ?_
      rw [b.q env k n (by rw [← b.N_eq]; exact hn')]
      ring
    have h1 := ih (by omega)
    rw [hq, ← hVe, ← add_assoc, ← h1, ← hVs]
    rw [show ∑ k ∈ Finset.range order, wb tau k * ∑ j ∈ Finset.range d.nq, v j * s.quad.val env j (n * order + k) =
      ∑ k ∈ Finset.range order, wb tau k * (derivative V).eval (nd t n + h * nd tau k) from
        Finset.sum_congr rfl fun k hk => by rw [hpt k (Finset.mem_range.mp hk)], hint]
    ring

end

/-! ## Non-vacuity: the harmonic oscillator `x0' = x1`, `x1' = -x0` with quadrature `x1` -/

/-- The arguments of the model. -/
def oscArgs : DaeArgs ℚ :=
  { x := some (.sym 0 2), z := some (.sym 1 0), u := some (.sym 2 0), p := some (.sym 3 0), t := some (.sym 4 1),
    tdp := some (.sym 5 0), quad := some ⟨1, 1, false, fun env _ _ => env 0 1 0⟩
    ode := some ⟨2, 1, false, fun env i _ => if i = 0 then env 0 1 0 else -env 0 0 0⟩
    alg := some ⟨0, 1, false, fun _ _ _ => 0⟩ }

/-- The model. -/
def oscO : DaeObj ℚ :=
  ⟨.sym 0 2, .sym 1 0, .sym 2 0, .sym 3 0, .sym 4 1, ⟨1, 1, false, fun env _ _ => env 0 1 0⟩, .sym 5 0,
    .semi ⟨2, 1, false, fun env i _ => if i = 0 then env 0 1 0 else -env 0 0 0⟩ ⟨0, 1, false, fun _ _ _ => 0⟩⟩

/-- Its residual. -/
def oscRes (freshI : String → ℕ) : MXExpr ℚ :=
  ⟨2, 1, false, fun env i j => if i < 2 then env (freshI "xdot") i j - (if i = 0 then env 0 1 0 else -env 0 0 0) else 0⟩

/-- Its implicit form. -/
def oscD (freshI : String → ℕ) : DaeObj ℚ :=
  ⟨.sym 0 2, .sym 1 0, .sym 2 0, .sym 3 0, .sym 4 1, ⟨1, 1, false, fun env _ _ => env 0 1 0⟩, .sym 5 0,
    .implicit (.sym (freshI "xdot") 2) (oscRes freshI)⟩

theorem osc_pre (freshI : String → ℕ) (hI : 6 ≤ freshI "xdot") (t tau : List ℚ) (two : 2 ≤ t.length) (pos : 0 < tau.length) :
    ∃ F : CsFn ℚ, DaeObj.newSemi (fun _ => 7) oscArgs = .ok oscO ∧
      SchemePre freshI (fun _ _ => .ok tau) idealCsFunction oscO t tau.length "legendre" none (oscD freshI)
        (.sym (freshI "xdot") 2) (oscRes freshI) tau F := by
  have hfun := isFunctionOf_syms (K := ℚ) [(freshI "xdot", 2, 1), (0, 2, 1), (1, 0, 1), (2, 0, 1), (3, 0, 1), (4, 1, 1), (5, 0, 1)]
    (by simp; omega) [oscRes freshI, ⟨1, 1, false, fun env _ _ => env 0 1 0⟩] (by
      intro o ho env1 env2 h
      simp only [List.mem_cons, List.not_mem_nil, or_false, forall_eq_or_imp, forall_eq] at h ho
      have h0 := h.2.1 0 (by omega) 0 (by omega)
      have h1 := h.2.1 1 (by omega) 0 (by omega)
      rcases ho with rfl | rfl
      · refine ⟨rfl, rfl, ?_⟩
        intro i hi j hj
        have hx := h.1 i hi j hj
        simp only [oscRes, MXExpr.at', h0, h1, hx]
      · exact ⟨rfl, rfl, fun i _ j _ => h1⟩)
  have hF : ∃ F, idealCsFunction [MXExpr.sym (freshI "xdot") 2, .sym 0 2, .sym 1 0, .sym 2 0, .sym 3 0, .sym 4 1, .sym 5 0]
      [oscRes freshI, (⟨1, 1, false, fun env _ _ => env 0 1 0⟩ : MXExpr ℚ)] = .ok F := by
    unfold idealCsFunction
    rw [dif_pos ⟨_, hfun⟩]
    exact ⟨_, rfl⟩
  obtain ⟨F, hF⟩ := hF
  exact ⟨F, rfl, rfl, ⟨rfl, rfl, rfl, rfl, ⟨rfl, rfl⟩, rfl, rfl, rfl, rfl⟩, rfl, rfl, two, pos, rfl, rfl, ⟨rfl, rfl⟩, hF⟩

theorem osc_residual (freshI : String → ℕ) (env : Env ℚ) : ResidualZero (oscRes freshI) env ↔
    env (freshI "xdot") 0 0 = env 0 1 0 ∧ env (freshI "xdot") 1 0 = -env 0 0 0 := by
  constructor
  · intro h
    have h0 := h 0 (by show 0 < 2; omega) 0 Nat.one_pos
    have h1 := h 1 (by show 1 < 2; omega) 0 Nat.one_pos
    simp only [oscRes] at h0 h1
    norm_num at h0 h1
    exact ⟨by linear_combination h0, by linear_combination h1⟩
  · rintro ⟨h0, h1⟩ i hi j hj
    have hj : j = 0 := by change j < 1 at hj; omega
    subst hj
    change i < 2 at hi
    interval_cases i <;> simp [oscRes, h0, h1]

/-- `x0' = x1`: the first state changes at the rate of the quadrature. -/
theorem osc_linear (freshI : String → ℕ) : LinearLaw (oscD freshI) (.sym (freshI "xdot") 2) (oscRes freshI)
    (fun i => if i = 0 then 1 else 0) (fun _ => 1) := by
  intro env' h
  obtain ⟨h0, -⟩ := (osc_residual freshI env').mp h
  show ∑ i ∈ Finset.range 2, _ = ∑ i ∈ Finset.range 1, _
  simp [Finset.sum_range_succ, MXExpr.sym, oscD, h0]

/-- The energy `x0^2 + x1^2` is conserved. -/
theorem osc_quadratic (freshI : String → ℕ) : QuadraticLaw (oscD freshI) (.sym (freshI "xdot") 2) (oscRes freshI)
    (fun i j => if i = j then 1 else 0) (fun _ => 0) := by
  intro env' h
  obtain ⟨h0, h1⟩ := (osc_residual freshI env').mp h
  show ∑ i ∈ Finset.range 2, ∑ j ∈ Finset.range 2, _ = ∑ i ∈ Finset.range 1, _
  simp [Finset.sum_range_succ, MXExpr.sym, oscD, h0, h1]

/-- The midpoint is a Gauss node. -/
theorem isGauss_midpoint : IsGauss ([1 / 2] : List ℚ) := by
  intro q P hq hP
  have hq0 : q = C (q.coeff 0) := eq_C_of_degree_le_zero (by
    have : q.degree < (1 : ℕ) := hq
    exact Nat.WithBot.lt_one_iff_le_zero.mp (by simpa using this))
  have h1 : derivative P = derivative (C (q.coeff 0) * (C (1 / 2) * X ^ 2 - C (1 / 2) * X)) := by
    rw [hP]
    conv_lhs => rw [hq0]
    simp only [List.map_cons, List.map_nil, List.prod_cons, List.prod_nil, mul_one, derivative_C_mul, derivative_sub,
      derivative_X_pow, derivative_X]
    rw [← mul_assoc, ← C_mul]
    norm_num
    ring
  rw [antiderivative_diff h1]
  simp

/-- One step of length 1 with the single node `c`: the collocation equations hold if `K` is the right-hand side at the point
`x + c*K` and the next state is `x + K`. -/
theorem osc_step (freshI : String → ℕ) (c a a' : ℚ) (haa : a' - a = 1) (F : CsFn ℚ) (hA : wA [c] 0 0 = c) (hB : wb [c] 0 = 1)
    (pre : SchemePre freshI (fun _ _ => .ok [c]) idealCsFunction oscO [a, a'] 1 "legendre" none (oscD freshI)
      (.sym (freshI "xdot") 2) (oscRes freshI) [c] F) (s : Scheme ℚ)
    (hs : Scheme.new exFresh freshI (fun _ _ => .ok [c]) idealCsFunction oscO [a, a'] 1 "legendre" none = .ok s) (env : Env ℚ)
    (e0 : env 1 0 0 = env 0 1 0 + env 1 1 0 * c) (e1 : env 1 1 0 = -(env 0 0 0 + env 1 0 0 * c))
    (n0 : env 0 0 1 = env 0 0 0 + env 1 0 0) (n1 : env 0 1 1 = env 0 1 0 + env 1 1 0) :
    s.N = 1 ∧ (∀ n < s.N, nd ([a, a'] : List ℚ) n ≠ nd ([a, a'] : List ℚ) (n + 1)) ∧ (∀ i j, s.x.val env i j = env 0 i j) ∧
      ∀ v ∈ s.eq.vals env, v = 0 := by
  have b := pre.built hs
  have hN : s.N = 1 := b.N_eq
  have hM : s.M = 1 := b.M_eq
  have hd : ([c] : List ℚ).Nodup := by simp
  have ht : ∀ n < s.N, nd ([a, a'] : List ℚ) n ≠ nd ([a, a'] : List ℚ) (n + 1) := by
    rw [hN]; intro n hn
    interval_cases n
    show a ≠ a'
    intro h
    rw [h, sub_self] at haa
    exact zero_ne_one haa
  have fx : exFresh "x" = 0 := rfl
  have fK : exFresh "K" = 1 := rfl
  have hx : ∀ i j, s.x.val env i j = env 0 i j := fun i j => by rw [b.x]; rfl
  have hX : ∀ i, s.X.val env i 0 = env 0 i 0 + (a' - a) * (env 1 i 0 * c) := by
    intro i
    have := b.X env i 0 0 (by simp) (by simp)
    simp only [mul_one, zero_add, Finset.sum_range_one, hA] at this
    exact this
  refine ⟨hN, ht, hx, ((C25_equations exFresh freshI _ _ _ _ _ _ _ _ _ _ _ _ false s idealCsFunction_spec pre hs hd ht env).1).mpr
    ⟨?_, ?_, fun h => by cases h⟩⟩
  · intro k hk env' hat
    have hk : k = 0 := by rw [hN, hM] at hk; omega
    subst hk
    have x0 := hat.x 0 (by show 0 < 2; omega)
    have x1 := hat.x 1 (by show 1 < 2; omega)
    have k0 := hat.xdot 0 (by show 0 < 2; omega)
    have k1 := hat.xdot 1 (by show 1 < 2; omega)
    rw [hX, haa] at x0 x1
    rw [b.Kd] at k0 k1
    simp only [MXExpr.sym, oscD, fK] at x0 x1 k0 k1
    rw [osc_residual]
    constructor
    · rw [k0, x1, e0]; ring
    · rw [k1, x0, e1]; ring
  · intro n hn i hi P hP
    have hn' : n = 0 := by rw [hN] at hn; omega
    subst hn'
    have h1 := ((C24_state_integration exFresh freshI _ _ _ _ _ _ _ _ _ _ _ _ false s pre hs hd env i 0 hn).2 P hP).2
    rw [b.cont env i 0 (by simp)] at h1
    rw [hx] at h1 ⊢
    simp only [Finset.sum_range_one, hB, fx, fK, show nd ([a, a'] : List ℚ) (0 + 1) - nd ([a, a'] : List ℚ) 0 = 1 from haa] at h1
    change i < 2 at hi
    interval_cases i <;> norm_num at h1 ⊢ <;> linarith

/-- The values of the variables for one step of length 1 from (1, 0) with the midpoint rule. -/
def oscEnv : Env ℚ := fun id i j =>
  if id = 0 then (if i = 0 then nd [1, 3 / 5] j else nd [0, -4 / 5] j)
  else if id = 1 then (if i = 0 then -2 / 5 else -4 / 5) else 0

/-- The same for the implicit Euler rule. -/
def eulerEnv : Env ℚ := fun id i j =>
  if id = 0 then (if i = 0 then nd [1, 1 / 2] j else nd [0, -1 / 2] j)
  else if id = 1 then -1 / 2 else 0

/-- Non-vacuity of C73 and C74: one step of the midpoint rule.  The last two parts are the theorems. -/
example (freshI : String → ℕ) (hI : 6 ≤ freshI "xdot") : ∃ s,
    Scheme.new exFresh freshI (fun _ _ => .ok [1 / 2]) idealCsFunction oscO [0, 1] 1 "legendre" none = .ok s ∧
    (∀ v ∈ s.eq.vals oscEnv, v = 0) ∧ s.x.val oscEnv 0 1 = 3 / 5 ∧ s.x.val oscEnv 1 1 = -4 / 5 ∧ s.q.val oscEnv 0 1 = -2 / 5 ∧
    s.x.val oscEnv 0 1 * s.x.val oscEnv 0 1 + s.x.val oscEnv 1 1 * s.x.val oscEnv 1 1 =
      s.x.val oscEnv 0 0 * s.x.val oscEnv 0 0 + s.x.val oscEnv 1 0 * s.x.val oscEnv 1 0 := by
  obtain ⟨F, -, pre⟩ := osc_pre freshI hI [0, 1] [1 / 2] (by simp) (by simp)
  obtain ⟨s, hs⟩ := C26_constructed exFresh freshI _ _ _ _ _ _ _ _ _ _ _ _ false pre
  have hd : ([1 / 2] : List ℚ).Nodup := by simp
  obtain ⟨hN, ht, hx, heq⟩ := osc_step freshI (1 / 2) 0 1 (by norm_num) F (by decide +kernel) (by decide +kernel) pre s hs oscEnv
    (by norm_num [oscEnv]) (by norm_num [oscEnv]) (by norm_num [oscEnv]) (by norm_num [oscEnv])
  have h73 := (C73_linear_balance exFresh freshI _ _ _ _ _ _ _ _ _ _ _ _ false s idealCsFunction_spec pre hs hd ht oscEnv heq
    _ _ (osc_linear freshI)).1 1 (by rw [hN])
  have h74 := C74_quadratic_balance exFresh freshI _ _ _ _ _ _ _ _ _ _ _ _ false s idealCsFunction_spec pre hs hd
    isGauss_midpoint ht oscEnv heq _ _ (osc_quadratic freshI) 1 (by rw [hN])
  change ∑ i ∈ Finset.range 2, _ = ∑ i ∈ Finset.range 2, _ + ∑ i ∈ Finset.range 1, _ at h73
  change ∑ i ∈ Finset.range 2, ∑ j ∈ Finset.range 2, _ = ∑ i ∈ Finset.range 2, ∑ j ∈ Finset.range 2, _ + _ at h74
  simp [Finset.sum_range_succ] at h74
  refine ⟨s, hs, heq, by rw [hx]; norm_num [oscEnv], by rw [hx]; norm_num [oscEnv], ?_, h74⟩
  simp only [hx] at h73
  norm_num [Finset.sum_range_succ, oscEnv] at h73
  linarith

/-- C74 needs the Gauss nodes: a step of the implicit Euler rule (one Radau point) loses half of the energy. -/
example (freshI : String → ℕ) (hI : 6 ≤ freshI "xdot") : ∃ s,
    Scheme.new exFresh freshI (fun _ _ => .ok [1]) idealCsFunction oscO [0, 1] 1 "legendre" none = .ok s ∧
    (∀ v ∈ s.eq.vals eulerEnv, v = 0) ∧
    s.x.val eulerEnv 0 1 * s.x.val eulerEnv 0 1 + s.x.val eulerEnv 1 1 * s.x.val eulerEnv 1 1 = 1 / 2 ∧
    s.x.val eulerEnv 0 0 * s.x.val eulerEnv 0 0 + s.x.val eulerEnv 1 0 * s.x.val eulerEnv 1 0 = 1 := by
  obtain ⟨F, -, pre⟩ := osc_pre freshI hI [0, 1] [1] (by simp) (by simp)
  obtain ⟨s, hs⟩ := C26_constructed exFresh freshI _ _ _ _ _ _ _ _ _ _ _ _ false pre
  obtain ⟨hN, ht, hx, heq⟩ := osc_step freshI 1 0 1 (by norm_num) F (by decide +kernel) (by decide +kernel) pre s hs eulerEnv
    (by norm_num [eulerEnv]) (by norm_num [eulerEnv]) (by norm_num [eulerEnv]) (by norm_num [eulerEnv])
  refine ⟨s, hs, heq, ?_, ?_⟩ <;> simp only [hx] <;> norm_num [eulerEnv]

end CE
