import Verif.Num.PropsReverse
import Verif.Num.PropsTransfer
import Verif.Num.PropsAdjoint

/-! # Property C137: symmetric nodes -/

open Polynomial

namespace CE

section
variable {K : Type} [Field K] [DecidableEq K]

theorem nodes_symm {tau : List K} (hsy : SymmetricNodes tau) :
    ((tau.map fun c => (X - C c : K[X])).prod).comp (1 - X) = (-1) ^ tau.length * (tau.map fun c => X - C c).prod := by
  have h1 : ∀ l : List K, ((l.map fun c => (X - C c : K[X])).prod).comp (1 - X) =
      (-1) ^ l.length * ((l.map fun c => 1 - c).map fun c => X - C c).prod := by
    intro l
    induction l with
    | nil => simp
    | cons a l ih =>
      simp only [List.map_cons, List.prod_cons, mul_comp, ih, List.length_cons, sub_comp, X_comp, C_comp, C_sub, C_1]
      ring
  have h2 : tau.map (fun c => 1 - c) = tau.reverse := by
    refine List.ext_getElem (by simp) fun i hi hi' => ?_
    rw [List.length_map] at hi
    have := hsy i hi
    rw [nd_eq_getElem (by omega), nd_eq_getElem hi] at this
    rw [List.getElem_map, List.getElem_reverse, this]
  rw [h1, h2, List.map_reverse, List.prod_reverse]

theorem nodes_derivative_one {tau : List K} (hsy : SymmetricNodes tau) {j : ℕ} (hj : j ≤ tau.length) :
    (derivative^[j] (tau.map fun c => (X - C c : K[X])).prod).eval 1 =
      (-1) ^ (tau.length - j) * (derivative^[j] (tau.map fun c => (X - C c : K[X])).prod).eval 0 := by
  set Om : K[X] := (tau.map fun c => X - C c).prod with hOm
  have h : derivative^[j] (Om.comp (1 - X)) = (-1) ^ j * (derivative^[j] Om).comp (1 - X) := iterate_derivative_comp_one_sub_X Om j
  rw [nodes_symm hsy, ← hOm, show ((-1 : K[X]) ^ tau.length) = C ((-1) ^ tau.length) by simp, iterate_derivative_C_mul] at h
  have h0 := congrArg (eval 0) h
  simp only [eval_mul, eval_C, eval_pow, eval_neg, eval_one, eval_comp, eval_sub, eval_X, sub_zero] at h0
  have e : ((-1 : K) ^ j) * (-1) ^ j = 1 := by rw [← mul_pow]; simp
  have e2 : ((-1 : K) ^ tau.length) = (-1) ^ (tau.length - j) * (-1) ^ j := by rw [← pow_add, Nat.sub_add_cancel hj]
  calc (derivative^[j] Om).eval 1 = (-1) ^ j * ((-1) ^ j * (derivative^[j] Om).eval 1) := by rw [← mul_assoc, e, one_mul]
    _ = (-1) ^ (tau.length - j) * (derivative^[j] Om).eval 0 := by
      rw [← h0, e2]
      linear_combination ((-1 : K) ^ (tau.length - j) * (derivative^[j] Om).eval 0) * e

end

section
variable {K : Type} [Field K] [DecidableEq K] [CharZero K]

/-- The integral over [0, 1] of an odd function of `x - 1/2`. -/
theorem odd_integral {k : ℕ} (hk : Odd k) (P : K[X]) (hP : derivative P = (X - C (1 / 2)) ^ k) : P.eval 1 - P.eval 0 = 0 := by
  have h1 : derivative (P.comp (1 - X) - P) = 0 := by
    rw [derivative_sub, derivative_comp, hP]
    simp only [derivative_sub, derivative_one, derivative_X, pow_comp, sub_comp, X_comp, C_comp]
    have : (1 - X - C (1 / 2) : K[X]) = -(X - C (1 / 2)) := by
      have : (1 : K[X]) = C (1 / 2) + C (1 / 2) := by rw [← C_add]; norm_num
      linear_combination this
    rw [this, hk.neg_pow]
    ring
  have h2 := eq_C_of_derivative_eq_zero h1
  have h3 := congrArg (eval (1 / 2)) h2
  have h4 := congrArg (eval 0) h2
  simp only [eval_sub, eval_comp, eval_one, eval_X, eval_C, sub_zero] at h3 h4
  rw [show (1 : K) - 1 / 2 = 1 / 2 by norm_num, sub_self] at h3
  rw [h4, ← h3]

/-- **C137** (even order) For symmetric nodes the order of the weights is even: if they integrate all polynomials of degree less than an odd
number exactly, then also those of that degree. -/
theorem C137_even (tau : List K) (hd : tau.Nodup) (hsy : SymmetricNodes tau) (k : ℕ) (hk : Odd k) :
    ∃ T, butcherTableuForCollocationPoints tau = .ok T ∧
      ((∀ p P : K[X], p.degree < k → derivative P = p → ∑ j ∈ Finset.range tau.length, T.b.e [j] * p.eval (nd tau j) = P.eval 1 - P.eval 0) →
        ∀ p P : K[X], p.degree < (k + 1 : ℕ) → derivative P = p →
          ∑ j ∈ Finset.range tau.length, T.b.e [j] * p.eval (nd tau j) = P.eval 1 - P.eval 0) := by
  obtain ⟨T, hT, hb, -⟩ := C76_tableau tau hd hsy
  refine ⟨T, hT, fun h p P hp hP => ?_⟩
  set a := p.coeff k with ha
  set r := p - C a * (X - C (1 / 2)) ^ k with hr
  have hmon : ((X - C (1 / 2) : K[X]) ^ k).Monic := (monic_X_sub_C _).pow k
  have hdeg : ((X - C (1 / 2) : K[X]) ^ k).natDegree = k := by rw [(monic_X_sub_C _).natDegree_pow, natDegree_X_sub_C, mul_one]
  have hrd : r.degree < k := by
    rw [degree_lt_iff_coeff_zero]
    intro i hi
    rw [hr, coeff_sub, coeff_C_mul]
    rcases hi.eq_or_lt with rfl | hlt
    · have : ((X - C (1 / 2) : K[X]) ^ k).coeff k = 1 := by
        have := hmon.coeff_natDegree
        rwa [hdeg] at this
      rw [this, mul_one, sub_self]
    · rw [coeff_eq_zero_of_degree_lt (hp.trans_le (by exact_mod_cast hlt)), coeff_eq_zero_of_natDegree_lt (by rw [hdeg]; exact hlt), mul_zero,
        sub_zero]
  obtain ⟨Q, hQ⟩ := exists_antiderivative ((X - C (1 / 2) : K[X]) ^ k)
  have hQ0 := odd_integral hk Q hQ
  have hR := h r (P - C a * Q) hrd (by rw [derivative_sub, hP, derivative_C_mul, hQ])
  -- the weights are symmetric and the values are antisymmetric
  have hz : ∑ j ∈ Finset.range tau.length, T.b.e [j] * (nd tau j - 1 / 2) ^ k = 0 := by
    have h1 := Finset.sum_range_reflect (fun j => T.b.e [j] * (nd tau j - 1 / 2) ^ k) tau.length
    have h2 : ∑ j ∈ Finset.range tau.length, T.b.e [tau.length - 1 - j] * (nd tau (tau.length - 1 - j) - 1 / 2) ^ k =
        -∑ j ∈ Finset.range tau.length, T.b.e [j] * (nd tau j - 1 / 2) ^ k := by
      rw [← Finset.sum_neg_distrib]
      refine Finset.sum_congr rfl fun j hj => ?_
      have hj := Finset.mem_range.mp hj
      rw [hb j hj, hsy j hj, show 1 - nd tau j - 1 / 2 = -(nd tau j - 1 / 2) by ring, hk.neg_pow]
      ring
    rw [h2] at h1
    exact self_eq_neg.mp h1.symm
  have hpe : ∀ x, p.eval x = r.eval x + a * (x - 1 / 2) ^ k := fun x => by
    rw [hr]; simp
  rw [Finset.sum_congr rfl fun j _ => by rw [hpe, mul_add], Finset.sum_add_distrib, hR]
  have : ∑ j ∈ Finset.range tau.length, T.b.e [j] * (a * (nd tau j - 1 / 2) ^ k) = a * ∑ j ∈ Finset.range tau.length, T.b.e [j] * (nd tau j - 1 / 2) ^ k := by
    rw [Finset.mul_sum]
    exact Finset.sum_congr rfl fun j _ => by ring
  rw [this, hz]
  simp only [eval_sub, eval_mul, eval_C]
  linear_combination -a * hQ0

/-- **C137** (odd number of nodes) An odd number of symmetric nodes has an order above the number of nodes (C91, C92), as the midpoint rule
and Simpson's rule. -/
theorem C137_odd (tau : List K) (hd : tau.Nodup) (hsy : SymmetricNodes tau) (hodd : Odd tau.length) : NodesOrder tau 1 := by
  obtain ⟨T, hT, h⟩ := C137_even tau hd hsy tau.length hodd
  obtain ⟨T', hT', h'⟩ := C10_quadrature_order tau hd 1
  obtain ⟨T₀, hT₀, -, -, -, -, h0⟩ := C08_butcher_exact tau hd
  obtain rfl : T' = T := by rw [hT] at hT'; exact (Except.ok.inj hT').symm
  obtain rfl : T₀ = T' := by rw [hT] at hT₀; exact (Except.ok.inj hT₀).symm
  exact h'.mpr (h fun p P hp hP => (h0 p P hp hP).2)

end

section
variable {K : Type} [Field K] [DecidableEq K] [CharZero K] (fresh freshI : String → ℕ)
    (casadiPoints : ℕ → String → Except PyErr (List K))
    (csFunction : List (MXExpr K) → List (MXExpr K) → Except PyErr (CsFn K))
    (dae : DaeObj K) (t : List K) (order : ℕ) (method : String) (tdp_fun : Option (K → Mat K))
    (d : DaeObj K) (xdot res : MXExpr K) (tau : List K) (F : CsFn K) (rep : Bool) (s : Scheme K)

/-- **C137** (quadratic invariants of linear parts) Combinations `y` of the states obey linear differential equations with a matrix that
preserves the bilinear form `B`. With symmetric nodes a step preserves `y' B y`, if it determines `y` (for Gauss nodes this holds for
nonlinear models too, C74). -/
theorem C137_quadratic (hcs : IsCsFunction csFunction)
    (pre : SchemePre freshI casadiPoints csFunction dae t order method tdp_fun d xdot res tau F)
    (hs : Scheme.new fresh freshI casadiPoints csFunction dae t order method tdp_fun rep = .ok s)
    (hd : tau.Nodup) (hsy : SymmetricNodes tau) (ht : ∀ n < s.N, nd t n ≠ nd t (n + 1)) (env : Env K) (heq : ∀ v ∈ s.eq.vals env, v = 0)
    {r : ℕ} (W : Fin r → ℕ → K) (g : (ℕ → K) → (ℕ → K) → Fin r → K) (La B : Matrix (Fin r) (Fin r) K)
    (lin : LinearPart d xdot res W g La) (hB : B * La + La.transpose * B = 0) (n : ℕ) (hn : n < s.N)
    (hu : IsUnit (∑ j ∈ Finset.range (s.M + 1), (derivative^[j] (tau.map fun c => (X - C c : K[X])).prod).eval 0 •
      ((nd t (n + 1) - nd t n) • La) ^ (s.M - j))) :
    let y : (ℕ → K) → Fin r → K := fun x a =>
      ∑ i ∈ Finset.range d.nx, W a i * x i - g (fun k => s.u.val env k n) (fun k => s.p.val env k 0) a
    (y fun i => s.x.val env i (n + 1)) ⬝ᵥ B.mulVec (y fun i => s.x.val env i (n + 1)) =
      (y fun i => s.x.val env i n) ⬝ᵥ B.mulVec (y fun i => s.x.val env i n) := by
  intro y
  have key := (C106_transfer fresh freshI casadiPoints csFunction dae t order method tdp_fun d xdot res tau F rep s hcs pre hs hd ht env heq
    W g La lin n hn).1
  have hM : s.M = tau.length := by rw [(pre.built hs).M_eq, pre.len]
  change _ = Matrix.mulVec _ (y fun i => s.x.val env i n) at key
  change Matrix.mulVec _ (y fun i => s.x.val env i (n + 1)) = _ at key
  set y₀ := y fun i => s.x.val env i n
  set y₁ := y fun i => s.x.val env i (n + 1)
  set Z := (nd t (n + 1) - nd t n) • La with hZ
  set c : ℕ → K := fun j => (derivative^[j] (tau.map fun c => (X - C c : K[X])).prod).eval 0 with hc
  set D := ∑ j ∈ Finset.range (s.M + 1), c j • Z ^ (s.M - j) with hD
  set N := ∑ j ∈ Finset.range (s.M + 1), c j • (-Z) ^ (s.M - j) with hN
  have hE1 : (∑ j ∈ Finset.range (s.M + 1), (derivative^[j] (tau.map fun c => (X - C c : K[X])).prod).eval 1 • Z ^ (s.M - j)) = N := by
    refine Finset.sum_congr rfl fun j hj => ?_
    have hj := Finset.mem_range.mp hj
    rw [nodes_derivative_one hsy (by omega), ← neg_one_smul K Z, smul_pow (-1 : K) Z, smul_smul, ← hM, mul_comm]
  rw [show ((fun x => ∑ j ∈ Finset.range (s.M + 1), (derivative^[j] (tau.map fun c => (X - C c : K[X])).prod).eval x • Z ^ (s.M - j)) 1) = N
    from hE1] at key
  change D.mulVec y₁ = N.mulVec y₀ at key
  have hBZ : B * Z = -Z.transpose * B := by
    rw [hZ, Matrix.transpose_smul, Matrix.mul_smul, neg_mul, Matrix.smul_mul, eq_neg_of_add_eq_zero_left hB, smul_neg]
  have hpow : ∀ k, B * Z ^ k = (-Z.transpose) ^ k * B := by
    intro k
    induction k with
    | zero => simp
    | succ k ih => rw [pow_succ, ← mul_assoc, ih, mul_assoc, hBZ, ← mul_assoc, ← pow_succ]
  have hpow' : ∀ k, B * (-Z) ^ k = Z.transpose ^ k * B := by
    intro k
    induction k with
    | zero => simp
    | succ k ih => rw [pow_succ, ← mul_assoc, ih, mul_assoc, mul_neg, hBZ, neg_mul, neg_neg, ← mul_assoc, ← pow_succ]
  have hDt : D.transpose = ∑ j ∈ Finset.range (s.M + 1), c j • Z.transpose ^ (s.M - j) := by
    simp only [hD, Matrix.transpose_sum, Matrix.transpose_smul, Matrix.transpose_pow]
  have hNt : N.transpose = ∑ j ∈ Finset.range (s.M + 1), c j • (-Z.transpose) ^ (s.M - j) := by
    simp only [hN, Matrix.transpose_sum, Matrix.transpose_smul, Matrix.transpose_pow, Matrix.transpose_neg]
  have hBD : B * D = N.transpose * B := by
    rw [hNt, hD, Finset.mul_sum, Finset.sum_mul]
    exact Finset.sum_congr rfl fun j _ => by rw [Matrix.mul_smul, hpow, Matrix.smul_mul]
  have hBN : B * N = D.transpose * B := by
    rw [hDt, hN, Finset.mul_sum, Finset.sum_mul]
    exact Finset.sum_congr rfl fun j _ => by rw [Matrix.mul_smul, hpow', Matrix.smul_mul]
  have hcomm : D * N = N * D := by
    have h1 : ∀ k, Commute (Z ^ k) N := fun k => by
      rw [hN]
      exact Commute.sum_right _ _ _ fun j _ => (((Commute.refl Z).neg_right).pow_pow _ _).smul_right _
    have : Commute D N := by
      rw [hD]
      exact Commute.sum_left _ _ _ fun j _ => (h1 _).smul_left _
    exact this
  obtain ⟨D', hD'⟩ := hu
  change (D' : Matrix (Fin r) (Fin r) K) = D at hD'
  have hinv : D * (↑D'⁻¹ : Matrix (Fin r) (Fin r) K) = 1 := by rw [← hD']; exact D'.mul_inv
  have hinv' : (↑D'⁻¹ : Matrix (Fin r) (Fin r) K) * D = 1 := by rw [← hD']; exact D'.inv_mul
  set w := (↑D'⁻¹ : Matrix (Fin r) (Fin r) K).mulVec y₀ with hw
  have e0 : y₀ = D.mulVec w := by rw [hw, Matrix.mulVec_mulVec, hinv, Matrix.one_mulVec]
  have e1 : y₁ = N.mulVec w := by
    have : D.mulVec y₁ = D.mulVec (N.mulVec w) := by
      rw [key, Matrix.mulVec_mulVec, hcomm, ← Matrix.mulVec_mulVec, ← e0]
    have := congrArg (↑D'⁻¹ : Matrix (Fin r) (Fin r) K).mulVec this
    rwa [Matrix.mulVec_mulVec, Matrix.mulVec_mulVec, hinv', Matrix.one_mulVec, Matrix.one_mulVec] at this
  have form : ∀ (A : Matrix (Fin r) (Fin r) K) (v : Fin r → K), A.mulVec v ⬝ᵥ B.mulVec (A.mulVec v) = v ⬝ᵥ (A.transpose * (B * A)).mulVec v := by
    intro A v
    rw [← Matrix.mulVec_mulVec v A.transpose, Matrix.dotProduct_mulVec v A.transpose, Matrix.vecMul_transpose, ← Matrix.mulVec_mulVec v B]
  rw [e1, e0, form, form, hBD, hBN, ← mul_assoc, ← mul_assoc, ← Matrix.transpose_mul, ← Matrix.transpose_mul, hcomm]

end

/-! ## Reversal characterises symmetric nodes -/

/-- The right-hand side of `x' = t`. -/
def clockF : Env ℝ → ℕ → ℝ := fun env _ => env 4 0 0

/-- **C137** (reversal) For the model `x' = t` on [0, 1], whose scheme can be constructed for all nodes, the variables with reversed
columns solve the collocation equations on the reversed grid only for symmetric nodes. So symmetry is necessary in C76. -/
theorem C137_reversal (fresh freshI : String → ℕ) (hfr : DistinctSyms fresh) (hI : 6 ≤ freshI "xdot") (tau : List ℝ) (pos : 0 < tau.length) :
    ∃ s s', Scheme.new fresh freshI (fun _ _ => .ok tau) idealCsFunction (odeUO 1 0 0 0 clockF fun _ _ => 0) [0, 1] tau.length "legendre"
        none = .ok s ∧
      Scheme.new fresh freshI (fun _ _ => .ok tau) idealCsFunction (odeUO 1 0 0 0 clockF fun _ _ => 0) [0, 1].reverse tau.length "legendre"
        none = .ok s' ∧
      ((∀ env env', Columns s s' (odeUD freshI 1 0 0 0 clockF fun _ _ => 0) false env env' (fun n => s.N - n) (fun n => s.N - 1 - n)
        (fun c => s.N * s.M - 1 - c) → (∀ v ∈ s.eq.vals env, v = 0) → ∀ v ∈ s'.eq.vals env', v = 0) → SymmetricNodes tau) := by
  have hf : ∀ e e' : Env ℝ, (∀ i < 1, e 0 i 0 = e' 0 i 0) → (∀ i < 0, e 2 i 0 = e' 2 i 0) → (∀ i < 0, e 3 i 0 = e' 3 i 0) →
      e 4 0 0 = e' 4 0 0 → (∀ i < 1, clockF e i = clockF e' i) ∧ ∀ i < 0, (0 : ℝ) = 0 := fun e e' _ _ _ ht => ⟨fun _ _ => ht, fun _ _ => rfl⟩
  obtain ⟨F, pre⟩ := odeU_pre freshI hI 1 0 0 0 clockF (fun _ _ => 0) hf rfl [0, 1] tau (by simp) pos
  obtain ⟨F', pre'⟩ := odeU_pre freshI hI 1 0 0 0 clockF (fun _ _ => 0) hf rfl [0, 1].reverse tau (by simp) pos
  obtain ⟨s, hs, b⟩ := Scheme.new_built (fresh := fresh) false pre
  obtain ⟨s', hs', b'⟩ := Scheme.new_built (fresh := fresh) false pre'
  refine ⟨s, s', hs, hs', fun h j hj => ?_⟩
  have hN : s.N = 1 := b.N_eq
  have hN' : s'.N = 1 := b'.N_eq
  have hM : s.M = tau.length := b.M_eq
  have hM' : s'.M = tau.length := b'.M_eq
  have h1 : ([0, 1] : List ℝ).length - 1 = 1 := rfl
  have h1' : ([0, 1] : List ℝ).reverse.length - 1 = 1 := rfl
  let env : Env ℝ := fun id _ c => if id = fresh "x" then (if c = 0 then 0 else ∑ k ∈ Finset.range tau.length, nd tau k * wb tau k) else nd tau c
  let env' : Env ℝ := fun id _ c => if id = fresh "x" then (if c = 0 then ∑ k ∈ Finset.range tau.length, nd tau k * wb tau k else 0)
    else nd tau (tau.length - 1 - c)
  have hK : fresh "K" ≠ fresh "x" := hfr.xK.symm
  have htc : ∀ j < tau.length, nd s.tc j = nd tau j := fun j hj => by
    have := b.tc 0 j (by simp) hj
    simp only [zero_mul, zero_add] at this
    rw [this]
    norm_num [nd]
  have htc' : ∀ j < tau.length, nd s'.tc j = 1 - nd tau j := fun j hj => by
    have := b'.tc 0 j (by simp) hj
    simp only [zero_mul, zero_add] at this
    rw [this]
    norm_num [nd]
    ring
  have hsol := h env env' ⟨fun n hn i hi => ?_, fun c hc i hi => ?_, fun c hc i hi => absurd hi (Nat.not_lt_zero _),
    fun n hn i hi => absurd hi (Nat.not_lt_zero _), fun c hc i hi => absurd hi (Nat.not_lt_zero _)⟩
    ((Scheme.eq_zero_iff pre b env).mpr ⟨fun c hc => ?_, fun n hn i hi => ?_, fun h => by cases h⟩)
  · have z := ((Scheme.eq_zero_iff pre' b' env').mp hsol).1 j (by rw [h1', one_mul]; exact hj)
    obtain ⟨e, a⟩ := exists_atPoint idealCsFunction_spec pre' b'.toCore env' (c := j) (by rw [h1', one_mul]; exact hj)
    have r1 := (residual_iff fresh freshI _ _ _ _ _ _ none _ _ _ tau F' false s' idealCsFunction_spec pre' b'
      (by rw [h1', one_mul]; exact hj) a).mp z
    rw [ode_residual] at r1
    have v := a.vals pre' b'.toCore
    have hk : e (freshI "xdot") 0 0 = nd tau (tau.length - 1 - j) := (v.xdot 0 Nat.one_pos).trans (if_neg hK)
    have ht : e 4 0 0 = 1 - nd tau j := v.t.trans (htc' j hj)
    rw [← hk, ← ht]
    exact r1 0 Nat.one_pos
  · rw [b.x, b'.x, hN]
    rw [hN'] at hn
    change env' (fresh "x") i n = env (fresh "x") i (1 - n)
    interval_cases n <;> simp [env, env']
  · rw [b.Kd, b'.Kd, hN, hM, one_mul]
    change env' (fresh "K") i c = env (fresh "K") i (tau.length - 1 - c)
    simp [env, env', hK]
  · rw [h1, one_mul] at hc
    obtain ⟨e, a⟩ := exists_atPoint idealCsFunction_spec pre b.toCore env (c := c) (by rw [h1, one_mul]; exact hc)
    refine (residual_iff fresh freshI _ _ _ _ _ _ none _ _ _ tau F false s idealCsFunction_spec pre b
      (by rw [h1, one_mul]; exact hc) a).mpr ((ode_residual _ _ _ _).mpr fun i hi => ?_)
    have v := a.vals pre b.toCore
    exact ((v.xdot i hi).trans (if_neg hK)).trans (v.t.trans (htc c hc)).symm
  · obtain rfl : n = 0 := by rw [h1] at hn; omega
    rw [b.cont env i 0 hn]
    have ek : ∀ k, env (fresh "K") i (0 * tau.length + k) = nd tau k := fun k => by
      simp [env, hK]
    simp only [ek]
    simp [env, nd]

/-! ## Non-vacuity -/

/-- Simpson's rule is exact for cubic polynomials. -/
example : SymmetricNodes ([0, 1 / 2, 1] : List ℚ) ∧ NodesOrder ([0, 1 / 2, 1] : List ℚ) 1 := by
  have h : SymmetricNodes ([0, 1 / 2, 1] : List ℚ) := by
    intro j hj
    have hj : j < 3 := hj
    interval_cases j <;> norm_num [nd]
  exact ⟨h, C137_odd _ (by norm_num) h (by decide)⟩

/-- Its weights integrate `x³`, though they are made for polynomials of degree 2. -/
example : ∃ T : ButcherTableau ℚ, butcherTableuForCollocationPoints [0, 1 / 2, 1] = .ok T ∧ T.b.e [1] / 8 + T.b.e [2] = 1 / 4 := by
  have hd : ([0, 1 / 2, 1] : List ℚ).Nodup := by norm_num
  obtain ⟨T, hT, h⟩ := C137_even ([0, 1 / 2, 1] : List ℚ) hd (fun j hj => by
    have hj : j < 3 := hj
    interval_cases j <;> norm_num [nd]) 3 (by decide)
  obtain ⟨T', hT', -, -, -, -, h'⟩ := C08_butcher_exact ([0, 1 / 2, 1] : List ℚ) hd
  obtain rfl : T' = T := by rw [hT] at hT'; exact (Except.ok.inj hT').symm
  refine ⟨T', hT, ?_⟩
  have := h (fun p P hp hP => (h' p P hp hP).2) (X ^ 3) (C (1 / 4) * X ^ 4) (by rw [degree_X_pow]; norm_num) (by
    rw [derivative_C_mul, derivative_X_pow, ← mul_assoc, ← C_mul]; norm_num)
  norm_num [Finset.sum_range_succ, nd] at this
  linarith

/-- The two Radau nodes have the odd order 3, so their symmetry cannot be dropped. -/
example : ¬SymmetricNodes ([1 / 3, 1] : List ℝ) := fun h => by
  have := h 0 (by simp)
  norm_num [nd] at this

/-- The trapezoidal rule, which is not symplectic, keeps the energy of the oscillator `x0' = x1`, `x1' = -x0` on any grid. -/
example (freshI : String → ℕ) (hI : 6 ≤ freshI "xdot") (t : List ℚ) (two : 2 ≤ t.length)
    (ht : ∀ n < t.length - 1, nd t n ≠ nd t (n + 1)) : ∃ s,
    Scheme.new exFresh freshI (fun _ _ => .ok [0, 1]) idealCsFunction oscO t 2 "legendre" none = .ok s ∧ s.N = t.length - 1 ∧
    ∀ env, (∀ v ∈ s.eq.vals env, v = 0) → ∀ n < s.N,
      s.x.val env 0 (n + 1) ^ 2 + s.x.val env 1 (n + 1) ^ 2 = s.x.val env 0 n ^ 2 + s.x.val env 1 n ^ 2 := by
  obtain ⟨F, -, pre⟩ := osc_pre freshI hI t [0, 1] two (by simp)
  obtain ⟨s, hs⟩ := C26_constructed exFresh freshI _ _ _ _ _ _ _ _ _ _ _ _ false pre
  have b := pre.built hs
  have hM : s.M = 2 := b.M_eq
  refine ⟨s, hs, b.N_eq, fun env heq n hn => ?_⟩
  have lin : LinearPart (oscD freshI) (.sym (freshI "xdot") 2) (oscRes freshI) (fun a i => if i = a.val then 1 else 0 : Fin 2 → ℕ → ℚ)
      (fun _ _ _ => 0) !![0, 1; -1, 0] := by
    refine ⟨fun e he a => ?_, fun _ _ _ _ _ _ => rfl⟩
    obtain ⟨h0, h1⟩ := (osc_residual freshI e).mp he
    show ∑ i ∈ Finset.range 2, _ = ∑ b, _ * (∑ i ∈ Finset.range 2, _ - _)
    fin_cases a <;> simp [Finset.sum_range_succ, Fin.sum_univ_two, oscD, MXExpr.sym, h0, h1]
  have h := C137_quadratic exFresh freshI _ _ _ _ _ _ _ _ _ _ _ _ false s idealCsFunction_spec pre hs (by simp)
    (fun j hj => by
      have hj : j < 2 := hj
      interval_cases j <;> norm_num [nd])
    (fun n hn => ht n (by rw [← b.N_eq]; exact hn)) env heq _ _ _ 1 lin
    (by
      ext i j
      fin_cases i <;> fin_cases j <;> simp [Matrix.transpose]) n hn
    (by
      rw [Matrix.isUnit_iff_isUnit_det, isUnit_iff_ne_zero]
      set h := nd t (n + 1) - nd t n
      have : (0 : ℚ) < 4 + h ^ 2 := by positivity
      simp [hM, Finset.sum_range_succ, Matrix.det_fin_two]
      nlinarith)
  have hnx : (oscD freshI).nx = 2 := rfl
  simp [dotProduct, Finset.sum_range_succ, hnx, Fin.sum_univ_two] at h
  linarith

/-- Reversal for the implicit Euler rule (node 1) fails. -/
example (freshI : String → ℕ) (hI : 6 ≤ freshI "xdot") : ∃ s s' : Scheme ℝ, ¬∀ env env', Columns s s' (odeUD freshI 1 0 0 0 clockF fun _ _ => 0)
    false env env' (fun n => s.N - n) (fun n => s.N - 1 - n) (fun c => s.N * s.M - 1 - c) → (∀ v ∈ s.eq.vals env, v = 0) →
      ∀ v ∈ s'.eq.vals env', v = 0 := by
  obtain ⟨s, s', -, -, h⟩ := C137_reversal exFresh freshI (by constructor <;> decide) hI [1] (by simp)
  refine ⟨s, s', fun h' => ?_⟩
  have := h h' 0 (by simp)
  norm_num [nd] at this

end CE
