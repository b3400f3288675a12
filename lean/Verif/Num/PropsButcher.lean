import Verif.Num.Butcher
import Verif.Num.BasisLemmas
import Mathlib.Algebra.Polynomial.Derivative
import Mathlib.Analysis.Calculus.Deriv.Polynomial
import Mathlib.Topology.Algebra.Polynomial
import Mathlib.MeasureTheory.Integral.IntervalIntegral.FundThmCalculus

/-!
# Properties C08–C11: Butcher tableaux

Specification vocabulary: over a field of characteristic zero the integral of a polynomial `p` from `a` to `b` is
`P.eval b - P.eval a` for any polynomial `P` with `derivative P = p`; over ℝ it is the interval integral.
-/

open Polynomial

namespace CE

variable {K : Type*} [Field K] [DecidableEq K]

section Lemmas

variable [CharZero K]

omit [DecidableEq K] in
theorem exists_antiderivative (p : K[X]) : ∃ P : K[X], derivative P = p := by
  refine ⟨∑ i ∈ Finset.range (p.natDegree + 1), C (p.coeff i / (i + 1)) * X ^ (i + 1), ?_⟩
  conv_rhs => rw [p.as_sum_range_C_mul_X_pow]
  rw [derivative_sum]
  apply Finset.sum_congr rfl
  intro i _
  rw [derivative_C_mul, derivative_X_pow, Nat.add_sub_cancel, ← mul_assoc, ← C_mul]
  congr 2
  push_cast
  field_simp

omit [DecidableEq K] in
theorem antiderivative_diff {P Q : K[X]} (h : derivative P = derivative Q) (x y : K) :
    P.eval x - P.eval y = Q.eval x - Q.eval y := by
  have h0 : derivative (P - Q) = 0 := by rw [derivative_sub, h, sub_self]
  have hc : P - Q = C ((P - Q).coeff 0) :=
    eq_C_of_natDegree_eq_zero (natDegree_eq_zero_of_derivative_eq_zero h0)
  have hx := congrArg (eval x) hc
  have hy := congrArg (eval y) hc
  simp only [eval_sub, eval_C] at hx hy
  linear_combination hx - hy

omit [DecidableEq K] [CharZero K] in
theorem monic_nodes (l : List K) : ((l.map fun c => (X - C c : K[X])).prod).Monic := by
  induction l with
  | nil => simp
  | cons a l ih => simpa using (monic_X_sub_C a).mul ih

theorem butcherPoly_eq (tau : List K) (j : ℕ) : butcherPoly tau j = lagrangePoly tau j := rfl

theorem sum_pint {tau : List K} (hd : tau.Nodup) {p P : K[X]} (hp : p.degree < tau.length)
    (hP : derivative P = p) (x : K) :
    ∑ j ∈ Finset.range tau.length, ((butcherPoly tau j).polyint).eval x * p.eval (nd tau j)
      = P.eval x - P.eval 0 := by
  have h := antiderivative_diff (P := ∑ j ∈ Finset.range tau.length,
    C (p.eval (nd tau j)) * ((butcherPoly tau j).polyint).toPoly) (Q := P) (by
      rw [derivative_sum, hP]
      conv_rhs => rw [eq_sum_basis hd hp]
      apply Finset.sum_congr rfl
      intro j _
      rw [derivative_C_mul, Poly1d.derivative_polyint, butcherPoly_eq, toPoly_lagrangePoly]) x 0
  rw [← h]
  simp only [eval_finset_sum, eval_mul, eval_C, Poly1d.eval_zero_polyint,
    mul_zero, Finset.sum_const_zero, sub_zero, Poly1d.eval_eq]
  exact Finset.sum_congr rfl fun j _ => mul_comm (_ : K) _

theorem butcher_ok (tau : List K) : butcherTableuForCollocationPoints tau = .ok
    ⟨NdArray.mat2 tau.length tau.length fun i j => ((butcherPoly tau j).polyint).eval (nd tau i),
     NdArray.vec ((List.range tau.length).map fun j => ((butcherPoly tau j).polyint).eval 1),
     NdArray.vec tau⟩ := by
  simp [butcherTableuForCollocationPoints, ButcherTableau.new, NdArray.ndim, NdArray.size,
    NdArray.mat2, NdArray.vec]

end Lemmas

/-- **C08** The tableau integrates polynomials of degree `< len(tau)` exactly. -/
theorem C08_butcher_exact [CharZero K] (tau : List K) (hd : tau.Nodup) :
    ∃ T, butcherTableuForCollocationPoints tau = .ok T ∧
      T.A.shape = [tau.length, tau.length] ∧ T.b.shape = [tau.length] ∧ T.c.shape = [tau.length] ∧
      (∀ i < tau.length, T.c.e [i] = nd tau i) ∧
      ∀ p P : K[X], p.degree < tau.length → derivative P = p →
        (∀ i < tau.length, ∑ j ∈ Finset.range tau.length, T.A.e [i, j] * p.eval (nd tau j)
          = P.eval (nd tau i) - P.eval 0) ∧
        ∑ j ∈ Finset.range tau.length, T.b.e [j] * p.eval (nd tau j) = P.eval 1 - P.eval 0 := by
  refine ⟨_, butcher_ok tau, rfl, by simp [NdArray.vec], rfl, fun i _ => rfl, ?_⟩
  intro p P hp hP
  refine ⟨fun i _ => sum_pint hd hp hP (nd tau i), ?_⟩
  rw [← sum_pint hd hp hP]
  apply Finset.sum_congr rfl
  intro j hj
  simp only [NdArray.vec, List.headD_cons, nd_map_range _ (Finset.mem_range.mp hj)]

/-- **C08** over the reals, with genuine integrals. -/
theorem C08_butcher_exact_real (tau : List ℝ) (hd : tau.Nodup) :
    ∃ T, butcherTableuForCollocationPoints tau = .ok T ∧
      ∀ p : ℝ[X], p.degree < tau.length →
        (∀ i < tau.length, ∑ j ∈ Finset.range tau.length, T.A.e [i, j] * p.eval (nd tau j)
          = ∫ x in (0:ℝ)..(nd tau i), p.eval x) ∧
        ∑ j ∈ Finset.range tau.length, T.b.e [j] * p.eval (nd tau j) = ∫ x in (0:ℝ)..1, p.eval x := by
  obtain ⟨T, hT, _, _, _, _, h⟩ := C08_butcher_exact tau hd
  refine ⟨T, hT, ?_⟩
  intro p hp
  obtain ⟨P, hP⟩ := exists_antiderivative p
  obtain ⟨hA, hb⟩ := h p P hp hP
  have hint : ∀ y : ℝ, ∫ x in (0:ℝ)..y, p.eval x = P.eval y - P.eval 0 := by
    intro y
    apply intervalIntegral.integral_eq_sub_of_hasDerivAt
    · intro x _
      have := P.hasDerivAt x
      rwa [hP] at this
    · exact (p.continuous).intervalIntegrable _ _
  exact ⟨fun i hi => by rw [hA i hi, hint], by rw [hb, hint]⟩

/-- **C09** Consistency: `A` row sums are the nodes, `b` sums to one, and a final (or any) node equal to one makes
`b` the corresponding row of `A` (stiff accuracy). -/
theorem C09_butcher_consistent [CharZero K] (tau : List K) (hne : tau ≠ []) (hd : tau.Nodup) :
    ∃ T, butcherTableuForCollocationPoints tau = .ok T ∧
      (∀ i < tau.length, ∑ j ∈ Finset.range tau.length, T.A.e [i, j] = T.c.e [i]) ∧
      ∑ j ∈ Finset.range tau.length, T.b.e [j] = 1 ∧
      (tau.getLast hne = 1 → ∀ j < tau.length, T.b.e [j] = T.A.e [tau.length - 1, j]) := by
  obtain ⟨T, hT, _, _, _, hc, h⟩ := C08_butcher_exact tau hd
  have hpos : 0 < tau.length := List.length_pos_iff.mpr hne
  obtain ⟨hA, hb⟩ := h 1 X (by rw [degree_one]; exact_mod_cast hpos) derivative_X
  simp only [eval_one, mul_one, eval_X, sub_zero] at hA hb
  refine ⟨T, hT, fun i hi => by rw [hA i hi, hc i hi], hb, ?_⟩
  intro hl j hj
  rw [butcher_ok] at hT; cases hT
  have hlast : nd tau (tau.length - 1) = 1 := by
    rw [← hl, List.getLast_eq_getElem]
    exact nd_eq_getElem (by omega)
  simp only [NdArray.vec, NdArray.mat2, List.headD_cons, List.tail_cons, nd_map_range _ hj, hlast]

/-- **C10** Quadrature order: orthogonality of the node polynomial to all polynomials of degree `< m` is equivalent
to exactness of `b` on all polynomials of degree `< len(tau) + m`. -/
theorem C10_quadrature_order [CharZero K] (tau : List K) (hd : tau.Nodup) (m : ℕ) :
    ∃ T, butcherTableuForCollocationPoints tau = .ok T ∧
      ((∀ q P : K[X], q.degree < m → derivative P = (tau.map fun c => X - C c).prod * q →
          P.eval 1 - P.eval 0 = 0) ↔
        ∀ p P : K[X], p.degree < (tau.length + m : ℕ) → derivative P = p →
          ∑ j ∈ Finset.range tau.length, T.b.e [j] * p.eval (nd tau j) = P.eval 1 - P.eval 0) := by
  obtain ⟨T, hT, _, _, _, _, h⟩ := C08_butcher_exact tau hd
  refine ⟨T, hT, ?_⟩
  set w : K[X] := (tau.map fun c => X - C c).prod with hw
  have hwm : w.Monic := by
    exact monic_nodes tau
  have hwd : w.natDegree = tau.length := by
    have : ∀ l : List K, ((l.map fun c => (X - C c : K[X])).prod).natDegree = l.length := by
      intro l
      induction l with
      | nil => simp
      | cons a l ih =>
        have hm : ((l.map fun c => (X - C c : K[X])).prod).Monic := monic_nodes l
        rw [List.map_cons, List.prod_cons, (monic_X_sub_C a).natDegree_mul hm, natDegree_X_sub_C, ih,
          List.length_cons, Nat.add_comm]
    exact this tau
  have hw0 : ∀ j < tau.length, w.eval (nd tau j) = 0 := by
    intro j hj
    rw [hw, eval_list_prod]
    apply List.prod_eq_zero
    rw [List.map_map, List.mem_map]
    exact ⟨nd tau j, by rw [nd_eq_getElem hj]; exact List.getElem_mem hj, by simp⟩
  constructor
  · intro horth p P hp hP
    have hdiv : p %ₘ w + w * (p /ₘ w) = p := modByMonic_add_div p w
    have hrdeg : (p %ₘ w).degree < tau.length := by
      have := degree_modByMonic_lt p hwm
      rwa [degree_eq_natDegree hwm.ne_zero, hwd] at this
    have hqdeg : (p /ₘ w).degree < m := by
      by_cases hq0 : p /ₘ w = 0
      · rw [hq0, degree_zero]; exact WithBot.bot_lt_coe _
      · have hp0 : p ≠ 0 := by rintro rfl; simp at hq0
        have h1 : (p /ₘ w).natDegree = p.natDegree - tau.length := by
          rw [natDegree_divByMonic p hwm, hwd]
        have h2 : tau.length ≤ p.natDegree := by
          by_contra hcon
          apply hq0
          rw [divByMonic_eq_zero_iff hwm, degree_eq_natDegree hwm.ne_zero, hwd,
            degree_eq_natDegree hp0]
          exact_mod_cast Nat.lt_of_not_le hcon
        rw [degree_eq_natDegree hp0] at hp
        have hp' : p.natDegree < tau.length + m := by exact_mod_cast hp
        rw [degree_eq_natDegree hq0, h1]
        exact_mod_cast (by omega : p.natDegree - tau.length < m)
    obtain ⟨R, hR⟩ := exists_antiderivative (p %ₘ w)
    obtain ⟨Q, hQ⟩ := exists_antiderivative (w * (p /ₘ w))
    have hsum : derivative P = derivative (R + Q) := by rw [derivative_add, hR, hQ, hdiv, hP]
    rw [antiderivative_diff hsum 1 0, eval_add, eval_add]
    have h0 := horth _ Q hqdeg hQ
    have hr := (h _ R hrdeg hR).2
    have : ∑ j ∈ Finset.range tau.length, T.b.e [j] * p.eval (nd tau j)
        = ∑ j ∈ Finset.range tau.length, T.b.e [j] * (p %ₘ w).eval (nd tau j) := by
      apply Finset.sum_congr rfl
      intro j hj
      conv_lhs => rw [← hdiv]
      rw [eval_add, eval_mul, hw0 j (Finset.mem_range.mp hj), zero_mul, add_zero]
    rw [this, hr]
    linear_combination -h0
  · intro hex q P hq hP
    by_cases hq0 : q = 0
    · have : derivative P = derivative (0 : K[X]) := by rw [hP, hq0, mul_zero, derivative_zero]
      rw [antiderivative_diff this]; simp
    · have hdeg : (w * q).degree < (tau.length + m : ℕ) := by
        rw [degree_eq_natDegree (mul_ne_zero hwm.ne_zero hq0), natDegree_mul hwm.ne_zero hq0, hwd]
        rw [degree_eq_natDegree hq0] at hq
        have : q.natDegree < m := by exact_mod_cast hq
        exact_mod_cast (by omega : tau.length + q.natDegree < tau.length + m)
      rw [← hex _ P hdeg hP]
      apply Finset.sum_eq_zero
      intro j hj
      rw [eval_mul, hw0 j (Finset.mem_range.mp hj), zero_mul, mul_zero]

/-- **C11** The constructor accepts exactly consistent shapes and stores its arguments. -/
theorem C11_tableau_ctor (A b c : NdArray K) :
    (∀ T, ButcherTableau.new A b c = .ok T ↔
      T = ⟨A, b, c⟩ ∧ ∃ s, A.shape = [s, s] ∧ b.shape = [s] ∧ c.shape = [s]) ∧
    ((¬ ∃ s, A.shape = [s, s] ∧ b.shape = [s] ∧ c.shape = [s]) →
      ButcherTableau.new A b c = .error .assertion) := by
  have key : (∃ s, A.shape = [s, s] ∧ b.shape = [s] ∧ c.shape = [s]) ∧
        ButcherTableau.new A b c = .ok ⟨A, b, c⟩ ∨
      (¬ ∃ s, A.shape = [s, s] ∧ b.shape = [s] ∧ c.shape = [s]) ∧
        ButcherTableau.new A b c = .error .assertion := by
    obtain ⟨sa, ea⟩ := A
    obtain ⟨sb, eb⟩ := b
    obtain ⟨sc, ec⟩ := c
    unfold ButcherTableau.new NdArray.ndim NdArray.size
    rcases sa with _ | ⟨a0, _ | ⟨a1, _ | ⟨a2, sa⟩⟩⟩ <;> try (right; simp; done)
    rcases sb with _ | ⟨b0, _ | ⟨b1, sb⟩⟩ <;> try (right; simp; done)
    all_goals rcases sc with _ | ⟨c0, _ | ⟨c1, sc⟩⟩ <;> try (right; simp; done)
    by_cases h1 : a0 = a1 <;> by_cases h2 : b0 = a1 <;> by_cases h3 : c0 = a0
    · left; subst h1 h3; subst h2; simp
    all_goals right
    all_goals simp [h1, h2, h3]
    all_goals omega
  rcases key with ⟨hs, hk⟩ | ⟨hs, hk⟩
  · refine ⟨fun T => ?_, fun hn => absurd hs hn⟩
    rw [hk]
    constructor
    · intro h; cases h; exact ⟨rfl, hs⟩
    · rintro ⟨rfl, _⟩; rfl
  · refine ⟨fun T => ?_, fun _ => hk⟩
    rw [hk]
    constructor
    · intro h; cases h
    · rintro ⟨_, h⟩; exact absurd h hs

/-! ## Non-vacuity -/

example : ([1/3, 1] : List ℚ).Nodup := by decide +kernel

/-- Test (one input): the Radau tableau with 2 points. -/
example : (match butcherTableuForCollocationPoints ([1/3, 1] : List ℚ) with
    | .ok T => [T.A.e [0,0], T.A.e [0,1], T.A.e [1,0], T.A.e [1,1], T.b.e [0], T.b.e [1]]
    | .error _ => []) = [5/12, -1/12, 3/4, 1/4, 3/4, 1/4] := by decide +kernel

/-- The hypothesis of C10 is met by a genuine case: the midpoint rule (1 node, m = 1). -/
example : ∀ q P : ℚ[X], q.degree < (1 : ℕ) →
    derivative P = (([1/2] : List ℚ).map fun c => X - C c).prod * q → P.eval 1 - P.eval 0 = 0 := by
  intro q P hq hP
  have hq' : q = C (q.coeff 0) := eq_C_of_degree_le_zero (by
    have : q.degree < ((0 + 1 : ℕ) : WithBot ℕ) := by simpa using hq
    exact Order.lt_succ_iff.mp this)
  have hPd : derivative P = derivative (C (q.coeff 0) * (C (1/2) * X ^ 2 - C (1/2) * X)) := by
    rw [hP, hq']
    simp only [List.map_cons, List.map_nil, List.prod_cons, List.prod_nil, mul_one, coeff_C_zero,
      derivative_C_mul, derivative_sub, derivative_X_pow, derivative_X]
    have : (C (1/2) * (C ((2:ℕ):ℚ) * X ^ (2-1)) : ℚ[X]) = X := by
      rw [← mul_assoc, ← C_mul]; norm_num
    rw [this]; ring
  rw [antiderivative_diff hPd]
  simp only [eval_mul, eval_sub, eval_C, eval_pow, eval_X]; ring

/-- Shapes accepted and rejected by the constructor. -/
example : (∃ T, ButcherTableau.new (NdArray.mat2 2 2 fun i j => ((i + j : ℕ) : ℚ)) (.vec [1, 2]) (.vec [3, 4]) = .ok T) ∧
    ButcherTableau.new (NdArray.mat2 2 2 fun i j => ((i + j : ℕ) : ℚ)) (.vec [1, 2, 3]) (.vec [3, 4])
      = .error .assertion := ⟨⟨_, rfl⟩, rfl⟩

/-- C08, over the reals: the Radau rule with the nodes 1/3, 1 integrates `x` exactly, to the node 1/3 and to 1. -/
example : ∃ T, butcherTableuForCollocationPoints ([1/3, 1] : List ℝ) = .ok T ∧
    T.A.e [0, 0] * (1/3) + T.A.e [0, 1] = ∫ x in (0:ℝ)..(1/3), x ∧ T.b.e [0] * (1/3) + T.b.e [1] = ∫ x in (0:ℝ)..1, x := by
  obtain ⟨T, hT, h⟩ := C08_butcher_exact_real [1/3, 1] (by simp)
  obtain ⟨h1, h2⟩ := h X (by rw [degree_X]; decide)
  have h1 := h1 0 (by decide)
  simp [Finset.sum_range_succ, nd] at h1 h2
  exact ⟨T, hT, by simpa using h1, by simpa using h2⟩

/-- C10: the midpoint rule is exact for polynomials of degree 1, one more than its number of nodes gives, and not of degree 2. -/
example : ∃ T, butcherTableuForCollocationPoints ([1/2] : List ℚ) = .ok T ∧
    (∀ p P : ℚ[X], p.degree < (1 + 1 : ℕ) → derivative P = p → T.b.e [0] * p.eval (1/2) = P.eval 1 - P.eval 0) ∧
    ¬ ∀ p P : ℚ[X], p.degree < (1 + 2 : ℕ) → derivative P = p → T.b.e [0] * p.eval (1/2) = P.eval 1 - P.eval 0 := by
  obtain ⟨T, hT, h⟩ := C10_quadrature_order ([1/2] : List ℚ) (by simp) 1
  have key : ∀ p P : ℚ[X], p.degree < (1 + 1 : ℕ) → derivative P = p → T.b.e [0] * p.eval (1/2) = P.eval 1 - P.eval 0 := by
    intro p P hp hP
    have := h.1 (by
      intro q P hq hP
      have hq' : q = C (q.coeff 0) := eq_C_of_degree_le_zero (by
        have : q.degree < ((0 + 1 : ℕ) : WithBot ℕ) := by simpa using hq
        exact Order.lt_succ_iff.mp this)
      have hPd : derivative P = derivative (C (q.coeff 0) * (C (1/2) * X ^ 2 - C (1/2) * X)) := by
        rw [hP, hq']
        simp only [List.map_cons, List.map_nil, List.prod_cons, List.prod_nil, mul_one, coeff_C_zero,
          derivative_C_mul, derivative_sub, derivative_X_pow, derivative_X]
        have : (C (1/2) * (C ((2:ℕ):ℚ) * X ^ (2-1)) : ℚ[X]) = X := by
          rw [← mul_assoc, ← C_mul]; norm_num
        rw [this]; ring
      rw [antiderivative_diff hPd]
      simp only [eval_mul, eval_sub, eval_C, eval_pow, eval_X]; ring) p P hp hP
    simpa [nd] using this
  refine ⟨T, hT, key, fun h2 => ?_⟩
  have h0 := key 1 X (by rw [degree_one]; decide) derivative_X
  have h3 := h2 (C 3 * X ^ 2) (X ^ 3) (lt_of_le_of_lt (degree_C_mul_X_pow_le _ _) (by decide)) (by rw [derivative_X_pow]; norm_num)
  simp at h0 h3
  rw [h0] at h3
  norm_num at h3

end CE
