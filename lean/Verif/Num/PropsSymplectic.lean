import Verif.Num.PropsInvariant

/-!
# Property C75: the tableau is symplectic exactly for Gauss nodes
-/

open Polynomial

namespace CE

variable {K : Type} [Field K] [DecidableEq K] [CharZero K]

/-- Bilinear consequence of `b[i]*a[i,j] + b[j]*a[j,i] = b[i]*b[j]`: the weights integrate the derivative of a product of two
polynomials of degree at most `s` that vanish at 0. -/
theorem symplectic_product {tau : List K} (hd : tau.Nodup)
    (h : ∀ i < tau.length, ∀ j < tau.length, wb tau i * wA tau i j + wb tau j * wA tau j i = wb tau i * wb tau j)
    {P Q : K[X]} (hP : (derivative P).degree < tau.length) (hQ : (derivative Q).degree < tau.length)
    (P0 : P.eval 0 = 0) (Q0 : Q.eval 0 = 0) :
    ∑ k ∈ Finset.range tau.length, wb tau k * (derivative (P * Q)).eval (nd tau k) = P.eval 1 * Q.eval 1 := by
  have hPA : ∀ k, ∑ j ∈ Finset.range tau.length, wA tau k j * (derivative P).eval (nd tau j) = P.eval (nd tau k) := by
    intro k
    have := sum_pint hd hP rfl (nd tau k)
    rw [P0, sub_zero] at this
    exact this
  have hQA : ∀ k, ∑ j ∈ Finset.range tau.length, wA tau k j * (derivative Q).eval (nd tau j) = Q.eval (nd tau k) := by
    intro k
    have := sum_pint hd hQ rfl (nd tau k)
    rw [Q0, sub_zero] at this
    exact this
  have hPb : ∑ j ∈ Finset.range tau.length, wb tau j * (derivative P).eval (nd tau j) = P.eval 1 := by
    have := sum_pint hd hP rfl 1
    rw [P0, sub_zero] at this
    exact this
  have hQb : ∑ j ∈ Finset.range tau.length, wb tau j * (derivative Q).eval (nd tau j) = Q.eval 1 := by
    have := sum_pint hd hQ rfl 1
    rw [Q0, sub_zero] at this
    exact this
  have e1 : ∑ k ∈ Finset.range tau.length, wb tau k * (derivative (P * Q)).eval (nd tau k) =
      ∑ i ∈ Finset.range tau.length, ∑ j ∈ Finset.range tau.length, wb tau i * wA tau i j *
        ((derivative P).eval (nd tau i) * (derivative Q).eval (nd tau j)) +
      ∑ i ∈ Finset.range tau.length, ∑ j ∈ Finset.range tau.length, wb tau i * wA tau i j *
        ((derivative P).eval (nd tau j) * (derivative Q).eval (nd tau i)) := by
    rw [← Finset.sum_add_distrib]
    refine Finset.sum_congr rfl fun k _ => ?_
    rw [derivative_mul, eval_add, eval_mul, eval_mul, ← hPA k, ← hQA k, mul_add, Finset.mul_sum, Finset.mul_sum, Finset.sum_mul,
      Finset.mul_sum]
    congr 1 <;> exact Finset.sum_congr rfl fun j _ => by ring
  rw [e1, Finset.sum_comm (f := fun i j => wb tau i * wA tau i j * ((derivative P).eval (nd tau j) * (derivative Q).eval (nd tau i))),
    ← Finset.sum_add_distrib, ← hPb, ← hQb, Finset.sum_mul_sum]
  refine Finset.sum_congr rfl fun i hi => ?_
  rw [← Finset.sum_add_distrib]
  refine Finset.sum_congr rfl fun j hj => ?_
  linear_combination ((derivative P).eval (nd tau i) * (derivative Q).eval (nd tau j)) *
    h i (Finset.mem_range.mp hi) j (Finset.mem_range.mp hj)

/-- **C75** The tableau for the nodes satisfies `b[i]*A[i,j] + b[j]*A[j,i] = b[i]*b[j]` for all `i`, `j` (it is symplectic, it
conserves quadratic invariants) exactly if the nodes are Gauss nodes. -/
theorem C75_symplectic (tau : List K) (hd : tau.Nodup) : ∃ T, butcherTableuForCollocationPoints tau = .ok T ∧
    ((∀ i < tau.length, ∀ j < tau.length, T.b.e [i] * T.A.e [i, j] + T.b.e [j] * T.A.e [j, i] = T.b.e [i] * T.b.e [j]) ↔
      IsGauss tau) := by
  obtain ⟨T, hT, h10⟩ := C10_quadrature_order tau hd tau.length
  refine ⟨T, hT, ?_⟩
  have hb : ∀ k < tau.length, T.b.e [k] = wb tau k := by
    intro k hk
    rw [butcher_ok] at hT; cases hT
    simp only [NdArray.vec, List.headD_cons, nd_map_range _ hk, wb]
  have hA : ∀ i j, T.A.e [i, j] = wA tau i j := by
    intro i j
    rw [butcher_ok] at hT; cases hT
    rfl
  refine Iff.trans ?_ h10.symm
  constructor
  · intro h p P hp hP
    have h' : ∀ i < tau.length, ∀ j < tau.length, wb tau i * wA tau i j + wb tau j * wA tau j i = wb tau i * wb tau j := by
      intro i hi j hj
      have := h i hi j hj
      rwa [hb i hi, hb j hj, hA, hA] at this
    -- monomials
    have hmon : ∀ m < tau.length + tau.length,
        ∑ k ∈ Finset.range tau.length, wb tau k * ((m + 1 : ℕ) * nd tau k ^ m) = (1 : K) := by
      intro m hm
      by_cases hm0 : m < tau.length
      · have hdeg : (derivative (X ^ (m + 1) : K[X])).degree < tau.length := by
          rw [derivative_X_pow, Nat.add_sub_cancel]
          refine lt_of_le_of_lt (degree_C_mul_X_pow_le _ _) ?_
          exact_mod_cast hm0
        have := sum_pint hd hdeg rfl 1
        simpa [wb] using this
      · have hdeg : ∀ a, a < tau.length → (derivative (X ^ (a + 1) : K[X])).degree < tau.length := by
          intro a ha
          rw [derivative_X_pow, Nat.add_sub_cancel]
          refine lt_of_le_of_lt (degree_C_mul_X_pow_le _ _) ?_
          exact_mod_cast ha
        have := symplectic_product hd h' (hdeg (m - tau.length) (by omega)) (hdeg (tau.length - 1) (by omega)) (by simp) (by simp)
        rw [← pow_add, show m - tau.length + 1 + (tau.length - 1 + 1) = m + 1 by omega] at this
        simpa using this
    have hp' : p = ∑ m ∈ Finset.range (tau.length + tau.length), C (p.coeff m) * X ^ m := by
      ext n
      simp only [finset_sum_coeff, coeff_C_mul_X_pow, Finset.sum_ite_eq, Finset.mem_range]
      split_ifs with hn
      · rfl
      · refine coeff_eq_zero_of_degree_lt (lt_of_lt_of_le hp ?_)
        exact_mod_cast Nat.le_of_not_lt hn
    have hPd : derivative P = derivative (∑ m ∈ Finset.range (tau.length + tau.length), C (p.coeff m / (m + 1)) * X ^ (m + 1)) := by
      rw [hP, derivative_sum]
      conv_lhs => rw [hp']
      refine Finset.sum_congr rfl fun m _ => ?_
      have : (m + 1 : K) ≠ 0 := by exact_mod_cast Nat.succ_ne_zero m
      rw [derivative_C_mul, derivative_X_pow, Nat.add_sub_cancel, ← mul_assoc, ← C_mul]
      push_cast
      rw [div_mul_cancel₀ _ this]
    rw [antiderivative_diff hPd]
    simp only [eval_finset_sum, eval_mul, eval_C, eval_pow, eval_X, one_pow, mul_one, ne_eq, Nat.add_eq_zero_iff, one_ne_zero,
      and_false, not_false_eq_true, zero_pow, mul_zero, Finset.sum_const_zero, sub_zero]
    calc _ = ∑ k ∈ Finset.range tau.length, ∑ m ∈ Finset.range (tau.length + tau.length),
          wb tau k * (p.coeff m * nd tau k ^ m) := by
          refine Finset.sum_congr rfl fun k hk => ?_
          rw [hb k (Finset.mem_range.mp hk)]
          conv_lhs => rw [hp']
          simp only [eval_finset_sum, eval_mul, eval_C, eval_pow, eval_X, Finset.mul_sum]
      _ = ∑ m ∈ Finset.range (tau.length + tau.length), p.coeff m / (m + 1) *
          ∑ k ∈ Finset.range tau.length, wb tau k * ((m + 1 : ℕ) * nd tau k ^ m) := by
          rw [Finset.sum_comm]
          refine Finset.sum_congr rfl fun m _ => ?_
          rw [Finset.mul_sum]
          refine Finset.sum_congr rfl fun k _ => ?_
          have : (m + 1 : K) ≠ 0 := by exact_mod_cast Nat.succ_ne_zero m
          push_cast
          field_simp
      _ = _ := Finset.sum_congr rfl fun m hm => by rw [hmon m (Finset.mem_range.mp hm), mul_one]
  · intro h i hi j hj
    have hder : ∀ i, derivative ((butcherPoly tau i).polyint).toPoly = Lagrange.basis (Finset.range tau.length) (nd tau) i := by
      intro i
      rw [Poly1d.derivative_polyint, butcherPoly_eq, toPoly_lagrangePoly]
    have hev : ∀ i < tau.length, ∀ k < tau.length, (derivative ((butcherPoly tau i).polyint).toPoly).eval (nd tau k) =
        if k = i then 1 else 0 := by
      intro i hi k hk
      rw [hder]
      split_ifs with hki
      · rw [hki]
        exact Lagrange.eval_basis_self (nd_injOn hd) (Finset.mem_range.mpr hi)
      · exact Lagrange.eval_basis_of_ne (fun h => hki h.symm) (Finset.mem_range.mpr hk)
    have hdeg : ∀ i < tau.length, ((butcherPoly tau i).polyint).toPoly.degree ≤ tau.length := by
      intro i hi
      refine degree_antiderivative ?_ (hder i)
      rw [Lagrange.degree_basis (nd_injOn hd) (Finset.mem_range.mpr hi), Finset.card_range]
      exact_mod_cast Nat.sub_lt (by omega) Nat.one_pos
    have h0 := h _ (((butcherPoly tau i).polyint).toPoly * ((butcherPoly tau j).polyint).toPoly) (by
      refine degree_deriv_lt (by omega) ((degree_mul_le _ _).trans ?_)
      push_cast
      exact add_le_add (hdeg i hi) (hdeg j hj)) rfl
    rw [show ∑ k ∈ Finset.range tau.length, T.b.e [k] *
        (derivative (((butcherPoly tau i).polyint).toPoly * ((butcherPoly tau j).polyint).toPoly)).eval (nd tau k) =
        ∑ k ∈ Finset.range tau.length, ((if k = i then wb tau i * wA tau i j else 0) + if k = j then wb tau j * wA tau j i else 0) from
      Finset.sum_congr rfl fun k hk => by
        have hk := Finset.mem_range.mp hk
        rw [derivative_mul, eval_add, eval_mul, eval_mul, hev i hi k hk, hev j hj k hk, hb k hk]
        unfold wA
        simp only [Poly1d.eval_eq]
        by_cases e1 : k = i <;> by_cases e2 : k = j <;> subst_vars <;> simp [*] <;> ring] at h0
    rw [Finset.sum_add_distrib, Finset.sum_ite_eq' (Finset.range tau.length) i, Finset.sum_ite_eq' (Finset.range tau.length) j, if_pos (Finset.mem_range.mpr hi),
      if_pos (Finset.mem_range.mpr hj)] at h0
    rw [hb i hi, hb j hj, hA, hA, h0]
    have z : ∀ i, ((butcherPoly tau i).polyint).toPoly.eval 0 = 0 := fun i => by
      exact Poly1d.eval_zero_polyint _
    simp only [eval_mul, z, mul_zero, sub_zero, wb, Poly1d.eval_eq]

/-- Non-vacuity: the midpoint rule is symplectic, the trapezoidal rule (nodes 0 and 1) is not. -/
example : IsGauss ([1 / 2] : List ℚ) ∧ ¬IsGauss ([0, 1] : List ℚ) := by
  refine ⟨isGauss_midpoint, fun h => ?_⟩
  obtain ⟨T, hT, h75⟩ := C75_symplectic ([0, 1] : List ℚ) (by decide)
  have h1 := h75.mpr h 0 (by simp) 0 (by simp)
  rw [butcher_ok] at hT
  cases hT
  revert h1
  decide +kernel

end CE
