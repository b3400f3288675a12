import Verif.Num.PropsSymplectic
import Mathlib.Analysis.Calculus.MeanValue
import Mathlib.Analysis.SpecialFunctions.Exponential

/-!
# Lemmas for C87: products of the weights with powers of the matrix of the tableau, linear differential equations
-/

open Polynomial

namespace CE

section
variable {K : Type} [Field K] [DecidableEq K] [CharZero K]

/-- The row vector `b * A^k`. -/
def rowPow (tau : List K) : ℕ → ℕ → K
  | 0, j => wb tau j
  | k + 1, j => ∑ i ∈ Finset.range tau.length, rowPow tau k i * wA tau i j

/-- The weights integrate polynomials of degree less than `p` exactly. -/
def WeightsExact (tau : List K) (p : ℕ) : Prop :=
  ∀ P : K[X], (derivative P).degree < p → ∑ j ∈ Finset.range tau.length, wb tau j * (derivative P).eval (nd tau j) = P.eval 1 - P.eval 0

theorem rowPow_small {tau : List K} (hd : tau.Nodup) {m : ℕ} (h : WeightsExact tau (tau.length + m)) :
    ∀ l ≤ m, ∀ j < tau.length, rowPow tau l j = wb tau j * ((1 - nd tau j) ^ l / (l.factorial : K)) := by
  intro l
  induction l with
  | zero => intro _ j _; simp [rowPow]
  | succ l ih =>
    intro hl j hj
    have hfac : ((l.factorial : ℕ) : K) ≠ 0 := by exact_mod_cast l.factorial_ne_zero
    have hl1 : ((l + 1 : ℕ) : K) ≠ 0 := by exact_mod_cast l.succ_ne_zero
    set P := ((butcherPoly tau j).polyint).toPoly with hP
    have hder : derivative P = Lagrange.basis (Finset.range tau.length) (nd tau) j := by
      rw [hP, Poly1d.derivative_polyint, butcherPoly_eq, toPoly_lagrangePoly]
    have hev : ∀ k < tau.length, (derivative P).eval (nd tau k) = if k = j then 1 else 0 := by
      intro k hk
      rw [hder]
      split_ifs with hki
      · rw [hki]
        exact Lagrange.eval_basis_self (nd_injOn hd) (Finset.mem_range.mpr hj)
      · exact Lagrange.eval_basis_of_ne (fun h => hki h.symm) (Finset.mem_range.mpr hk)
    have hdeg : P.degree ≤ tau.length := by
      refine degree_antiderivative ?_ hder
      rw [Lagrange.degree_basis (nd_injOn hd) (Finset.mem_range.mpr hj), Finset.card_range]
      exact_mod_cast Nat.sub_lt (by omega) Nat.one_pos
    let G : K[X] := -(C (((l + 1).factorial : K)⁻¹) * (1 - X) ^ (l + 1))
    have hG : ∀ x, (derivative G).eval x = (1 - x) ^ l / (l.factorial : K) := by
      intro x
      simp only [G, derivative_neg, derivative_C_mul, derivative_pow, derivative_sub, derivative_one, derivative_X, eval_neg, eval_mul,
        eval_C, eval_pow, eval_sub, eval_one, eval_X, eval_natCast, Nat.add_sub_cancel, Nat.factorial_succ, Nat.cast_mul, zero_sub]
      field_simp
    have hGe : ∀ x, G.eval x = -((1 - x) ^ (l + 1) / ((l + 1).factorial : K)) := by
      intro x
      simp only [G, eval_neg, eval_mul, eval_C, eval_pow, eval_sub, eval_one, eval_X]
      ring
    have hGd : G.degree ≤ (l + 1 : ℕ) := by
      simp only [G, degree_neg]
      refine ((degree_mul_le _ _).trans (add_le_add degree_C_le le_rfl)).trans ?_
      rw [zero_add]
      refine (degree_pow_le _ _).trans ?_
      have : (1 - X : K[X]).degree ≤ 1 := (degree_sub_le _ _).trans (max_le (degree_one_le.trans zero_le_one) degree_X_le)
      calc _ ≤ (l + 1) • (1 : WithBot ℕ) := nsmul_le_nsmul_right this _
        _ = _ := by simp
    have hex := h (G * P) (degree_deriv_lt (by omega) ((degree_mul_le _ _).trans (by
      calc _ ≤ ((l + 1 : ℕ) : WithBot ℕ) + (tau.length : ℕ) := add_le_add hGd hdeg
        _ ≤ _ := by norm_cast; omega)))
    have P0 : P.eval 0 = 0 := Poly1d.eval_zero_polyint _
    have e0 : (G * P).eval 1 - (G * P).eval 0 = 0 := by
      rw [eval_mul, eval_mul, P0, hGe 1]
      simp
    rw [e0] at hex
    have e1 : ∑ k ∈ Finset.range tau.length, wb tau k * (derivative (G * P)).eval (nd tau k) =
        ∑ k ∈ Finset.range tau.length, rowPow tau l k * wA tau k j +
          ∑ k ∈ Finset.range tau.length, (if k = j then wb tau j * G.eval (nd tau j) else 0) := by
      rw [← Finset.sum_add_distrib]
      refine Finset.sum_congr rfl fun k hk => ?_
      have hk := Finset.mem_range.mp hk
      rw [derivative_mul, eval_add, eval_mul, eval_mul, hev k hk, hG, ih (by omega) k hk]
      have : wA tau k j = P.eval (nd tau k) := Poly1d.eval_eq _ _
      rw [this]
      split_ifs with hkj
      · subst hkj; ring
      · ring
    rw [e1, Finset.sum_ite_eq', if_pos (Finset.mem_range.mpr hj), hGe] at hex
    rw [rowPow]
    linear_combination hex

theorem rowPow_shift {tau : List K} (hd : tau.Nodup) (l q : ℕ) (hq : q < tau.length) :
    ∑ j ∈ Finset.range tau.length, rowPow tau (l + 1) j * (nd tau j ^ q / (q.factorial : K)) =
      ∑ j ∈ Finset.range tau.length, rowPow tau l j * (nd tau j ^ (q + 1) / ((q + 1).factorial : K)) := by
  have hfac : ((q.factorial : ℕ) : K) ≠ 0 := by exact_mod_cast q.factorial_ne_zero
  have hq1 : ((q + 1 : ℕ) : K) ≠ 0 := by exact_mod_cast q.succ_ne_zero
  have hder : derivative (C (((q + 1).factorial : K)⁻¹) * X ^ (q + 1) : K[X]) = C ((q.factorial : K)⁻¹) * X ^ q := by
    rw [derivative_C_mul, derivative_X_pow, Nat.add_sub_cancel, ← mul_assoc, ← C_mul]
    congr 2
    rw [Nat.factorial_succ]
    push_cast at hq1 ⊢
    field_simp
  have hA : ∀ i, ∑ j ∈ Finset.range tau.length, wA tau i j * (nd tau j ^ q / (q.factorial : K)) =
      nd tau i ^ (q + 1) / ((q + 1).factorial : K) := by
    intro i
    have := sum_pint hd (p := C ((q.factorial : K)⁻¹) * X ^ q) (lt_of_le_of_lt (degree_C_mul_X_pow_le _ _) (by exact_mod_cast hq)) hder (nd tau i)
    simp only [eval_mul, eval_C, eval_pow, eval_X, ne_eq, Nat.add_eq_zero_iff, one_ne_zero, and_false, not_false_eq_true, zero_pow, mul_zero,
      sub_zero] at this
    rw [div_eq_inv_mul, ← this]
    exact Finset.sum_congr rfl fun j _ => by rw [div_eq_inv_mul]; rfl
  simp only [rowPow, Finset.sum_mul]
  rw [Finset.sum_comm]
  refine Finset.sum_congr rfl fun i _ => ?_
  rw [← hA i, Finset.mul_sum]
  exact Finset.sum_congr rfl fun j _ => by ring

/-- An antiderivative of `(1-x)^l/l! * x^q/q!`; it increases by `1/(l+q+1)!` on [0,1]. -/
theorem beta_poly (l : ℕ) : ∀ q : ℕ, ∃ P : K[X], derivative P = C ((l.factorial : K)⁻¹) * (1 - X) ^ l * (C ((q.factorial : K)⁻¹) * X ^ q) ∧
    P.eval 1 - P.eval 0 = 1 / ((l + q + 1).factorial : K) := by
  induction l with
  | zero =>
    intro q
    have hfac : ((q.factorial : ℕ) : K) ≠ 0 := by exact_mod_cast q.factorial_ne_zero
    have hq1 : ((q + 1 : ℕ) : K) ≠ 0 := by exact_mod_cast q.succ_ne_zero
    refine ⟨C (((q + 1).factorial : K)⁻¹) * X ^ (q + 1), ?_, ?_⟩
    · rw [derivative_C_mul, derivative_X_pow, Nat.add_sub_cancel, ← mul_assoc, ← C_mul, Nat.factorial_zero, Nat.cast_one, inv_one, C_1,
        pow_zero, one_mul, one_mul]
      congr 2
      rw [Nat.factorial_succ]
      push_cast at hq1 ⊢
      field_simp
    · simp
  | succ l ih =>
    intro q
    obtain ⟨P, h1, h2⟩ := ih (q + 1)
    have hfac : ((q.factorial : ℕ) : K) ≠ 0 := by exact_mod_cast q.factorial_ne_zero
    have hq1 : ((q + 1 : ℕ) : K) ≠ 0 := by exact_mod_cast q.succ_ne_zero
    have hfac' : ((l.factorial : ℕ) : K) ≠ 0 := by exact_mod_cast l.factorial_ne_zero
    have hl1 : ((l + 1 : ℕ) : K) ≠ 0 := by exact_mod_cast l.succ_ne_zero
    refine ⟨C (((l + 1).factorial : K)⁻¹) * (1 - X) ^ (l + 1) * (C (((q + 1).factorial : K)⁻¹) * X ^ (q + 1)) + P, ?_, ?_⟩
    · rw [derivative_add, h1, derivative_mul, derivative_C_mul, derivative_C_mul, derivative_X_pow, derivative_pow]
      have c1 : C (((q + 1).factorial : K)⁻¹) * C ((q + 1 : ℕ) : K) = C ((q.factorial : K)⁻¹) := by
        rw [← C_mul, Nat.factorial_succ]
        congr 1
        push_cast at hq1 ⊢
        field_simp
      have c2 : C (((l + 1).factorial : K)⁻¹) * C ((l + 1 : ℕ) : K) = C ((l.factorial : K)⁻¹) := by
        rw [← C_mul, Nat.factorial_succ]
        congr 1
        push_cast at hl1 ⊢
        field_simp
      simp only [Nat.add_sub_cancel, derivative_sub, derivative_one, derivative_X, zero_sub]
      linear_combination (C (((l + 1).factorial : K)⁻¹) * (1 - X) ^ (l + 1) * X ^ q) * c1 -
        ((1 - X) ^ l * (C (((q + 1).factorial : K)⁻¹) * X ^ (q + 1))) * c2
    · rw [eval_add, eval_add]
      simp only [eval_mul, eval_C, eval_pow, eval_sub, eval_one, eval_X, sub_self, ne_eq, Nat.add_eq_zero_iff, one_ne_zero, and_false,
        not_false_eq_true, zero_pow, mul_zero, zero_mul, zero_add]
      rw [h2, show l + (q + 1) + 1 = l + 1 + q + 1 by omega]

/-- `b * A^k * (1,...,1) = 1/(k+1)!` as long as the order of the weights allows it. -/
theorem rowPow_sum {tau : List K} (hd : tau.Nodup) {m : ℕ} (h : WeightsExact tau (tau.length + m)) (k : ℕ) (hk : k < tau.length + m) :
    ∑ j ∈ Finset.range tau.length, rowPow tau k j = 1 / ((k + 1).factorial : K) := by
  have shift : ∀ q ≤ tau.length, ∀ l, ∑ j ∈ Finset.range tau.length, rowPow tau (l + q) j =
      ∑ j ∈ Finset.range tau.length, rowPow tau l j * (nd tau j ^ q / (q.factorial : K)) := by
    intro q
    induction q with
    | zero => intro _ l; simp
    | succ q ih =>
      intro hq l
      rw [← rowPow_shift hd l q (by omega), ← ih (by omega) (l + 1), show l + (q + 1) = l + 1 + q by omega]
  obtain ⟨l, q, hl, hq, rfl⟩ : ∃ l q, l ≤ m ∧ q ≤ tau.length ∧ k = l + q := by
    by_cases hkm : k ≤ tau.length
    · exact ⟨0, k, by omega, hkm, by omega⟩
    · exact ⟨k - tau.length, tau.length, by omega, le_rfl, by omega⟩
  obtain ⟨P, h1, h2⟩ := beta_poly (K := K) l q
  have h3 := h P (by
    rw [h1]
    have : (1 - X : K[X]).degree ≤ 1 := (degree_sub_le _ _).trans (max_le (degree_one_le.trans zero_le_one) degree_X_le)
    have h4 : (C ((l.factorial : K)⁻¹) * (1 - X) ^ l : K[X]).degree ≤ ((l : ℕ) : WithBot ℕ) := by
      refine ((degree_mul_le _ _).trans (add_le_add degree_C_le le_rfl)).trans ?_
      rw [zero_add]
      refine (degree_pow_le _ _).trans ?_
      calc _ ≤ l • (1 : WithBot ℕ) := nsmul_le_nsmul_right this _
        _ = _ := by simp
    refine lt_of_le_of_lt ((degree_mul_le _ _).trans (add_le_add h4 (degree_C_mul_X_pow_le _ _))) ?_
    exact_mod_cast hk)
  rw [h2, h1] at h3
  rw [shift q hq l, ← h3]
  refine Finset.sum_congr rfl fun j hj => ?_
  rw [rowPow_small hd h l hl j (Finset.mem_range.mp hj)]
  simp only [eval_mul, eval_C, eval_pow, eval_sub, eval_one, eval_X]
  ring

end

section
variable {E : Type} [NormedAddCommGroup E] [NormedSpace ℝ E] (Λ : E →L[ℝ] E) {L : ℝ}

theorem norm_pow_apply_le (hL : 0 ≤ L) (hΛ : ∀ v, ‖Λ v‖ ≤ L * ‖v‖) (k : ℕ) (v : E) : ‖(Λ ^ k) v‖ ≤ L ^ k * ‖v‖ := by
  induction k with
  | zero => simp
  | succ k ih =>
    rw [pow_succ', ContinuousLinearMap.mul_apply, pow_succ', mul_assoc]
    exact (hΛ _).trans (mul_le_mul_of_nonneg_left ih hL)

/-- The weighted sum of the stage derivatives of a linear equation. -/
theorem linear_stages (tau : List ℝ) (h : ℝ) (k : ℕ → E) (v : E)
    (hk : ∀ j < tau.length, k j = v + h • Λ (∑ l ∈ Finset.range tau.length, wA tau j l • k l)) (P : ℕ) :
    ∑ j ∈ Finset.range tau.length, wb tau j • k j =
      ∑ q ∈ Finset.range P, (h ^ q * ∑ j ∈ Finset.range tau.length, rowPow tau q j) • (Λ ^ q) v +
        h ^ P • (Λ ^ P) (∑ j ∈ Finset.range tau.length, rowPow tau P j • k j) := by
  induction P with
  | zero => simp [rowPow]
  | succ P ih =>
    have e : ∑ j ∈ Finset.range tau.length, rowPow tau P j • k j = (∑ j ∈ Finset.range tau.length, rowPow tau P j) • v +
        h • Λ (∑ l ∈ Finset.range tau.length, rowPow tau (P + 1) l • k l) := by
      have e1 : ∑ l ∈ Finset.range tau.length, rowPow tau (P + 1) l • k l =
          ∑ j ∈ Finset.range tau.length, rowPow tau P j • ∑ l ∈ Finset.range tau.length, wA tau j l • k l := by
        simp only [rowPow, Finset.sum_smul, Finset.smul_sum, smul_smul]
        exact Finset.sum_comm
      rw [e1, map_sum, Finset.smul_sum, Finset.sum_smul, ← Finset.sum_add_distrib]
      refine Finset.sum_congr rfl fun j hj => ?_
      conv_lhs => rw [hk j (Finset.mem_range.mp hj)]
      rw [smul_add, map_smul, smul_comm]
    rw [ih, e, Finset.sum_range_succ, map_add, map_smul, map_smul, smul_add, smul_smul, smul_smul, ← pow_succ, add_assoc,
      pow_succ Λ P, ContinuousLinearMap.mul_apply]

/-- Taylor expansion of the solution of a linear equation. -/
theorem linear_taylor {a b B : ℝ} (hL : 0 ≤ L) (hΛ : ∀ v, ‖Λ v‖ ≤ L * ‖v‖) (y : ℝ → E) (g : E)
    (hy : ∀ τ ∈ Set.Icc a b, HasDerivWithinAt y (Λ (y τ) + g) (Set.Icc a b) τ) (hB : ∀ τ ∈ Set.Icc a b, ‖Λ (y τ) + g‖ ≤ B) (P : ℕ) :
    ∀ τ ∈ Set.Icc a b, ‖y τ - y a - ∑ q ∈ Finset.range P, ((τ - a) ^ (q + 1) / ((q + 1).factorial : ℝ)) • (Λ ^ q) (Λ (y a) + g)‖ ≤
      B * L ^ P * ((τ - a) ^ (P + 1) / ((P + 1).factorial : ℝ)) := by
  have hpow : ∀ (q : ℕ) (τ : ℝ), HasDerivAt (fun τ : ℝ => (τ - a) ^ (q + 1) / ((q + 1).factorial : ℝ)) ((τ - a) ^ q / (q.factorial : ℝ)) τ := by
    intro q τ
    have := (((hasDerivAt_id τ).sub_const a).pow (q + 1)).div_const ((q + 1).factorial : ℝ)
    refine this.congr_deriv ?_
    have h1 : (q.factorial : ℝ) ≠ 0 := by exact_mod_cast q.factorial_ne_zero
    have h2 : ((q : ℝ) + 1) ≠ 0 := by positivity
    simp only [id, Nat.add_sub_cancel, Nat.factorial_succ, Nat.cast_mul, Nat.cast_add, Nat.cast_one, mul_one]
    field_simp
  -- the derivative of the remainder
  have hder : ∀ τ ∈ Set.Icc a b, HasDerivWithinAt
      (fun τ => y τ - y a - ∑ q ∈ Finset.range P, ((τ - a) ^ (q + 1) / ((q + 1).factorial : ℝ)) • (Λ ^ q) (Λ (y a) + g))
      (Λ (y τ) + g - ∑ q ∈ Finset.range P, ((τ - a) ^ q / (q.factorial : ℝ)) • (Λ ^ q) (Λ (y a) + g)) (Set.Icc a b) τ := by
    intro τ hτ
    refine ((hy τ hτ).sub_const _).sub ?_
    refine HasDerivWithinAt.fun_sum fun q _ => ?_
    exact ((hpow q τ).hasDerivWithinAt).smul_const _
  have hcont : ContinuousOn
      (fun τ => y τ - y a - ∑ q ∈ Finset.range P, ((τ - a) ^ (q + 1) / ((q + 1).factorial : ℝ)) • (Λ ^ q) (Λ (y a) + g)) (Set.Icc a b) :=
    fun τ hτ => (hder τ hτ).continuousWithinAt
  refine image_norm_le_of_norm_deriv_right_le_deriv_boundary hcont
    (f' := fun τ => Λ (y τ) + g - ∑ q ∈ Finset.range P, ((τ - a) ^ q / (q.factorial : ℝ)) • (Λ ^ q) (Λ (y a) + g))
    (fun τ hτ => (hder τ (Set.Ico_subset_Icc_self hτ)).mono_of_mem_nhdsWithin (Icc_mem_nhdsGE_of_mem hτ))
    (B := fun τ => B * L ^ P * ((τ - a) ^ (P + 1) / ((P + 1).factorial : ℝ))) (B' := fun τ => B * L ^ P * ((τ - a) ^ P / (P.factorial : ℝ)))
    (by simp) (fun τ => (hpow P τ).const_mul _) ?_
  intro τ hτ
  have hτ' := Set.Ico_subset_Icc_self hτ
  clear hder hcont
  cases P with
  | zero => simpa using hB τ hτ'
  | succ P =>
    have ih := linear_taylor hL hΛ y g hy hB P τ hτ'
    have e : Λ (y τ) + g - ∑ q ∈ Finset.range (P + 1), ((τ - a) ^ q / (q.factorial : ℝ)) • (Λ ^ q) (Λ (y a) + g) =
        Λ (y τ - y a - ∑ q ∈ Finset.range P, ((τ - a) ^ (q + 1) / ((q + 1).factorial : ℝ)) • (Λ ^ q) (Λ (y a) + g)) := by
      rw [Finset.sum_range_succ', map_sub, map_sub, map_sum]
      simp only [map_smul, pow_succ' Λ, ContinuousLinearMap.mul_apply, pow_zero, Nat.factorial_zero, Nat.cast_one, div_one, one_smul,
        ContinuousLinearMap.one_apply]
      abel
    rw [e]
    refine (hΛ _).trans ?_
    rw [pow_succ L P]
    calc _ ≤ L * (B * L ^ P * ((τ - a) ^ (P + 1) / ((P + 1).factorial : ℝ))) := mul_le_mul_of_nonneg_left ih hL
      _ = _ := by ring
termination_by P

theorem rowPow_abs (tau : List ℝ) {α β : ℝ} (hα : ∀ j < tau.length, ∑ k ∈ Finset.range tau.length, |wA tau j k| ≤ α)
    (hβ : ∑ k ∈ Finset.range tau.length, |wb tau k| ≤ β) (hα0 : 0 ≤ α) (P : ℕ) :
    ∑ j ∈ Finset.range tau.length, |rowPow tau P j| ≤ β * α ^ P := by
  induction P with
  | zero => simpa [rowPow] using hβ
  | succ P ih =>
    calc ∑ j ∈ Finset.range tau.length, |rowPow tau (P + 1) j|
        ≤ ∑ j ∈ Finset.range tau.length, ∑ i ∈ Finset.range tau.length, |rowPow tau P i| * |wA tau i j| :=
          Finset.sum_le_sum fun j _ => by
            rw [rowPow]
            refine (Finset.abs_sum_le_sum_abs _ _).trans (le_of_eq ?_)
            exact Finset.sum_congr rfl fun i _ => abs_mul _ _
      _ = ∑ i ∈ Finset.range tau.length, |rowPow tau P i| * ∑ j ∈ Finset.range tau.length, |wA tau i j| := by
          rw [Finset.sum_comm]
          exact Finset.sum_congr rfl fun i _ => (Finset.mul_sum _ _ _).symm
      _ ≤ ∑ i ∈ Finset.range tau.length, |rowPow tau P i| * α :=
          Finset.sum_le_sum fun i hi => mul_le_mul_of_nonneg_left (hα i (Finset.mem_range.mp hi)) (abs_nonneg _)
      _ = (∑ i ∈ Finset.range tau.length, |rowPow tau P i|) * α := by rw [Finset.sum_mul]
      _ ≤ β * α ^ P * α := mul_le_mul_of_nonneg_right ih hα0
      _ = β * α ^ (P + 1) := by ring

/-- One step of a linear equation: the error is propagated and increased by a term of the order of the weights. -/
theorem linear_step {tau : List ℝ} (hd : tau.Nodup) (hpos : 0 < tau.length) {m : ℕ} (hw : WeightsExact tau (tau.length + m))
    {a h H B α β θ : ℝ} (hh : 0 ≤ h) (hH : h ≤ H) (hL : 0 ≤ L) (hΛ : ∀ v, ‖Λ v‖ ≤ L * ‖v‖)
    (hα : ∀ j < tau.length, ∑ k ∈ Finset.range tau.length, |wA tau j k| ≤ α)
    (hβ : ∑ k ∈ Finset.range tau.length, |wb tau k| ≤ β) (hθ : θ < 1) (hstep : L * (H * α) ≤ θ) (y : ℝ → E) (g : E)
    (hy : ∀ τ ∈ Set.Icc a (a + h), HasDerivWithinAt y (Λ (y τ) + g) (Set.Icc a (a + h)) τ)
    (hB : ∀ τ ∈ Set.Icc a (a + h), ‖Λ (y τ) + g‖ ≤ B) (x x' : E) (k : ℕ → E)
    (hk : ∀ j < tau.length, k j = Λ (x + h • ∑ l ∈ Finset.range tau.length, wA tau j l • k l) + g)
    (hx' : x' = x + h • ∑ l ∈ Finset.range tau.length, wb tau l • k l) :
    ‖x' - y (a + h)‖ ≤ (1 + h * (L * Real.exp (L * H) + β * L * θ ^ (tau.length + m) / (1 - θ))) * ‖x - y a‖ +
      h * (((L * H) ^ (tau.length + m) / ((tau.length + m + 1).factorial : ℝ) +
        β * (L * (H * α)) ^ (tau.length + m) / (1 - θ)) * B) := by
  set P := tau.length + m with hP
  have hα0 : 0 ≤ α := (Finset.sum_nonneg fun _ _ => abs_nonneg _).trans (hα 0 hpos)
  have hβ0 : 0 ≤ β := (Finset.sum_nonneg fun _ _ => abs_nonneg _).trans hβ
  have hH0 := hh.trans hH
  have hamem : a ∈ Set.Icc a (a + h) := ⟨le_rfl, by linarith⟩
  have hB0 : 0 ≤ B := (norm_nonneg _).trans (hB a hamem)
  have h1θ : 0 < 1 - θ := by linarith
  set v := Λ x + g with hv
  set e := x - y a with he
  have hv' : v = Λ e + (Λ (y a) + g) := by rw [hv, he, map_sub]; abel
  have hvn : ‖v‖ ≤ L * ‖e‖ + B := by
    rw [hv']
    exact (norm_add_le _ _).trans (add_le_add (hΛ _) (hB a hamem))
  have hk' : ∀ j < tau.length, k j = v + h • Λ (∑ l ∈ Finset.range tau.length, wA tau j l • k l) := by
    intro j hj
    rw [hk j hj, map_add, map_smul, hv]
    abel
  -- the stage derivatives are bounded
  have hkb : ∀ j < tau.length, ‖k j‖ ≤ (L * ‖e‖ + B) / (1 - θ) := by
    obtain ⟨j0, hj0, hmax⟩ := Finset.exists_max_image (Finset.range tau.length) (fun j => ‖k j‖) ⟨0, Finset.mem_range.mpr hpos⟩
    have hj0' := Finset.mem_range.mp hj0
    intro j hj
    refine (hmax j (Finset.mem_range.mpr hj)).trans ?_
    have h1 : ‖∑ l ∈ Finset.range tau.length, wA tau j0 l • k l‖ ≤ α * ‖k j0‖ := by
      refine (norm_sum_le _ _).trans ?_
      calc _ ≤ ∑ l ∈ Finset.range tau.length, |wA tau j0 l| * ‖k j0‖ := Finset.sum_le_sum fun l hl => by
            rw [norm_smul, Real.norm_eq_abs]
            exact mul_le_mul_of_nonneg_left (hmax l hl) (abs_nonneg _)
        _ = (∑ l ∈ Finset.range tau.length, |wA tau j0 l|) * ‖k j0‖ := by rw [Finset.sum_mul]
        _ ≤ _ := mul_le_mul_of_nonneg_right (hα j0 hj0') (norm_nonneg _)
    have h2 : ‖k j0‖ ≤ ‖v‖ + h * (L * (α * ‖k j0‖)) := by
      conv_lhs => rw [hk' j0 hj0']
      refine (norm_add_le _ _).trans (add_le_add le_rfl ?_)
      rw [norm_smul, Real.norm_eq_abs, abs_of_nonneg hh]
      exact mul_le_mul_of_nonneg_left ((hΛ _).trans (mul_le_mul_of_nonneg_left h1 hL)) hh
    have h3 : h * (L * (α * ‖k j0‖)) ≤ θ * ‖k j0‖ := by
      calc _ ≤ H * (L * (α * ‖k j0‖)) := mul_le_mul_of_nonneg_right hH (by positivity)
        _ = (L * (H * α)) * ‖k j0‖ := by ring
        _ ≤ _ := mul_le_mul_of_nonneg_right hstep (norm_nonneg _)
    rw [le_div_iff₀ h1θ]
    linarith
  -- the remainder of the stages
  have hR : ‖(Λ ^ P) (∑ j ∈ Finset.range tau.length, rowPow tau P j • k j)‖ ≤ L ^ P * (β * α ^ P * ((L * ‖e‖ + B) / (1 - θ))) := by
    refine (norm_pow_apply_le Λ hL hΛ P _).trans (mul_le_mul_of_nonneg_left ?_ (by positivity))
    refine (norm_sum_le _ _).trans ?_
    calc _ ≤ ∑ j ∈ Finset.range tau.length, |rowPow tau P j| * ((L * ‖e‖ + B) / (1 - θ)) := Finset.sum_le_sum fun j hj => by
          rw [norm_smul, Real.norm_eq_abs]
          exact mul_le_mul_of_nonneg_left (hkb j (Finset.mem_range.mp hj)) (abs_nonneg _)
      _ = (∑ j ∈ Finset.range tau.length, |rowPow tau P j|) * ((L * ‖e‖ + B) / (1 - θ)) := by rw [Finset.sum_mul]
      _ ≤ _ := mul_le_mul_of_nonneg_right (rowPow_abs tau hα hβ hα0 P) (by positivity)
  have hT := linear_taylor Λ hL hΛ y g hy hB P (a + h) ⟨by linarith, le_rfl⟩
  rw [add_sub_cancel_left] at hT
  have hstages := linear_stages Λ tau h k v hk' P
  have hsum : ∑ q ∈ Finset.range P, (h ^ q * ∑ j ∈ Finset.range tau.length, rowPow tau q j) • (Λ ^ q) v =
      ∑ q ∈ Finset.range P, (h ^ q / ((q + 1).factorial : ℝ)) • (Λ ^ q) v :=
    Finset.sum_congr rfl fun q hq => by
      rw [rowPow_sum hd hw q (Finset.mem_range.mp hq), mul_one_div]
  have hdiff : x' - y (a + h) = ∑ q ∈ Finset.range (P + 1), (h ^ q / (q.factorial : ℝ)) • (Λ ^ q) e +
      (h • (h ^ P • (Λ ^ P) (∑ j ∈ Finset.range tau.length, rowPow tau P j • k j)) -
        (y (a + h) - y a - ∑ q ∈ Finset.range P, (h ^ (q + 1) / ((q + 1).factorial : ℝ)) • (Λ ^ q) (Λ (y a) + g))) := by
    rw [hx', hstages, hsum, Finset.sum_range_succ', smul_add, Finset.smul_sum]
    have e1 : ∀ q ∈ Finset.range P, h • ((h ^ q / ((q + 1).factorial : ℝ)) • (Λ ^ q) v) =
        (h ^ (q + 1) / ((q + 1).factorial : ℝ)) • (Λ ^ (q + 1)) e + (h ^ (q + 1) / ((q + 1).factorial : ℝ)) • (Λ ^ q) (Λ (y a) + g) := by
      intro q _
      rw [smul_smul, hv', map_add, smul_add, pow_succ Λ, ContinuousLinearMap.mul_apply, mul_div_assoc', ← pow_succ']
    rw [Finset.sum_congr rfl e1, Finset.sum_add_distrib, he]
    simp only [pow_zero, Nat.factorial_zero, Nat.cast_one, div_one, one_smul, ContinuousLinearMap.one_apply]
    abel
  have hprop : ‖∑ q ∈ Finset.range (P + 1), (h ^ q / (q.factorial : ℝ)) • (Λ ^ q) e‖ ≤ (1 + h * (L * Real.exp (L * H))) * ‖e‖ := by
    have h1 : ‖∑ q ∈ Finset.range (P + 1), (h ^ q / (q.factorial : ℝ)) • (Λ ^ q) e‖ ≤
        (∑ q ∈ Finset.range (P + 1), (L * h) ^ q / (q.factorial : ℝ)) * ‖e‖ := by
      rw [Finset.sum_mul]
      refine (norm_sum_le _ _).trans (Finset.sum_le_sum fun q _ => ?_)
      rw [norm_smul, Real.norm_eq_abs, abs_of_nonneg (by positivity)]
      calc _ ≤ h ^ q / (q.factorial : ℝ) * (L ^ q * ‖e‖) := mul_le_mul_of_nonneg_left (norm_pow_apply_le Λ hL hΛ q e) (by positivity)
        _ = _ := by rw [mul_pow]; ring
    refine h1.trans (mul_le_mul_of_nonneg_right ?_ (norm_nonneg _))
    refine (Real.sum_le_exp_of_nonneg (by positivity) _).trans ?_
    have h2 : Real.exp (L * h) ≤ 1 + L * h * Real.exp (L * h) := by
      have := Real.add_one_le_exp (-(L * h))
      have h3 : Real.exp (-(L * h)) * Real.exp (L * h) = 1 := by rw [← Real.exp_add]; simp
      nlinarith [Real.exp_pos (L * h)]
    refine h2.trans ?_
    have h4 : Real.exp (L * h) ≤ Real.exp (L * H) := Real.exp_le_exp.mpr (mul_le_mul_of_nonneg_left hH hL)
    calc 1 + L * h * Real.exp (L * h) ≤ 1 + L * h * Real.exp (L * H) := by gcongr
      _ = _ := by ring
  have hst : ‖h • (h ^ P • (Λ ^ P) (∑ j ∈ Finset.range tau.length, rowPow tau P j • k j))‖ ≤
      h * (β * L * θ ^ P / (1 - θ)) * ‖e‖ + h * (β * (L * (H * α)) ^ P / (1 - θ) * B) := by
    rw [norm_smul, norm_smul, Real.norm_eq_abs, Real.norm_eq_abs, abs_of_nonneg hh, abs_of_nonneg (pow_nonneg hh P)]
    have h5 : (L * (h * α)) ^ P ≤ (L * (H * α)) ^ P := by gcongr
    have h6 : (L * (H * α)) ^ P ≤ θ ^ P := pow_le_pow_left₀ (by positivity) hstep P
    calc _ ≤ h * (h ^ P * (L ^ P * (β * α ^ P * ((L * ‖e‖ + B) / (1 - θ))))) := by gcongr
      _ = h * (β * L * (L * (h * α)) ^ P / (1 - θ)) * ‖e‖ + h * (β * (L * (h * α)) ^ P / (1 - θ) * B) := by
          rw [mul_pow, mul_pow]; field_simp
      _ ≤ _ := by
          have := h5.trans h6
          gcongr
  have hTh : B * L ^ P * (h ^ (P + 1) / ((P + 1).factorial : ℝ)) ≤ h * ((L * H) ^ P / ((P + 1).factorial : ℝ) * B) := by
    calc _ = h * ((L * h) ^ P / ((P + 1).factorial : ℝ) * B) := by rw [mul_pow]; ring
      _ ≤ _ := by gcongr
  rw [hdiff]
  refine (norm_add_le _ _).trans ((add_le_add hprop ((norm_sub_le _ _).trans (add_le_add hst (hT.trans hTh)))).trans (le_of_eq ?_))
  ring

end

end CE
