import Verif.Num.LemConverge
import Verif.Num.LemOrder
import Mathlib.Analysis.Normed.Operator.Mul
import Mathlib.LinearAlgebra.Lagrange

/-!
# Lemmas for C91: one step of the collocation method tested with polynomials
-/

open Polynomial Set

namespace CE

section
variable {K : Type} [Field K] [DecidableEq K] [CharZero K]

/-- The weights on an interval. -/
theorem WeightsExact.affine {tau : List K} {p : ℕ} (hw : WeightsExact tau p) (a h : K) {Q : K[X]} (hQ : (derivative Q).degree < p) :
    h * ∑ j ∈ Finset.range tau.length, wb tau j * (derivative Q).eval (a + h * nd tau j) = Q.eval (a + h) - Q.eval a := by
  have h1 : derivative (Q.comp (C h * X + C a)) = C h * (derivative Q).comp (C h * X + C a) := by
    rw [derivative_comp]
    simp
  by_cases hh : h = 0
  · subst hh
    simp
  have h2 : (derivative (Q.comp (C h * X + C a))).degree < p := by
    rw [h1, degree_C_mul hh]
    exact degree_comp_linear_lt h a hQ
  have := hw _ h2
  rw [h1] at this
  simp only [eval_mul, eval_C, eval_comp, eval_add, eval_X, mul_one, mul_zero, zero_add] at this
  rw [add_comm a h, ← this, Finset.mul_sum]
  refine Finset.sum_congr rfl fun j _ => ?_
  rw [add_comm (h * _) a]
  ring

/-- The polynomial of the collocation method on one interval. -/
theorem exists_step_poly {tau : List K} (hd : tau.Nodup) {a h : K} (hh : h ≠ 0) {x x' : K} {X' k : ℕ → K}
    (hX : ∀ j < tau.length, X' j = x + h * ∑ l ∈ Finset.range tau.length, k l * wA tau j l)
    (hx' : x' = x + h * ∑ l ∈ Finset.range tau.length, k l * wb tau l) :
    ∃ U : K[X], (derivative U).degree < tau.length ∧ U.eval a = x ∧ U.eval (a + h) = x' ∧
      ∀ j < tau.length, U.eval (a + h * nd tau j) = X' j ∧ (derivative U).eval (a + h * nd tau j) = k j := by
  have hinj : Set.InjOn (fun j => a + h * nd tau j) (Finset.range tau.length : Finset ℕ) := by
    intro i hi j hj e
    exact nd_injOn hd hi hj (mul_left_cancel₀ hh (add_left_cancel e))
  set p := Lagrange.interpolate (Finset.range tau.length) (fun j => a + h * nd tau j) k with hp
  have hdeg : p.degree < tau.length := by
    have := Lagrange.degree_interpolate_lt k hinj
    rwa [Finset.card_range] at this
  have hev : ∀ j < tau.length, p.eval (a + h * nd tau j) = k j := fun j hj =>
    Lagrange.eval_interpolate_at_node k hinj (Finset.mem_range.mpr hj)
  obtain ⟨P, hP⟩ := exists_antiderivative p
  have key : ∀ c, h * ∑ l ∈ Finset.range tau.length, k l * ((butcherPoly tau l).polyint).eval c = P.eval (a + h * c) - P.eval a := by
    intro c
    rw [← weights_affine hd a h hdeg hP c]
    congr 1
    exact Finset.sum_congr rfl fun l hl => by rw [hev l (Finset.mem_range.mp hl)]
  refine ⟨P + C (x - P.eval a), ?_, ?_, ?_, fun j hj => ⟨?_, ?_⟩⟩
  · rw [derivative_add, derivative_C, add_zero, hP]; exact hdeg
  · simp
  · have := key 1
    rw [mul_one] at this
    rw [hx']
    unfold wb
    rw [this]
    simp
    ring
  · rw [hX j hj]
    unfold wA
    rw [key]
    simp
    ring
  · rw [derivative_add, derivative_C, add_zero, hP, hev j hj]

theorem natDegree_le_of_derivative {Q : K[X]} {n : ℕ} (h : (derivative Q).degree < n) : Q.natDegree ≤ n := by
  by_contra hn
  have hn : n < Q.natDegree := not_le.mp hn
  have hc : (derivative Q).coeff (Q.natDegree - 1) = Q.coeff Q.natDegree * (Q.natDegree : K) := by
    rw [coeff_derivative, Nat.sub_add_cancel (by omega), ← Nat.cast_succ, Nat.succ_eq_add_one, Nat.sub_add_cancel (by omega)]
  have hne : (derivative Q).coeff (Q.natDegree - 1) ≠ 0 := by
    rw [hc]
    refine mul_ne_zero ?_ (Nat.cast_ne_zero.mpr (by omega))
    rw [coeff_natDegree, leadingCoeff_ne_zero]
    rintro rfl
    simp at hn
  have := le_degree_of_ne_zero hne
  have h2 := lt_of_le_of_lt this h
  have h3 : Q.natDegree - 1 < n := by exact_mod_cast h2
  omega

/-- The collocation method tested with a polynomial. -/
noncomputable def testWith (tau : List K) (a h : K) (g : K[X]) (y0 y1 : K) (y f : ℕ → K) : K :=
  g.eval (a + h) * y1 - g.eval a * y0 -
    h * ∑ j ∈ Finset.range tau.length, wb tau j * ((derivative g).eval (a + h * nd tau j) * y j + g.eval (a + h * nd tau j) * f j)

theorem testWith_poly {tau : List K} {P : ℕ} (hw : WeightsExact tau P) (hP : 0 < P) (a h : K) {g U : K[X]} (hd : g.natDegree + U.natDegree ≤ P) :
    testWith tau a h g (U.eval a) (U.eval (a + h)) (fun j => U.eval (a + h * nd tau j))
      (fun j => (derivative U).eval (a + h * nd tau j)) = 0 := by
  have h1 : (derivative (g * U)).degree < P := by
    refine lt_of_le_of_lt degree_le_natDegree ?_
    have h2 := natDegree_derivative_le (g * U)
    have h3 := natDegree_mul_le (p := g) (q := U)
    have : (derivative (g * U)).natDegree < P := by omega
    exact_mod_cast this
  have h2 := hw.affine a h h1
  unfold testWith
  simp only [derivative_mul, eval_add, eval_mul] at h2
  rw [h2]
  ring

end

theorem testWith_error {tau : List ℝ} {P : ℕ} (hw : WeightsExact tau P) (h01 : ∀ k < tau.length, nd tau k ∈ Icc (0 : ℝ) 1)
    {a h B β : ℝ} (hh : 0 ≤ h) (hβ : ∑ k ∈ Finset.range tau.length, |wb tau k| ≤ β) {k : ℕ} (hk : k < P) {y f : ℝ → ℝ}
    (hy : ∀ τ ∈ Icc a (a + h), HasDerivWithinAt y (f τ) (Icc a (a + h)) τ)
    (hf : ContDiffOn ℝ (P - k : ℕ) f (Icc a (a + h)))
    (hB : ∀ τ ∈ Icc a (a + h), |iteratedDerivWithin (P - k) f (Icc a (a + h)) τ| ≤ B) :
    |testWith tau a h ((X - C (a + h)) ^ k) (y a) (y (a + h)) (fun j => y (a + h * nd tau j)) (fun j => f (a + h * nd tau j))| ≤
      h ^ (P + 1) * ((1 + β * (k + 1)) * B) := by
  obtain ⟨p, hp, hpf⟩ := exists_taylor_poly (by omega : 0 < P - k) (by linarith : a ≤ a + h) hf hB
  rw [add_sub_cancel_left] at hpf
  have hB0 : 0 ≤ B := (abs_nonneg _).trans (hB a ⟨le_rfl, by linarith⟩)
  set δ := B * h ^ (P - k) with hδ
  have hδ0 : 0 ≤ δ := by positivity
  replace hpf : ∀ τ ∈ Icc a (a + h), |f τ - p.eval τ| ≤ δ := by
    intro τ hτ
    refine (hpf τ hτ).trans (div_le_self hδ0 ?_)
    exact_mod_cast Nat.succ_le_of_lt (Nat.factorial_pos _)
  obtain ⟨Q, hQ⟩ := exists_antiderivative p
  set Y := Q + C (y a - Q.eval a) with hY
  have hY' : derivative Y = p := by rw [hY, derivative_add, derivative_C, add_zero, hQ]
  have hYa : Y.eval a = y a := by simp [hY]
  have hYd : Y.natDegree ≤ P - k := natDegree_le_of_derivative (by rw [hY']; exact hp)
  have hmem : ∀ j < tau.length, a + h * nd tau j ∈ Icc a (a + h) := by
    intro j hj
    have := h01 j hj
    constructor <;> nlinarith [this.1, this.2]
  have hyY : ∀ τ ∈ Icc a (a + h), |y τ - Y.eval τ| ≤ δ * h := by
    intro τ hτ
    have := norm_image_sub_le_of_norm_deriv_le_segment' (f := fun τ => y τ - Y.eval τ) (f' := fun τ => f τ - p.eval τ)
      (a := a) (b := a + h) (C := δ) (fun τ hτ => by
        have := (hy τ hτ).sub (Y.hasDerivWithinAt τ (Icc a (a + h)))
        rw [hY'] at this
        exact this) (fun τ hτ => hpf τ ⟨hτ.1, hτ.2.le⟩) τ hτ
    rw [Real.norm_eq_abs, hYa, sub_self, sub_zero] at this
    exact this.trans (mul_le_mul_of_nonneg_left (by linarith [hτ.2]) hδ0)
  have h0 := testWith_poly hw (by omega) a h (g := (X - C (a + h)) ^ k) (U := Y) (by
    have := natDegree_pow_le (p := X - C (a + h)) (n := k)
    rw [natDegree_X_sub_C, mul_one] at this
    omega)
  rw [hY', hYa] at h0
  -- the difference
  have hdiff : testWith tau a h ((X - C (a + h)) ^ k) (y a) (y (a + h)) (fun j => y (a + h * nd tau j)) (fun j => f (a + h * nd tau j)) =
      ((X - C (a + h)) ^ k).eval (a + h) * (y (a + h) - Y.eval (a + h)) -
      h * ∑ j ∈ Finset.range tau.length, wb tau j * ((derivative ((X - C (a + h)) ^ k)).eval (a + h * nd tau j) *
        (y (a + h * nd tau j) - Y.eval (a + h * nd tau j)) + ((X - C (a + h)) ^ k).eval (a + h * nd tau j) *
        (f (a + h * nd tau j) - p.eval (a + h * nd tau j))) := by
    rw [← sub_zero (testWith _ _ _ _ _ _ _ _), ← h0]
    unfold testWith
    simp only [mul_add, mul_sub, Finset.sum_add_distrib, Finset.sum_sub_distrib]
    ring
  rw [hdiff]
  have hσ : ∀ τ ∈ Icc a (a + h), |τ - (a + h)| ≤ h := by
    intro τ hτ
    rw [abs_le]
    constructor <;> linarith [hτ.1, hτ.2]
  have g0 : ∀ τ ∈ Icc a (a + h), |((X - C (a + h)) ^ k).eval τ| ≤ h ^ k := by
    intro τ hτ
    rw [eval_pow, eval_sub, eval_X, eval_C, abs_pow]
    exact pow_le_pow_left₀ (abs_nonneg _) (hσ τ hτ) _
  have g1 : ∀ τ ∈ Icc a (a + h), |(derivative ((X - C (a + h)) ^ k)).eval τ| * h ≤ k * h ^ k := by
    intro τ hτ
    cases k with
    | zero => simp
    | succ k =>
      rw [derivative_X_sub_C_pow, eval_mul, eval_C, eval_pow, eval_sub, eval_X, eval_C, abs_mul, abs_pow, Nat.add_sub_cancel, Nat.abs_cast,
        mul_assoc]
      refine mul_le_mul_of_nonneg_left ?_ (Nat.cast_nonneg _)
      rw [pow_succ]
      exact mul_le_mul_of_nonneg_right (pow_le_pow_left₀ (abs_nonneg _) (hσ τ hτ) _) hh
  have hone : a + h ∈ Icc a (a + h) := ⟨by linarith, le_rfl⟩
  have e1 : |((X - C (a + h)) ^ k).eval (a + h) * (y (a + h) - Y.eval (a + h))| ≤ h ^ k * (δ * h) := by
    rw [abs_mul]
    exact mul_le_mul (g0 _ hone) (hyY _ hone) (abs_nonneg _) (by positivity)
  have e2 : |∑ j ∈ Finset.range tau.length, wb tau j * ((derivative ((X - C (a + h)) ^ k)).eval (a + h * nd tau j) *
        (y (a + h * nd tau j) - Y.eval (a + h * nd tau j)) + ((X - C (a + h)) ^ k).eval (a + h * nd tau j) *
        (f (a + h * nd tau j) - p.eval (a + h * nd tau j)))| ≤ β * (h ^ k * δ * (k + 1)) := by
    refine (Finset.abs_sum_le_sum_abs _ _).trans ?_
    refine le_trans ?_ (mul_le_mul_of_nonneg_right hβ (by positivity))
    rw [Finset.sum_mul]
    refine Finset.sum_le_sum fun j hj => ?_
    have hm := hmem j (Finset.mem_range.mp hj)
    rw [abs_mul]
    refine mul_le_mul_of_nonneg_left ?_ (abs_nonneg _)
    refine (abs_add_le _ _).trans ?_
    rw [abs_mul, abs_mul]
    have q1 : |(derivative ((X - C (a + h)) ^ k)).eval (a + h * nd tau j)| * |y (a + h * nd tau j) - Y.eval (a + h * nd tau j)| ≤ k * h ^ k * δ := by
      calc _ ≤ |(derivative ((X - C (a + h)) ^ k)).eval (a + h * nd tau j)| * (δ * h) := mul_le_mul_of_nonneg_left (hyY _ hm) (abs_nonneg _)
        _ = |(derivative ((X - C (a + h)) ^ k)).eval (a + h * nd tau j)| * h * δ := by ring
        _ ≤ _ := mul_le_mul_of_nonneg_right (g1 _ hm) hδ0
    have q2 := mul_le_mul (g0 _ hm) (hpf _ hm) (abs_nonneg _) (by positivity)
    nlinarith [q1, q2]
  refine (abs_sub _ _).trans ?_
  rw [abs_mul h, abs_of_nonneg hh]
  have e3 := mul_le_mul_of_nonneg_left e2 hh
  have e4 : h ^ (P + 1) * ((1 + β * (k + 1)) * B) = h ^ k * (δ * h) + h * (β * (h ^ k * δ * (k + 1))) := by
    have : h ^ (P + 1) = h ^ k * h ^ (P - k) * h := by rw [← pow_add, ← pow_succ]; congr 1; omega
    rw [this, hδ]
    ring
  rw [e4]
  exact add_le_add e1 e3

end CE
