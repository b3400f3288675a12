import Verif.Num.LemSuper
import Mathlib.Analysis.Calculus.MeanValue
import Mathlib.Algebra.BigOperators.NatAntidiagonal

/-!
# Lemmas for C91: a polynomial that almost solves the adjoint equation
-/

open Polynomial Set

namespace CE

/-- Coefficients of the solution of the adjoint equation `psi' = -psi * J` as a power series. -/
noncomputable def adjCoef (nx : ℕ) (Jc : ℕ → ℕ → ℕ → ℝ) (v : ℕ → ℝ) : ℕ → ℕ → ℝ
  | 0, l => v l
  | k + 1, l => -((k + 1 : ℝ)⁻¹ * ∑ q : Fin (k + 1), ∑ i ∈ Finset.range nx, adjCoef nx Jc v q i * Jc (k - q) i l)
decreasing_by exact q.2

section
variable {nx : ℕ} {Jc : ℕ → ℕ → ℕ → ℝ} {v : ℕ → ℝ}

theorem adjCoef_zero (l : ℕ) : adjCoef nx Jc v 0 l = v l := by rw [adjCoef]

theorem adjCoef_succ (k l : ℕ) : (k + 1 : ℝ) * adjCoef nx Jc v (k + 1) l =
    -∑ p ∈ Finset.antidiagonal k, ∑ i ∈ Finset.range nx, adjCoef nx Jc v p.1 i * Jc p.2 i l := by
  have hk : (k + 1 : ℝ) ≠ 0 := by positivity
  rw [adjCoef, Fin.sum_univ_eq_sum_range (fun q => ∑ i ∈ Finset.range nx, adjCoef nx Jc v q i * Jc (k - q) i l) (k + 1),
    Finset.Nat.sum_antidiagonal_eq_sum_range_succ_mk, mul_neg, ← mul_assoc, mul_inv_cancel₀ hk, one_mul]

theorem adjCoef_le {Γ : ℝ} (hΓ : 1 ≤ Γ) (hJ : ∀ k, ∀ i < nx, ∑ l ∈ Finset.range nx, |Jc k i l| ≤ Γ)
    (hv : ∑ l ∈ Finset.range nx, |v l| ≤ 1) (k : ℕ) : ∑ l ∈ Finset.range nx, |adjCoef nx Jc v k l| ≤ Γ ^ k := by
  induction k using Nat.strong_induction_on with
  | _ k ih =>
    cases k with
    | zero => simpa only [adjCoef_zero, pow_zero] using hv
    | succ k =>
      have hk : (0 : ℝ) < k + 1 := by positivity
      have h0 : 0 ≤ Γ := by linarith
      refine le_of_mul_le_mul_left ?_ hk
      rw [Finset.mul_sum]
      calc ∑ l ∈ Finset.range nx, (k + 1 : ℝ) * |adjCoef nx Jc v (k + 1) l|
          = ∑ l ∈ Finset.range nx, |∑ p ∈ Finset.antidiagonal k, ∑ i ∈ Finset.range nx, adjCoef nx Jc v p.1 i * Jc p.2 i l| := by
            refine Finset.sum_congr rfl fun l _ => ?_
            rw [← abs_of_pos hk, ← abs_mul, adjCoef_succ, abs_neg]
        _ ≤ ∑ l ∈ Finset.range nx, ∑ p ∈ Finset.antidiagonal k, ∑ i ∈ Finset.range nx, |adjCoef nx Jc v p.1 i| * |Jc p.2 i l| := by
            refine Finset.sum_le_sum fun l _ => (Finset.abs_sum_le_sum_abs _ _).trans (Finset.sum_le_sum fun p _ => ?_)
            refine (Finset.abs_sum_le_sum_abs _ _).trans (le_of_eq (Finset.sum_congr rfl fun i _ => abs_mul _ _))
        _ = ∑ p ∈ Finset.antidiagonal k, ∑ i ∈ Finset.range nx, |adjCoef nx Jc v p.1 i| * ∑ l ∈ Finset.range nx, |Jc p.2 i l| := by
            rw [Finset.sum_comm]
            refine Finset.sum_congr rfl fun p _ => ?_
            rw [Finset.sum_comm]
            exact Finset.sum_congr rfl fun i _ => (Finset.mul_sum _ _ _).symm
        _ ≤ ∑ p ∈ Finset.antidiagonal k, Γ ^ (k + 1) := by
            refine Finset.sum_le_sum fun p hp => ?_
            have hp := Finset.mem_antidiagonal.mp hp
            calc _ ≤ ∑ i ∈ Finset.range nx, |adjCoef nx Jc v p.1 i| * Γ :=
                  Finset.sum_le_sum fun i hi => mul_le_mul_of_nonneg_left (hJ _ i (Finset.mem_range.mp hi)) (abs_nonneg _)
              _ = (∑ i ∈ Finset.range nx, |adjCoef nx Jc v p.1 i|) * Γ := (Finset.sum_mul _ _ _).symm
              _ ≤ Γ ^ p.1 * Γ := mul_le_mul_of_nonneg_right (ih p.1 (by omega)) h0
              _ = Γ ^ (p.1 + 1) := (pow_succ _ _).symm
              _ ≤ Γ ^ (k + 1) := pow_le_pow_right₀ hΓ (by omega)
        _ = (k + 1) * Γ ^ (k + 1) := by
            rw [Finset.sum_const, Finset.Nat.card_antidiagonal, nsmul_eq_mul]
            push_cast
            ring

/-- The polynomial with the first `m` coefficients, in powers of the distance from `b`. -/
noncomputable def adjPoly (nx : ℕ) (Jc : ℕ → ℕ → ℕ → ℝ) (v : ℕ → ℝ) (b : ℝ) (m i : ℕ) : ℝ[X] :=
  ∑ k ∈ Finset.range m, C (adjCoef nx Jc v k i) * (X - C b) ^ k

theorem adjPoly_eval (b : ℝ) (m i : ℕ) (τ : ℝ) :
    (adjPoly nx Jc v b m i).eval τ = ∑ k ∈ Finset.range m, adjCoef nx Jc v k i * (τ - b) ^ k := by
  simp [adjPoly, eval_finset_sum]

theorem adjPoly_right (b : ℝ) {m : ℕ} (hm : 0 < m) (i : ℕ) : (adjPoly nx Jc v b m i).eval b = v i := by
  obtain ⟨m, rfl⟩ : ∃ k, m = k + 1 := ⟨m - 1, by omega⟩
  rw [adjPoly_eval, Finset.sum_range_succ']
  simp [adjCoef_zero]

theorem adjPoly_derivative (b : ℝ) (m i : ℕ) (τ : ℝ) : (derivative (adjPoly nx Jc v b (m + 1) i)).eval τ =
    ∑ k ∈ Finset.range m, (k + 1 : ℝ) * adjCoef nx Jc v (k + 1) i * (τ - b) ^ k := by
  rw [adjPoly, derivative_sum, eval_finset_sum, Finset.sum_range_succ']
  simp only [pow_zero, mul_one, derivative_C, eval_zero, add_zero]
  refine Finset.sum_congr rfl fun k _ => ?_
  rw [derivative_C_mul, derivative_X_sub_C_pow]
  simp
  ring

theorem adjPoly_le {Γ : ℝ} (hΓ : 1 ≤ Γ) (hJ : ∀ k, ∀ i < nx, ∑ l ∈ Finset.range nx, |Jc k i l| ≤ Γ)
    (hv : ∑ l ∈ Finset.range nx, |v l| ≤ 1) (b : ℝ) (m : ℕ) {τ : ℝ} (hτ : |τ - b| ≤ 1) :
    ∑ i ∈ Finset.range nx, |(adjPoly nx Jc v b m i).eval τ| ≤ m * Γ ^ m := by
  have h0 : 0 ≤ Γ := by linarith
  calc _ ≤ ∑ i ∈ Finset.range nx, ∑ k ∈ Finset.range m, |adjCoef nx Jc v k i| := by
        refine Finset.sum_le_sum fun i _ => ?_
        rw [adjPoly_eval]
        refine (Finset.abs_sum_le_sum_abs _ _).trans (Finset.sum_le_sum fun k _ => ?_)
        rw [abs_mul, abs_pow]
        exact mul_le_of_le_one_right (abs_nonneg _) (pow_le_one₀ (abs_nonneg _) hτ)
    _ = ∑ k ∈ Finset.range m, ∑ i ∈ Finset.range nx, |adjCoef nx Jc v k i| := Finset.sum_comm
    _ ≤ ∑ k ∈ Finset.range m, Γ ^ m := Finset.sum_le_sum fun k hk => (adjCoef_le hΓ hJ hv k).trans
        (pow_le_pow_right₀ hΓ (Finset.mem_range.mp hk).le)
    _ = m * Γ ^ m := by simp

theorem adjPoly_left {Γ : ℝ} (hΓ : 1 ≤ Γ) (hJ : ∀ k, ∀ i < nx, ∑ l ∈ Finset.range nx, |Jc k i l| ≤ Γ)
    (hv : ∑ l ∈ Finset.range nx, |v l| ≤ 1) (b : ℝ) (m : ℕ) {h τ : ℝ} (hτ : |τ - b| ≤ h) (h1 : h ≤ 1) :
    ∑ i ∈ Finset.range nx, |(adjPoly nx Jc v b (m + 1) i).eval τ| ≤ 1 + h * (m * Γ ^ m) := by
  have h0 : 0 ≤ Γ := by linarith
  have hh : 0 ≤ h := (abs_nonneg _).trans hτ
  calc _ ≤ ∑ i ∈ Finset.range nx, (∑ k ∈ Finset.range m, h * |adjCoef nx Jc v (k + 1) i| + |v i|) := by
        refine Finset.sum_le_sum fun i _ => ?_
        rw [adjPoly_eval, Finset.sum_range_succ', pow_zero, mul_one, adjCoef_zero]
        refine (abs_add_le _ _).trans (add_le_add ((Finset.abs_sum_le_sum_abs _ _).trans (Finset.sum_le_sum fun k _ => ?_)) le_rfl)
        rw [abs_mul, abs_pow, mul_comm h]
        refine mul_le_mul_of_nonneg_left ?_ (abs_nonneg _)
        rw [pow_succ]
        exact (mul_le_of_le_one_left (abs_nonneg _) (pow_le_one₀ (abs_nonneg _) (hτ.trans h1))).trans hτ
    _ = h * (∑ k ∈ Finset.range m, ∑ i ∈ Finset.range nx, |adjCoef nx Jc v (k + 1) i|) + ∑ i ∈ Finset.range nx, |v i| := by
        rw [Finset.sum_add_distrib, Finset.sum_comm, Finset.mul_sum]
        simp only [Finset.mul_sum]
    _ ≤ h * (∑ k ∈ Finset.range m, Γ ^ m) + 1 := by
        refine add_le_add (mul_le_mul_of_nonneg_left (Finset.sum_le_sum fun k hk => (adjCoef_le hΓ hJ hv _).trans
          (pow_le_pow_right₀ hΓ (Finset.mem_range.mp hk))) hh) hv
    _ = 1 + h * (m * Γ ^ m) := by simp; ring

/-- The defect of the polynomial in the adjoint equation, if `J` is replaced by the polynomial with the coefficients `Jc`. -/
theorem adjPoly_defect {Γ : ℝ} (hΓ : 1 ≤ Γ) (hJ : ∀ k, ∀ i < nx, ∑ l ∈ Finset.range nx, |Jc k i l| ≤ Γ)
    (hv : ∑ l ∈ Finset.range nx, |v l| ≤ 1) (b : ℝ) (m : ℕ) {h τ : ℝ} (hτ : |τ - b| ≤ h) (h1 : h ≤ 1) :
    ∑ l ∈ Finset.range nx, |(derivative (adjPoly nx Jc v b (m + 1) l)).eval τ + ∑ i ∈ Finset.range nx,
      (adjPoly nx Jc v b (m + 1) i).eval τ * ∑ k ∈ Finset.range m, Jc k i l * (τ - b) ^ k| ≤ h ^ m * ((m + 1) * m * Γ ^ (m + 1)) := by
  have h0 : 0 ≤ Γ := by linarith
  have hh : 0 ≤ h := (abs_nonneg _).trans hτ
  let G : ℕ → ℕ × ℕ → ℝ := fun l p => ∑ i ∈ Finset.range nx, adjCoef nx Jc v p.1 i * Jc p.2 i l
  let S := Finset.range (m + 1) ×ˢ Finset.range m
  have hG : ∀ p ∈ S, ∑ l ∈ Finset.range nx, |G l p| ≤ Γ ^ (m + 1) := by
    intro p hp
    have hp := Finset.mem_product.mp hp
    calc ∑ l ∈ Finset.range nx, |G l p| ≤ ∑ l ∈ Finset.range nx, ∑ i ∈ Finset.range nx, |adjCoef nx Jc v p.1 i| * |Jc p.2 i l| :=
          Finset.sum_le_sum fun l _ => (Finset.abs_sum_le_sum_abs _ _).trans (le_of_eq (Finset.sum_congr rfl fun i _ => abs_mul _ _))
      _ = ∑ i ∈ Finset.range nx, |adjCoef nx Jc v p.1 i| * ∑ l ∈ Finset.range nx, |Jc p.2 i l| := by
          rw [Finset.sum_comm]
          exact Finset.sum_congr rfl fun i _ => (Finset.mul_sum _ _ _).symm
      _ ≤ ∑ i ∈ Finset.range nx, |adjCoef nx Jc v p.1 i| * Γ :=
          Finset.sum_le_sum fun i hi => mul_le_mul_of_nonneg_left (hJ _ i (Finset.mem_range.mp hi)) (abs_nonneg _)
      _ = (∑ i ∈ Finset.range nx, |adjCoef nx Jc v p.1 i|) * Γ := (Finset.sum_mul _ _ _).symm
      _ ≤ Γ ^ p.1 * Γ := mul_le_mul_of_nonneg_right (adjCoef_le hΓ hJ hv _) h0
      _ = Γ ^ (p.1 + 1) := (pow_succ _ _).symm
      _ ≤ Γ ^ (m + 1) := pow_le_pow_right₀ hΓ (by have := Finset.mem_range.mp hp.1; omega)
  have key : ∀ l, (derivative (adjPoly nx Jc v b (m + 1) l)).eval τ + ∑ i ∈ Finset.range nx,
      (adjPoly nx Jc v b (m + 1) i).eval τ * ∑ k ∈ Finset.range m, Jc k i l * (τ - b) ^ k =
      ∑ p ∈ S.filter (fun p => ¬ p.1 + p.2 < m), G l p * (τ - b) ^ (p.1 + p.2) := by
    intro l
    have e1 : ∑ i ∈ Finset.range nx, (adjPoly nx Jc v b (m + 1) i).eval τ * ∑ k ∈ Finset.range m, Jc k i l * (τ - b) ^ k =
        ∑ p ∈ S, G l p * (τ - b) ^ (p.1 + p.2) := by
      rw [Finset.sum_product]
      simp only [adjPoly_eval, Finset.sum_mul_sum, G, Finset.sum_mul]
      rw [Finset.sum_comm]
      refine Finset.sum_congr rfl fun q _ => ?_
      rw [Finset.sum_comm]
      refine Finset.sum_congr rfl fun i _ => ?_
      rw [Finset.mul_sum]
      refine Finset.sum_congr rfl fun k _ => ?_
      rw [pow_add]
      ring
    have e2 : (derivative (adjPoly nx Jc v b (m + 1) l)).eval τ = -∑ p ∈ S.filter (fun p => p.1 + p.2 < m), G l p * (τ - b) ^ (p.1 + p.2) := by
      rw [adjPoly_derivative, ← Finset.sum_fiberwise_of_maps_to (t := Finset.range m) (g := fun p : ℕ × ℕ => p.1 + p.2)
        (fun p hp => Finset.mem_range.mpr (Finset.mem_filter.mp hp).2), ← Finset.sum_neg_distrib]
      refine Finset.sum_congr rfl fun k hk => ?_
      have hk := Finset.mem_range.mp hk
      have e3 : (S.filter (fun p => p.1 + p.2 < m)).filter (fun p => p.1 + p.2 = k) = Finset.antidiagonal k := by
        ext p
        simp only [S, Finset.mem_filter, Finset.mem_product, Finset.mem_range, Finset.mem_antidiagonal]
        omega
      rw [e3, adjCoef_succ, neg_mul, Finset.sum_mul]
      refine congrArg _ (Finset.sum_congr rfl fun p hp => ?_)
      rw [Finset.mem_antidiagonal.mp hp]
    rw [e1, e2, ← Finset.sum_filter_add_sum_filter_not S (fun p => p.1 + p.2 < m)]
    ring
  calc _ = ∑ l ∈ Finset.range nx, |∑ p ∈ S.filter (fun p => ¬ p.1 + p.2 < m), G l p * (τ - b) ^ (p.1 + p.2)| :=
        Finset.sum_congr rfl fun l _ => by rw [key l]
    _ ≤ ∑ l ∈ Finset.range nx, ∑ p ∈ S.filter (fun p => ¬ p.1 + p.2 < m), |G l p| * h ^ m := by
        refine Finset.sum_le_sum fun l _ => (Finset.abs_sum_le_sum_abs _ _).trans (Finset.sum_le_sum fun p hp => ?_)
        have hp := (Finset.mem_filter.mp hp).2
        rw [abs_mul, abs_pow]
        refine mul_le_mul_of_nonneg_left ?_ (abs_nonneg _)
        exact (pow_le_pow_left₀ (abs_nonneg _) hτ _).trans (pow_le_pow_of_le_one hh h1 (by omega))
    _ ≤ ∑ l ∈ Finset.range nx, ∑ p ∈ S, |G l p| * h ^ m := Finset.sum_le_sum fun l _ =>
        Finset.sum_le_sum_of_subset_of_nonneg (Finset.filter_subset _ _) fun _ _ _ => by positivity
    _ = h ^ m * ∑ p ∈ S, ∑ l ∈ Finset.range nx, |G l p| := by
        rw [Finset.sum_comm, Finset.mul_sum]
        refine Finset.sum_congr rfl fun p _ => ?_
        rw [← Finset.sum_mul, mul_comm]
    _ ≤ h ^ m * ∑ p ∈ S, Γ ^ (m + 1) := mul_le_mul_of_nonneg_left (Finset.sum_le_sum hG) (by positivity)
    _ = h ^ m * ((m + 1) * m * Γ ^ (m + 1)) := by
        rw [Finset.sum_const, Finset.card_product, Finset.card_range, Finset.card_range, nsmul_eq_mul]
        push_cast
        ring
end

/-- Taylor polynomial at the right end of an interval. -/
theorem taylor_right {b Γ : ℝ} (M : ℕ) : ∀ {a : ℝ} (G : ℕ → ℝ → ℝ),
    (∀ k < M, ∀ τ ∈ Icc a b, HasDerivWithinAt (G k) (G (k + 1) τ) (Icc a b) τ) → (∀ τ ∈ Icc a b, |G M τ| ≤ Γ) →
    ∀ τ ∈ Icc a b, |G 0 τ - ∑ k ∈ Finset.range M, G k b / (k.factorial : ℝ) * (τ - b) ^ k| ≤ Γ * (b - τ) ^ M := by
  induction M with
  | zero => intro a G _ h τ hτ; simpa using h τ hτ
  | succ M ih =>
    intro a G hG hΓ τ hτ
    have hsub : Icc τ b ⊆ Icc a b := Icc_subset_Icc_left hτ.1
    have hΓ0 : 0 ≤ Γ := (abs_nonneg _).trans (hΓ τ hτ)
    have h1 := ih (a := τ) (fun k => G (k + 1)) (fun k hk r hr => (hG (k + 1) (by omega) r (hsub hr)).mono hsub)
      (fun r hr => hΓ r (hsub hr))
    have h2 := norm_image_sub_le_of_norm_deriv_le_segment' (a := τ) (b := b)
      (f := fun r => G 0 r - ∑ k ∈ Finset.range (M + 1), G k b / (k.factorial : ℝ) * (r - b) ^ k)
      (f' := fun r => G 1 r - ∑ k ∈ Finset.range M, G (k + 1) b / (k.factorial : ℝ) * (r - b) ^ k) (C := Γ * (b - τ) ^ M)
      (fun r hr => by
        refine ((hG 0 (by omega) r (hsub hr)).mono hsub).sub ?_
        have h3 : HasDerivAt (fun r => ∑ k ∈ Finset.range (M + 1), G k b / (k.factorial : ℝ) * (r - b) ^ k)
            (∑ k ∈ Finset.range (M + 1), G k b / (k.factorial : ℝ) * (k * (r - b) ^ (k - 1))) r := by
          refine HasDerivAt.fun_sum fun k _ => ?_
          have := (((hasDerivAt_id r).sub_const b).pow k).const_mul (G k b / (k.factorial : ℝ))
          simpa using this
        have h4 : ∑ k ∈ Finset.range (M + 1), G k b / (k.factorial : ℝ) * (k * (r - b) ^ (k - 1)) =
            ∑ k ∈ Finset.range M, G (k + 1) b / (k.factorial : ℝ) * (r - b) ^ k := by
          rw [Finset.sum_range_succ']
          simp only [Nat.cast_zero, zero_mul, mul_zero, add_zero]
          refine Finset.sum_congr rfl fun k _ => ?_
          have : (k.factorial : ℝ) ≠ 0 := by exact_mod_cast (Nat.factorial_pos k).ne'
          have h5 : ((k + 1 : ℕ) : ℝ) ≠ 0 := by exact_mod_cast Nat.succ_ne_zero k
          rw [Nat.factorial_succ, Nat.add_sub_cancel, Nat.cast_mul]
          field_simp
        rw [h4] at h3
        exact h3.hasDerivWithinAt)
      (fun r hr => (h1 r ⟨hr.1, hr.2.le⟩).trans (mul_le_mul_of_nonneg_left
        (pow_le_pow_left₀ (by linarith [hr.2]) (by linarith [hr.1]) _) hΓ0)) b ⟨hτ.2, le_rfl⟩
    have h3 : G 0 b - ∑ k ∈ Finset.range (M + 1), G k b / (k.factorial : ℝ) * (b - b) ^ k = 0 := by
      simp only [sub_self]
      rw [Finset.sum_range_succ']
      simp
    rw [h3, zero_sub, norm_neg, Real.norm_eq_abs, mul_assoc, ← pow_succ] at h2
    exact h2

theorem taylor_right_contDiff {a b Γ : ℝ} (hab : a < b) (M : ℕ) {g : ℝ → ℝ} (hg : ContDiffOn ℝ M g (Icc a b))
    (hΓ : ∀ τ ∈ Icc a b, |iteratedDerivWithin M g (Icc a b) τ| ≤ Γ) (τ : ℝ) (hτ : τ ∈ Icc a b) :
    |g τ - ∑ k ∈ Finset.range M, iteratedDerivWithin k g (Icc a b) b / (k.factorial : ℝ) * (τ - b) ^ k| ≤ Γ * (b - τ) ^ M := by
  have := taylor_right (a := a) (b := b) (Γ := Γ) M (fun k => iteratedDerivWithin k g (Icc a b)) (fun k hk τ hτ => by
    have h1 := (hg.differentiableOn_iteratedDerivWithin (m := k) (by exact_mod_cast hk) (uniqueDiffOn_Icc hab) τ hτ).hasDerivWithinAt
    rw [← iteratedDerivWithin_succ] at h1
    exact h1) hΓ τ hτ
  simpa only [iteratedDerivWithin_zero] using this

end CE
