import Verif.Num.LemAdjoint

/-!
# Lemmas for C91: the error of one step of the collocation method
-/

open Polynomial Set

namespace CE

section
variable {tau : List ℝ} {a h : ℝ}

theorem testWith_sum (n : ℕ) (c : ℕ → ℝ) (g : ℕ → ℝ[X]) (y0 y1 : ℝ) (y f : ℕ → ℝ) :
    testWith tau a h (∑ k ∈ Finset.range n, C (c k) * g k) y0 y1 y f = ∑ k ∈ Finset.range n, c k * testWith tau a h (g k) y0 y1 y f := by
  induction n with
  | zero => simp [testWith]
  | succ n ih =>
    rw [Finset.sum_range_succ, Finset.sum_range_succ, ← ih]
    unfold testWith
    simp only [derivative_add, eval_add, derivative_C_mul, eval_mul, eval_C, add_mul, mul_add, Finset.sum_add_distrib]
    have e1 : ∀ F : ℕ → ℝ, ∑ j ∈ Finset.range tau.length, wb tau j * (c n * F j) = c n * ∑ j ∈ Finset.range tau.length, wb tau j * F j := by
      intro F
      rw [Finset.mul_sum]
      exact Finset.sum_congr rfl fun j _ => by ring
    simp only [mul_assoc, e1]
    ring

theorem testWith_sub (g : ℝ[X]) (x0 x1 : ℝ) (x k : ℕ → ℝ) (y0 y1 : ℝ) (y f : ℕ → ℝ) :
    testWith tau a h g x0 x1 x k - testWith tau a h g y0 y1 y f =
      testWith tau a h g (x0 - y0) (x1 - y1) (fun j => x j - y j) (fun j => k j - f j) := by
  unfold testWith
  simp only [mul_sub, mul_add, Finset.sum_add_distrib, Finset.sum_sub_distrib]
  ring

/-- The error of one step, if the nodes integrate polynomials of degree less than `s + M + 1` exactly. -/
theorem super_step {M : ℕ} (hd : tau.Nodup) (hw : WeightsExact tau (tau.length + (M + 1)))
    (h01 : ∀ k < tau.length, nd tau k ∈ Icc (0 : ℝ) 1) {B β Γ ε E R : ℝ} (hh : 0 < h) (h1 : h ≤ 1) (hΓ : 1 ≤ Γ)
    (hβ : ∑ k ∈ Finset.range tau.length, |wb tau k| ≤ β) (hE0 : 0 ≤ E) (hR0 : 0 ≤ R) (hB0 : 0 ≤ B) (nx : ℕ) {y : ℕ → ℝ → ℝ} {f : ℕ → ℝ → ℝ}
    (hy : ∀ i < nx, ∀ τ ∈ Icc a (a + h), HasDerivWithinAt (y i) (f i τ) (Icc a (a + h)) τ)
    (hf : ∀ i < nx, ContDiffOn ℝ (tau.length + (M + 1) : ℕ) (f i) (Icc a (a + h)))
    (hB : ∀ i < nx, ∀ q, tau.length ≤ q → q ≤ tau.length + (M + 1) → ∀ τ ∈ Icc a (a + h),
      |iteratedDerivWithin q (f i) (Icc a (a + h)) τ| ≤ B)
    {x x' : ℕ → ℝ} {X' k : ℕ → ℕ → ℝ} (hX : ∀ i < nx, ∀ j < tau.length, X' i j = x i + h * ∑ l ∈ Finset.range tau.length, k i l * wA tau j l)
    (hx' : ∀ i < nx, x' i = x i + h * ∑ l ∈ Finset.range tau.length, k i l * wb tau l)
    {Jc : ℕ → ℕ → ℕ → ℝ} (hJc : ∀ q, ∀ i < nx, ∑ l ∈ Finset.range nx, |Jc q i l| ≤ Γ) {Jt : ℕ → ℕ → ℕ → ℝ}
    (hJt : ∀ j < tau.length, ∀ i < nx, ∑ l ∈ Finset.range nx,
      |Jt j i l - ∑ q ∈ Finset.range M, Jc q i l * (a + h * nd tau j - (a + h)) ^ q| ≤ h ^ M * Γ)
    (hE : ∀ i < nx, ∀ j < tau.length, |X' i j - y i (a + h * nd tau j)| ≤ E)
    (hR : ∀ i < nx, ∀ j < tau.length, |k i j - f i (a + h * nd tau j) -
      ∑ l ∈ Finset.range nx, Jt j i l * (X' l j - y l (a + h * nd tau j))| ≤ R)
    (h0 : ∀ i < nx, |x i - y i a| ≤ ε) (i0 : ℕ) (hi0 : i0 < nx) :
    let W := (M + 1) ^ 2 * Γ ^ (M + 2)
    |x' i0 - y i0 (a + h)| ≤ (1 + h * W) * ε + h * (β * (W * (h ^ M * E + R))) + h ^ (tau.length + (M + 1) + 1) * (W * ((1 + β) * B)) := by
  intro W
  have hΓ0 : 0 ≤ Γ := by linarith
  have hβ0 : 0 ≤ β := (Finset.sum_nonneg fun _ _ => abs_nonneg _).trans hβ
  have hε0 : 0 ≤ ε := (abs_nonneg _).trans (h0 i0 hi0)
  set v : ℕ → ℝ := fun i => if i = i0 then 1 else 0 with hv
  have hv1 : ∑ l ∈ Finset.range nx, |v l| ≤ 1 := by
    rw [Finset.sum_eq_single_of_mem i0 (Finset.mem_range.mpr hi0) (fun l _ hl => by simp [hv, hl])]
    simp [hv]
  set Ψ := adjPoly nx Jc v (a + h) (M + 1) with hΨ
  have hσ : ∀ j < tau.length, |a + h * nd tau j - (a + h)| ≤ h := by
    intro j hj
    have := h01 j hj
    rw [abs_le]
    constructor <;> nlinarith [this.1, this.2]
  -- the method
  have t1 : ∀ i < nx, testWith tau a h (Ψ i) (x i) (x' i) (X' i) (k i) = 0 := by
    intro i hi
    obtain ⟨U, u1, u2, u3, u4⟩ := exists_step_poly hd hh.ne' (hX i hi) (hx' i hi)
    have := testWith_poly hw (by omega) a h (g := Ψ i) (U := U) (by
      have e1 : (Ψ i).natDegree ≤ M := by
        refine natDegree_sum_le_of_forall_le _ _ fun q hq => ?_
        refine (natDegree_C_mul_le _ _).trans (natDegree_pow_le.trans ?_)
        rw [natDegree_X_sub_C, mul_one]
        have := Finset.mem_range.mp hq
        omega
      have e2 := natDegree_le_of_derivative u1
      omega)
    rw [u2, u3] at this
    rw [← this]
    unfold testWith
    congr 2
    refine Finset.sum_congr rfl fun j hj => ?_
    obtain ⟨w1, w2⟩ := u4 j (Finset.mem_range.mp hj)
    beta_reduce
    rw [w1, w2]
  -- the exact solution
  have t2 : |∑ i ∈ Finset.range nx, testWith tau a h (Ψ i) (y i a) (y i (a + h)) (fun j => y i (a + h * nd tau j))
      (fun j => f i (a + h * nd tau j))| ≤ h ^ (tau.length + (M + 1) + 1) * (W * ((1 + β) * B)) := by
    calc _ = |∑ i ∈ Finset.range nx, ∑ q ∈ Finset.range (M + 1), adjCoef nx Jc v q i * testWith tau a h ((X - C (a + h)) ^ q) (y i a)
            (y i (a + h)) (fun j => y i (a + h * nd tau j)) (fun j => f i (a + h * nd tau j))| := by
          congr 1
          exact Finset.sum_congr rfl fun i _ => testWith_sum _ _ _ _ _ _ _
      _ ≤ ∑ i ∈ Finset.range nx, ∑ q ∈ Finset.range (M + 1), |adjCoef nx Jc v q i| *
            (h ^ (tau.length + (M + 1) + 1) * ((1 + β * (M + 1)) * B)) := by
          refine (Finset.abs_sum_le_sum_abs _ _).trans (Finset.sum_le_sum fun i hi => ?_)
          refine (Finset.abs_sum_le_sum_abs _ _).trans (Finset.sum_le_sum fun q hq => ?_)
          have hi := Finset.mem_range.mp hi
          have hq := Finset.mem_range.mp hq
          rw [abs_mul]
          refine mul_le_mul_of_nonneg_left ?_ (abs_nonneg _)
          refine (testWith_error hw h01 hh.le hβ (by omega : q < tau.length + (M + 1)) (hy i hi)
            ((hf i hi).of_le (by exact_mod_cast Nat.sub_le _ _)) (hB i hi _ (by omega) (by omega))).trans ?_
          have : (q : ℝ) ≤ M := by exact_mod_cast Nat.lt_succ_iff.mp hq
          gcongr
      _ = (∑ q ∈ Finset.range (M + 1), ∑ i ∈ Finset.range nx, |adjCoef nx Jc v q i|) *
            (h ^ (tau.length + (M + 1) + 1) * ((1 + β * (M + 1)) * B)) := by
          rw [Finset.sum_comm]
          simp only [Finset.sum_mul]
      _ ≤ (∑ q ∈ Finset.range (M + 1), Γ ^ (M + 2)) * (h ^ (tau.length + (M + 1) + 1) * ((1 + β * (M + 1)) * B)) := by
          refine mul_le_mul_of_nonneg_right (Finset.sum_le_sum fun q hq => ?_) (by positivity)
          exact (adjCoef_le hΓ hJc hv1 q).trans (pow_le_pow_right₀ hΓ (by have := Finset.mem_range.mp hq; omega))
      _ ≤ _ := by
          rw [Finset.sum_const, Finset.card_range, nsmul_eq_mul]
          push_cast
          have e1 : (M + 1 : ℝ) * (1 + β * (M + 1)) ≤ (M + 1) ^ 2 * (1 + β) := by
            have : (0 : ℝ) ≤ M := Nat.cast_nonneg _
            nlinarith
          calc _ = h ^ (tau.length + (M + 1) + 1) * (Γ ^ (M + 2) * B * ((M + 1 : ℝ) * (1 + β * (M + 1)))) := by ring
            _ ≤ h ^ (tau.length + (M + 1) + 1) * (Γ ^ (M + 2) * B * ((M + 1) ^ 2 * (1 + β))) := by gcongr
            _ = _ := by simp only [W]; ring
  -- the difference
  have t3 : x' i0 - y i0 (a + h) = ∑ i ∈ Finset.range nx, (Ψ i).eval a * (x i - y i a) +
      h * ∑ j ∈ Finset.range tau.length, wb tau j * ∑ i ∈ Finset.range nx, ((derivative (Ψ i)).eval (a + h * nd tau j) *
        (X' i j - y i (a + h * nd tau j)) + (Ψ i).eval (a + h * nd tau j) * (k i j - f i (a + h * nd tau j))) -
      ∑ i ∈ Finset.range nx, testWith tau a h (Ψ i) (y i a) (y i (a + h)) (fun j => y i (a + h * nd tau j))
      (fun j => f i (a + h * nd tau j)) := by
    have e1 : ∑ i ∈ Finset.range nx, v i * (x' i - y i (a + h)) = x' i0 - y i0 (a + h) := by
      rw [Finset.sum_eq_single_of_mem i0 (Finset.mem_range.mpr hi0) (fun l _ hl => by simp [hv, hl])]
      simp [hv]
    have e2 : ∑ i ∈ Finset.range nx, testWith tau a h (Ψ i) (x i - y i a) (x' i - y i (a + h)) (fun j => X' i j - y i (a + h * nd tau j))
        (fun j => k i j - f i (a + h * nd tau j)) = -∑ i ∈ Finset.range nx, testWith tau a h (Ψ i) (y i a) (y i (a + h))
        (fun j => y i (a + h * nd tau j)) (fun j => f i (a + h * nd tau j)) := by
      rw [← Finset.sum_neg_distrib]
      refine Finset.sum_congr rfl fun i hi => ?_
      rw [← testWith_sub, t1 i (Finset.mem_range.mp hi), zero_sub]
    have e3 : ∑ i ∈ Finset.range nx, testWith tau a h (Ψ i) (x i - y i a) (x' i - y i (a + h)) (fun j => X' i j - y i (a + h * nd tau j))
        (fun j => k i j - f i (a + h * nd tau j)) = ∑ i ∈ Finset.range nx, v i * (x' i - y i (a + h)) -
        ∑ i ∈ Finset.range nx, (Ψ i).eval a * (x i - y i a) -
        h * ∑ j ∈ Finset.range tau.length, wb tau j * ∑ i ∈ Finset.range nx, ((derivative (Ψ i)).eval (a + h * nd tau j) *
        (X' i j - y i (a + h * nd tau j)) + (Ψ i).eval (a + h * nd tau j) * (k i j - f i (a + h * nd tau j))) := by
      unfold testWith
      rw [Finset.sum_sub_distrib, Finset.sum_sub_distrib]
      congr 1
      · congr 1
        refine Finset.sum_congr rfl fun i _ => ?_
        rw [hΨ, adjPoly_right _ (Nat.succ_pos M)]
      · rw [← Finset.mul_sum, Finset.sum_comm]
        simp only [Finset.mul_sum]
    rw [e3, e1] at e2
    linarith
  have s1 : |∑ i ∈ Finset.range nx, (Ψ i).eval a * (x i - y i a)| ≤ (1 + h * W) * ε := by
    calc _ ≤ ∑ i ∈ Finset.range nx, |(Ψ i).eval a| * ε := by
          refine (Finset.abs_sum_le_sum_abs _ _).trans (Finset.sum_le_sum fun i hi => ?_)
          rw [abs_mul]
          exact mul_le_mul_of_nonneg_left (h0 i (Finset.mem_range.mp hi)) (abs_nonneg _)
      _ = (∑ i ∈ Finset.range nx, |(Ψ i).eval a|) * ε := (Finset.sum_mul _ _ _).symm
      _ ≤ (1 + h * (M * Γ ^ M)) * ε := mul_le_mul_of_nonneg_right (adjPoly_left hΓ hJc hv1 (a + h) M (h := h) (τ := a) (by
          rw [sub_add_cancel_left, abs_neg, abs_of_pos hh]) h1) hε0
      _ ≤ _ := by
          have e1 : (M : ℝ) * Γ ^ M ≤ W := by
            have e2 : (M : ℝ) ≤ (M + 1) ^ 2 := by
              have : (0 : ℝ) ≤ M := Nat.cast_nonneg _
              nlinarith
            have e3 : Γ ^ M ≤ Γ ^ (M + 2) := pow_le_pow_right₀ hΓ (by omega)
            exact mul_le_mul e2 e3 (by positivity) (by positivity)
          gcongr
  have s2 : ∀ j < tau.length, |∑ i ∈ Finset.range nx, ((derivative (Ψ i)).eval (a + h * nd tau j) *
        (X' i j - y i (a + h * nd tau j)) + (Ψ i).eval (a + h * nd tau j) * (k i j - f i (a + h * nd tau j)))| ≤ W * (h ^ M * E + R) := by
    intro j hj
    set τ := a + h * nd tau j with hτ
    have d0 := adjPoly_le hΓ hJc hv1 (a + h) (M + 1) ((hσ j hj).trans h1)
    rw [← hΨ, ← hτ] at d0
    push_cast at d0
    have d1 : ∑ l ∈ Finset.range nx, |(derivative (Ψ l)).eval τ + ∑ i ∈ Finset.range nx, (Ψ i).eval τ * Jt j i l| ≤ W * h ^ M := by
      have e1 := adjPoly_defect hΓ hJc hv1 (a + h) M (hσ j hj) h1
      rw [← hΨ, ← hτ] at e1
      calc _ ≤ ∑ l ∈ Finset.range nx, (|(derivative (Ψ l)).eval τ + ∑ i ∈ Finset.range nx, (Ψ i).eval τ *
              ∑ q ∈ Finset.range M, Jc q i l * (τ - (a + h)) ^ q| + ∑ i ∈ Finset.range nx, |(Ψ i).eval τ| *
              |Jt j i l - ∑ q ∈ Finset.range M, Jc q i l * (τ - (a + h)) ^ q|) := by
            refine Finset.sum_le_sum fun l _ => ?_
            have : (derivative (Ψ l)).eval τ + ∑ i ∈ Finset.range nx, (Ψ i).eval τ * Jt j i l =
                ((derivative (Ψ l)).eval τ + ∑ i ∈ Finset.range nx, (Ψ i).eval τ * ∑ q ∈ Finset.range M, Jc q i l * (τ - (a + h)) ^ q) +
                ∑ i ∈ Finset.range nx, (Ψ i).eval τ * (Jt j i l - ∑ q ∈ Finset.range M, Jc q i l * (τ - (a + h)) ^ q) := by
              simp only [mul_sub, Finset.sum_sub_distrib]
              ring
            rw [this]
            refine (abs_add_le _ _).trans (add_le_add le_rfl ((Finset.abs_sum_le_sum_abs _ _).trans (le_of_eq ?_)))
            exact Finset.sum_congr rfl fun i _ => abs_mul _ _
        _ = ∑ l ∈ Finset.range nx, |(derivative (Ψ l)).eval τ + ∑ i ∈ Finset.range nx, (Ψ i).eval τ *
              ∑ q ∈ Finset.range M, Jc q i l * (τ - (a + h)) ^ q| + ∑ i ∈ Finset.range nx, |(Ψ i).eval τ| *
              ∑ l ∈ Finset.range nx, |Jt j i l - ∑ q ∈ Finset.range M, Jc q i l * (τ - (a + h)) ^ q| := by
            rw [Finset.sum_add_distrib]
            congr 1
            rw [Finset.sum_comm]
            exact Finset.sum_congr rfl fun i _ => (Finset.mul_sum _ _ _).symm
        _ ≤ h ^ M * ((M + 1) * M * Γ ^ (M + 1)) + ∑ i ∈ Finset.range nx, |(Ψ i).eval τ| * (h ^ M * Γ) :=
            add_le_add e1 (Finset.sum_le_sum fun i hi => mul_le_mul_of_nonneg_left (hJt j hj i (Finset.mem_range.mp hi)) (abs_nonneg _))
        _ ≤ h ^ M * ((M + 1) * M * Γ ^ (M + 2)) + ((M + 1) * Γ ^ (M + 1)) * (h ^ M * Γ) := by
            rw [← Finset.sum_mul]
            have : Γ ^ (M + 1) ≤ Γ ^ (M + 2) := pow_le_pow_right₀ hΓ (by omega)
            gcongr
        _ = W * h ^ M := by simp only [W]; ring
    have e1 : ∑ i ∈ Finset.range nx, ((derivative (Ψ i)).eval τ * (X' i j - y i τ) + (Ψ i).eval τ * (k i j - f i τ)) =
        ∑ l ∈ Finset.range nx, ((derivative (Ψ l)).eval τ + ∑ i ∈ Finset.range nx, (Ψ i).eval τ * Jt j i l) * (X' l j - y l τ) +
        ∑ i ∈ Finset.range nx, (Ψ i).eval τ * (k i j - f i τ - ∑ l ∈ Finset.range nx, Jt j i l * (X' l j - y l τ)) := by
      simp only [add_mul, mul_sub, Finset.sum_add_distrib, Finset.sum_sub_distrib, Finset.sum_mul, Finset.mul_sum]
      rw [Finset.sum_comm (s := Finset.range nx) (t := Finset.range nx) (f := fun i l => (Ψ i).eval τ * (Jt j i l * X' l j)),
        Finset.sum_comm (s := Finset.range nx) (t := Finset.range nx) (f := fun i l => (Ψ i).eval τ * (Jt j i l * y l τ))]
      simp only [mul_assoc]
      ring
    rw [e1]
    refine (abs_add_le _ _).trans ?_
    have f1 : |∑ l ∈ Finset.range nx, ((derivative (Ψ l)).eval τ + ∑ i ∈ Finset.range nx, (Ψ i).eval τ * Jt j i l) * (X' l j - y l τ)| ≤
        W * h ^ M * E := by
      refine (Finset.abs_sum_le_sum_abs _ _).trans ?_
      refine le_trans (Finset.sum_le_sum fun l hl => ?_) (le_trans (le_of_eq (Finset.sum_mul _ _ _).symm) (mul_le_mul_of_nonneg_right d1 hE0))
      rw [abs_mul]
      exact mul_le_mul_of_nonneg_left (hE l (Finset.mem_range.mp hl) j hj) (abs_nonneg _)
    have f2 : |∑ i ∈ Finset.range nx, (Ψ i).eval τ * (k i j - f i τ - ∑ l ∈ Finset.range nx, Jt j i l * (X' l j - y l τ))| ≤ W * R := by
      have e2 : (M + 1 : ℝ) * Γ ^ (M + 1) ≤ W := by
        have e2 : (M + 1 : ℝ) ≤ (M + 1) ^ 2 := by
          have : (0 : ℝ) ≤ M := Nat.cast_nonneg _
          nlinarith
        have e3 : Γ ^ (M + 1) ≤ Γ ^ (M + 2) := pow_le_pow_right₀ hΓ (by omega)
        exact mul_le_mul e2 e3 (by positivity) (by positivity)
      refine (Finset.abs_sum_le_sum_abs _ _).trans ?_
      refine le_trans (Finset.sum_le_sum fun i hi => ?_) (le_trans (le_of_eq (Finset.sum_mul _ _ _).symm)
        (mul_le_mul_of_nonneg_right (d0.trans e2) hR0))
      rw [abs_mul]
      exact mul_le_mul_of_nonneg_left (hR i (Finset.mem_range.mp hi) j hj) (abs_nonneg _)
    calc _ ≤ W * h ^ M * E + W * R := add_le_add f1 f2
      _ = _ := by ring
  rw [t3]
  refine (abs_sub _ _).trans (add_le_add ((abs_add_le _ _).trans (add_le_add s1 ?_)) t2)
  rw [abs_mul, abs_of_pos hh]
  refine mul_le_mul_of_nonneg_left ?_ hh.le
  have hW0 : 0 ≤ W := by positivity
  refine (Finset.abs_sum_le_sum_abs _ _).trans ?_
  refine le_trans (Finset.sum_le_sum fun j hj => ?_) (le_trans (le_of_eq (Finset.sum_mul _ _ _).symm)
    (mul_le_mul_of_nonneg_right hβ (by positivity)))
  rw [abs_mul]
  exact mul_le_mul_of_nonneg_left (s2 j (Finset.mem_range.mp hj)) (abs_nonneg _)

end
end CE
