import Verif.Num.LemFloatPdq
import Verif.Num.LemFloat3
import Verif.Num.PropsPiecewise

/-! # Lemmas on differentiation with rounding errors -/

open Polynomial

namespace CE

namespace Rounding

variable {R : Rounding}

/-- Inner product with a perturbed row of a differentiation matrix: the row is accurate off the diagonal, and on the diagonal relative to the
sum of the others. -/
theorem diffDot_err {n j a b : ℕ} (hj : j < n) {D D' c : ℕ → ℝ} {y : ℝ}
    (h0 : ∑ k ∈ Finset.range n, D k = 0)
    (off : ∀ k < n, k ≠ j → |D' k - D k| ≤ R.γ a * |D k|)
    (diag : |D' j - D j| ≤ R.γ a * ∑ k ∈ (Finset.range n).erase j, |D k|)
    (hy : |y - ∑ k ∈ Finset.range n, c k * D' k| ≤ R.γ b * ∑ k ∈ Finset.range n, |c k * D' k|) :
    |∑ k ∈ Finset.range n, c k * D k| ≤ ∑ k ∈ (Finset.range n).erase j, |D k| * (|c k| + |c j|) ∧
    |y - ∑ k ∈ Finset.range n, c k * D k| ≤ R.γ (a + b) * ∑ k ∈ (Finset.range n).erase j, |D k| * (|c k| + |c j|) := by
  have hjm : j ∈ Finset.range n := Finset.mem_range.mpr hj
  set S := ∑ k ∈ (Finset.range n).erase j, |D k| with hS
  set T := ∑ k ∈ (Finset.range n).erase j, |D k| * (|c k| + |c j|) with hT
  have hTe : T = ∑ k ∈ (Finset.range n).erase j, |c k| * |D k| + |c j| * S := by
    rw [hT, hS, Finset.mul_sum, ← Finset.sum_add_distrib]
    exact Finset.sum_congr rfl fun k _ => by ring
  have hDj : |D j| ≤ S := by
    rw [← Finset.add_sum_erase _ _ hjm] at h0
    rw [eq_neg_of_add_eq_zero_left h0, abs_neg]
    exact Finset.abs_sum_le_sum_abs _ _
  have mem : ∀ k ∈ (Finset.range n).erase j, k < n ∧ k ≠ j := fun k hk => by
    rw [Finset.mem_erase, Finset.mem_range] at hk
    exact ⟨hk.2, hk.1⟩
  have hsum : ∑ k ∈ Finset.range n, |c k * D k| ≤ T := by
    rw [← Finset.add_sum_erase _ _ hjm, hTe, abs_mul, add_comm]
    refine add_le_add (le_of_eq (Finset.sum_congr rfl fun k _ => abs_mul _ _)) (mul_le_mul_of_nonneg_left hDj (abs_nonneg _))
  have hdiff : ∑ k ∈ Finset.range n, |c k * D' k - c k * D k| ≤ R.γ a * T := by
    rw [← Finset.add_sum_erase _ _ hjm, hTe, mul_add, add_comm, Finset.mul_sum]
    refine add_le_add (Finset.sum_le_sum fun k hk => ?_) ?_
    · rw [← mul_sub, abs_mul, mul_left_comm]
      exact mul_le_mul_of_nonneg_left (off k (mem k hk).1 (mem k hk).2) (abs_nonneg _)
    · rw [← mul_sub, abs_mul, mul_left_comm]
      exact mul_le_mul_of_nonneg_left diag (abs_nonneg _)
  have hd2 : |∑ k ∈ Finset.range n, c k * D' k - ∑ k ∈ Finset.range n, c k * D k| ≤ R.γ a * T := by
    rw [← Finset.sum_sub_distrib]
    exact (Finset.abs_sum_le_sum_abs _ _).trans hdiff
  have hsum' : ∑ k ∈ Finset.range n, |c k * D' k| ≤ T + R.γ a * T := by
    refine (Finset.sum_le_sum (g := fun k => |c k * D k| + |c k * D' k - c k * D k|) fun k _ => ?_).trans ?_
    · have := abs_sub_abs_le_abs_sub (c k * D' k) (c k * D k)
      linarith
    · rw [Finset.sum_add_distrib]
      exact add_le_add hsum hdiff
  refine ⟨(Finset.abs_sum_le_sum_abs _ _).trans hsum, ?_⟩
  have h1 := mul_le_mul_of_nonneg_left hsum' (R.γ_nonneg b)
  have h2 := abs_sub_le y (∑ k ∈ Finset.range n, c k * D' k) (∑ k ∈ Finset.range n, c k * D k)
  have h3 := R.one_add_γ_add a b
  have h4 : R.γ (a + b) * T = (R.γ a + R.γ b + R.γ a * R.γ b) * T := by
    congr 1
    linarith
  rw [h4]
  linarith

/-- A quotient of a perturbed number. -/
theorem div_err {a : ℕ} {y x T h : ℝ} (hh : 0 < h) (hx : |x| ≤ T) (hy : |y - x| ≤ R.γ a * T) :
    |R.rnd (y / R.rnd h) - x / h| ≤ R.γ (a + 2) * T / h := by
  have r : R.Rel 2 (R.rnd (y / R.rnd h)) (y / h) :=
    ((Rel.rnd _).trans ((Rel.refl y).div (Rel.rnd h))).mono (by omega)
  have h1 := r.abs_sub
  have hyT : |y| ≤ (1 + R.γ a) * T := by
    have := abs_sub_abs_le_abs_sub y x
    linarith
  have h2 : |y / h - x / h| ≤ R.γ a * T / h := by
    rw [← sub_div, abs_div, abs_of_pos hh]
    exact div_le_div_of_nonneg_right hy hh.le
  have h3 : |y / h| ≤ (1 + R.γ a) * T / h := by
    rw [abs_div, abs_of_pos hh]
    exact div_le_div_of_nonneg_right hyT hh.le
  have h4 := mul_le_mul_of_nonneg_left h3 (R.γ_nonneg 2)
  have h5 := abs_sub_le (R.rnd (y / R.rnd h)) (y / h) (x / h)
  have h6 := R.one_add_γ_add a 2
  have h7 : R.γ (a + 2) * T / h = R.γ 2 * ((1 + R.γ a) * T / h) + R.γ a * T / h := by
    have : R.γ (a + 2) = R.γ 2 * (1 + R.γ a) + R.γ a := by linarith
    rw [this]
    ring
  rw [h7]
  linarith

open Classical in
/-- Error of an inner product in which only the products different from zero count. -/
theorem dotOf_err_nz {l : List (ℝ × ℝ)} {r : ℝ} (h : DotOf R l r) : R.IsFl r ∧
    |r - (l.map fun p => p.1 * p.2).sum| ≤ R.γ (l.countP fun p => decide (p.1 * p.2 ≠ 0)) * (l.map fun p => |p.1 * p.2|).sum := by
  have nn : ∀ l : List (ℝ × ℝ), 0 ≤ (l.map fun p => |p.1 * p.2|).sum := fun l => List.sum_nonneg (by
    intro x hx
    obtain ⟨p, -, rfl⟩ := List.mem_map.mp hx
    exact abs_nonneg _)
  have ab : ∀ l : List (ℝ × ℝ), |(l.map fun p => p.1 * p.2).sum| ≤ (l.map fun p => |p.1 * p.2|).sum := fun l => by
    have := abs_list_sum_le (l.map fun p => p.1 * p.2)
    rwa [List.map_map] at this
  have step : ∀ (m : ℕ) (s S T : ℝ), |S| ≤ T → |s - S| ≤ R.γ m * T → |R.rnd s - S| ≤ R.γ (m + 1) * T := by
    intro m s S T h1 h2
    have e3 := R.err s
    have e5 : |s| ≤ (1 + R.γ m) * T := by
      have := abs_sub_abs_le_abs_sub s S
      linarith
    have e7 : R.γ (m + 1) = R.γ 1 * (1 + R.γ m) + R.γ m := by
      have := R.one_add_γ_add m 1
      linarith
    have e8 : R.u * |s| ≤ R.γ 1 * ((1 + R.γ m) * T) := mul_le_mul R.u_le_γ e5 (abs_nonneg _) (R.γ_nonneg 1)
    rw [show R.rnd s - S = (R.rnd s - s) + (s - S) by ring, e7]
    refine (abs_add_le _ _).trans ?_
    linarith
  have zero : ∀ (l : List (ℝ × ℝ)) (a : ℝ), (l.countP fun p => decide (p.1 * p.2 ≠ 0)) = 0 →
      |a - (l.map fun p => p.1 * p.2).sum| ≤ R.γ (l.countP fun p => decide (p.1 * p.2 ≠ 0)) * (l.map fun p => |p.1 * p.2|).sum →
      a = 0 ∧ (l.map fun p => p.1 * p.2).sum = 0 ∧ (l.map fun p => |p.1 * p.2|).sum = 0 := by
    intro l a hc ha
    have h0 : ∀ p ∈ l, p.1 * p.2 = 0 := by
      intro p hp
      have := List.countP_eq_zero.mp hc p hp
      by_contra hne
      exact this (decide_eq_true hne)
    have h1 : (l.map fun p => p.1 * p.2).sum = 0 := List.sum_eq_zero (by
      intro x hx
      obtain ⟨p, hp, rfl⟩ := List.mem_map.mp hx
      exact h0 p hp)
    rw [hc, γ_zero, zero_mul, h1, sub_zero] at ha
    refine ⟨abs_eq_zero.mp (le_antisymm ha (abs_nonneg _)), h1, List.sum_eq_zero (by
      intro x hx
      obtain ⟨p, hp, rfl⟩ := List.mem_map.mp hx
      simp only [h0 p hp, abs_zero])⟩
  induction h with
  | nil => exact ⟨R.zero, by simp⟩
  | one x y =>
    refine ⟨R.idem _, ?_⟩
    by_cases h0 : x * y = 0
    · simp only [List.map_cons, List.map_nil, List.sum_cons, List.sum_nil, h0, R.zero, abs_zero, add_zero, sub_zero, mul_zero, le_refl]
    · have := step 0 (x * y) (x * y) |x * y| le_rfl (by simp [γ_zero])
      rw [List.countP_singleton, decide_eq_true h0, if_pos rfl]
      simpa using this
  | @add l l' a b hl hl' h1 h2 ih1 ih2 =>
    refine ⟨R.idem _, ?_⟩
    obtain ⟨f1, ih1⟩ := ih1
    obtain ⟨f2, ih2⟩ := ih2
    rw [List.countP_append, List.map_append, List.sum_append, List.map_append, List.sum_append]
    set m1 := l.countP fun p => decide (p.1 * p.2 ≠ 0) with hm1
    set m2 := l'.countP fun p => decide (p.1 * p.2 ≠ 0) with hm2
    by_cases z1 : m1 = 0
    · obtain ⟨e1, e2, e3⟩ := zero l a z1 ih1
      rw [e1, e2, e3, zero_add, zero_add, zero_add, z1, zero_add, show R.rnd b = b from f2]
      exact ih2
    by_cases z2 : m2 = 0
    · obtain ⟨e1, e2, e3⟩ := zero l' b z2 ih2
      rw [e1, e2, e3, add_zero, add_zero, add_zero, z2, add_zero, show R.rnd a = a from f1]
      exact ih1
    obtain ⟨m, hm⟩ : ∃ m, m1 + m2 = m + 1 := ⟨m1 + m2 - 1, by omega⟩
    rw [hm]
    refine step m _ _ _ ?_ ?_
    · exact (abs_add_le _ _).trans (add_le_add (ab l) (ab l'))
    · have e1 := ih1.trans (mul_le_mul_of_nonneg_right (R.γ_mono (by omega : m1 ≤ m)) (nn l))
      have e2 := ih2.trans (mul_le_mul_of_nonneg_right (R.γ_mono (by omega : m2 ≤ m)) (nn l'))
      rw [add_sub_add_comm, mul_add]
      exact (abs_add_le _ _).trans (add_le_add e1 e2)
  | @fma l a x y hl h ih =>
    refine ⟨R.idem _, ?_⟩
    obtain ⟨f1, ih⟩ := ih
    rw [List.countP_cons, List.map_cons, List.sum_cons, List.map_cons, List.sum_cons]
    by_cases h0 : x * y = 0
    · simp only [h0, zero_add, abs_zero, show R.rnd a = a from f1]
      simpa using ih
    · simp only [h0, ne_eq, not_false_eq_true, decide_true, if_true]
      refine step _ _ _ _ ?_ ?_
      · exact (abs_add_le _ _).trans (add_le_add le_rfl (ab l))
      · rw [add_sub_add_left_eq_sub, mul_add]
        have := mul_nonneg (R.γ_nonneg (l.countP fun p => decide (p.1 * p.2 ≠ 0))) (abs_nonneg (x * y))
        simp only [ne_eq] at this ih ⊢
        linarith
  | perm h hp ih =>
    rw [← (hp.map _).sum_eq, ← (hp.map _).sum_eq, ← hp.countP_eq]
    exact ih

end Rounding

/-- The derivatives of the Lagrange polynomials add up to zero. -/
theorem sum_derivative_basis {tau : List ℝ} (hne : tau ≠ []) (hd : tau.Nodup) (x : ℝ) :
    ∑ k ∈ Finset.range tau.length, (derivative (Lagrange.basis (Finset.range tau.length) (nd tau) k)).eval x = 0 := by
  have := sum_mul_derivative_basis_eval hd (p := 1) (by
    rw [degree_one]
    exact_mod_cast List.length_pos_iff.mpr hne) x
  simpa using this

end CE
