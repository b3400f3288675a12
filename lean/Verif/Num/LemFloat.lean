import Verif.Num.Float
import Verif.Num.BasisLemmas
import Mathlib.Tactic.Positivity
import Mathlib.Tactic.FieldSimp
import Mathlib.Tactic.Linarith
import Mathlib.Tactic.GCongr
import Mathlib.Algebra.Order.BigOperators.Group.List

/-!
# Lemmas about rounding errors
-/

namespace CE

theorem abs_list_sum_le (l : List ℝ) : |l.sum| ≤ (l.map abs).sum := by
  induction l with
  | nil => simp
  | cons a l ih =>
    rw [List.sum_cons, List.map_cons, List.sum_cons]
    exact (abs_add_le _ _).trans (add_le_add le_rfl ih)

namespace Rounding

variable (R : Rounding)

theorem zero : R.rnd 0 = 0 := by
  have := R.err 0
  simpa using this

/-- Bound of the relative error of `m` operations. -/
noncomputable def γ (m : ℕ) : ℝ := 1 / (1 - R.u) ^ m - 1

theorem q_pos : 0 < 1 - R.u := by linarith [R.u_lt]

theorem q_le : 1 - R.u ≤ 1 := by linarith [R.u_nonneg]

theorem one_add_γ (m : ℕ) : 1 + R.γ m = 1 / (1 - R.u) ^ m := by unfold γ; ring

theorem one_add_γ_add (m k : ℕ) : 1 + R.γ (m + k) = (1 + R.γ m) * (1 + R.γ k) := by
  rw [one_add_γ, one_add_γ, one_add_γ, pow_add]
  field_simp

theorem γ_mono {m k : ℕ} (h : m ≤ k) : R.γ m ≤ R.γ k := by
  unfold γ
  have := one_div_le_one_div_of_le (pow_pos R.q_pos k) (pow_le_pow_of_le_one R.q_pos.le R.q_le h)
  linarith

theorem γ_zero : R.γ 0 = 0 := by simp [γ]

theorem γ_nonneg (m : ℕ) : 0 ≤ R.γ m := by
  have := R.γ_mono (Nat.zero_le m)
  rwa [γ_zero] at this

theorem u_le_γ : R.u ≤ R.γ 1 := by
  have h := R.q_pos
  unfold γ
  rw [pow_one, le_sub_iff_add_le, le_div_iff₀ h]
  nlinarith [R.u_nonneg]

theorem abs_rnd_le (x : ℝ) : |R.rnd x| ≤ (1 + R.γ 1) * |x| := by
  have h1 := R.err x
  have h2 := abs_sub_abs_le_abs_sub (R.rnd x) x
  have h3 := mul_le_mul_of_nonneg_right R.u_le_γ (abs_nonneg x)
  linarith

theorem rnd_eq_zero {x : ℝ} (h : R.rnd x = 0) : x = 0 := by
  have h1 := R.err x
  rw [h, zero_sub, abs_neg] at h1
  have h2 := abs_nonneg x
  have h3 := R.u_lt
  have : |x| = 0 := by nlinarith
  exact abs_eq_zero.mp this

/-- `a` is `b` up to the relative error of `m` operations. -/
def Rel (m : ℕ) (a b : ℝ) : Prop := ∃ g, (1 - R.u) ^ m ≤ g ∧ g ≤ 1 / (1 - R.u) ^ m ∧ a = b * g

variable {R}

theorem Rel.refl (a : ℝ) : R.Rel 0 a a := ⟨1, by simp, by simp, by simp⟩

theorem Rel.mono {m k : ℕ} {a b : ℝ} (h : R.Rel m a b) (hk : m ≤ k) : R.Rel k a b := by
  obtain ⟨g, h1, h2, h3⟩ := h
  exact ⟨g, (pow_le_pow_of_le_one R.q_pos.le R.q_le hk).trans h1,
    h2.trans (one_div_le_one_div_of_le (pow_pos R.q_pos k) (pow_le_pow_of_le_one R.q_pos.le R.q_le hk)), h3⟩

theorem Rel.rnd (x : ℝ) : R.Rel 1 (R.rnd x) x := by
  have hq := R.q_pos
  by_cases hx : x = 0
  · refine ⟨1, by rw [pow_one]; exact R.q_le, ?_, by rw [hx, R.zero, zero_mul]⟩
    rw [pow_one, le_div_iff₀ hq]
    linarith [R.q_le]
  have h := R.err x
  have h' : |R.rnd x / x - 1| ≤ R.u := by
    rw [show R.rnd x / x - 1 = (R.rnd x - x) / x by field_simp, abs_div, div_le_iff₀ (abs_pos.mpr hx)]
    exact h
  rw [abs_le] at h'
  refine ⟨R.rnd x / x, by rw [pow_one]; linarith [h'.1], ?_, by field_simp⟩
  have := R.u_le_γ
  rw [← R.one_add_γ]
  linarith [h'.2]

theorem Rel.mul {m k : ℕ} {a b c d : ℝ} (h : R.Rel m a b) (h' : R.Rel k c d) : R.Rel (m + k) (a * c) (b * d) := by
  obtain ⟨g, h1, h2, rfl⟩ := h
  obtain ⟨g', h1', h2', rfl⟩ := h'
  have hq := R.q_pos
  have p1 := pow_pos hq m
  have p2 := pow_pos hq k
  refine ⟨g * g', ?_, ?_, by ring⟩
  · rw [pow_add]
    exact mul_le_mul h1 h1' p2.le (p1.le.trans h1)
  · rw [pow_add, one_div_mul_eq_div_mul_one_div_aux]
    exact mul_le_mul h2 h2' (p2.le.trans h1') (by positivity)
where
  one_div_mul_eq_div_mul_one_div_aux {a b : ℝ} : 1 / (a * b) = 1 / a * (1 / b) := by
    rw [one_div_mul_one_div]

theorem Rel.inv {m : ℕ} {a b : ℝ} (h : R.Rel m a b) : R.Rel m a⁻¹ b⁻¹ := by
  obtain ⟨g, h1, h2, rfl⟩ := h
  have p1 := pow_pos R.q_pos m
  have hg : 0 < g := p1.trans_le h1
  refine ⟨g⁻¹, ?_, ?_, by rw [mul_inv]⟩
  · rw [le_inv_comm₀ p1 hg, ← one_div]
    exact h2
  · rw [one_div]
    exact inv_anti₀ p1 h1

theorem Rel.div {m k : ℕ} {a b c d : ℝ} (h : R.Rel m a b) (h' : R.Rel k c d) : R.Rel (m + k) (a / c) (b / d) := by
  rw [div_eq_mul_inv, div_eq_mul_inv]
  exact h.mul h'.inv

theorem Rel.trans {m k : ℕ} {a b c : ℝ} (h : R.Rel m a b) (h' : R.Rel k b c) : R.Rel (m + k) a c := by
  obtain ⟨g, h1, h2, rfl⟩ := h
  have : R.Rel (m + k) (g * b) (1 * c) := Rel.mul ⟨g, h1, h2, by ring⟩ h'
  rwa [one_mul, mul_comm] at this

theorem Rel.abs_sub {m : ℕ} {a b : ℝ} (h : R.Rel m a b) : |a - b| ≤ R.γ m * |b| := by
  obtain ⟨g, h1, h2, rfl⟩ := h
  rw [show b * g - b = (g - 1) * b by ring, abs_mul]
  refine mul_le_mul_of_nonneg_right ?_ (abs_nonneg b)
  have p1 := pow_pos R.q_pos m
  have p2 : (1 - R.u) ^ m ≤ 1 := pow_le_one₀ R.q_pos.le R.q_le
  have hγ := R.one_add_γ m
  rw [abs_le]
  constructor
  · have : (1 - (1 - R.u) ^ m) ≤ R.γ m := by
      unfold γ
      rw [le_sub_iff_add_le, le_div_iff₀ p1]
      nlinarith
    linarith
  · linarith

theorem Rel.abs_le {m : ℕ} {a b : ℝ} (h : R.Rel m a b) : |a| ≤ (1 + R.γ m) * |b| := by
  have h1 := h.abs_sub
  have h2 := abs_sub_abs_le_abs_sub a b
  linarith

theorem Rel.ne_zero {m : ℕ} {a b : ℝ} (h : R.Rel m a b) (hb : b ≠ 0) : a ≠ 0 := by
  obtain ⟨g, h1, h2, rfl⟩ := h
  exact mul_ne_zero hb ((pow_pos R.q_pos m).trans_le h1).ne'

variable (R)

/-- Error of a sum. -/
theorem sumOf_err {l : List ℝ} {r : ℝ} (h : SumOf R l r) : |r - l.sum| ≤ R.γ (l.length - 1) * (l.map abs).sum := by
  induction h with
  | nil => simp
  | one x => simp [γ_zero]
  | @add l l' a b hl hl' h1 h2 ih1 ih2 =>
    have n1 := List.length_pos_iff.mpr hl
    have n2 := List.length_pos_iff.mpr hl'
    rw [List.length_append, List.map_append, List.sum_append, List.sum_append]
    set m := l.length + l'.length - 2 with hm
    have hlen : l.length + l'.length - 1 = m + 1 := by omega
    rw [hlen]
    have s1 : 0 ≤ (l.map abs).sum := List.sum_nonneg (by simp)
    have s2 : 0 ≤ (l'.map abs).sum := List.sum_nonneg (by simp)
    have e1 : |a - l.sum| ≤ R.γ m * (l.map abs).sum := ih1.trans (mul_le_mul_of_nonneg_right (R.γ_mono (by omega)) s1)
    have e2 : |b - l'.sum| ≤ R.γ m * (l'.map abs).sum := ih2.trans (mul_le_mul_of_nonneg_right (R.γ_mono (by omega)) s2)
    have a1 : |l.sum| ≤ (l.map abs).sum := abs_list_sum_le _
    have a2 : |l'.sum| ≤ (l'.map abs).sum := abs_list_sum_le _
    have e3 := R.err (a + b)
    have e4 : |a + b - (l.sum + l'.sum)| ≤ R.γ m * ((l.map abs).sum + (l'.map abs).sum) := by
      rw [show a + b - (l.sum + l'.sum) = (a - l.sum) + (b - l'.sum) by ring]
      exact (abs_add_le _ _).trans (by linarith)
    have e5 : |a + b| ≤ (1 + R.γ m) * ((l.map abs).sum + (l'.map abs).sum) := by
      have h1 := abs_sub_abs_le_abs_sub (a + b) (l.sum + l'.sum)
      have h2 := abs_add_le l.sum l'.sum
      linarith
    have e6 : |R.rnd (a + b) - (l.sum + l'.sum)| ≤ R.u * |a + b| + R.γ m * ((l.map abs).sum + (l'.map abs).sum) := by
      rw [show R.rnd (a + b) - (l.sum + l'.sum) = (R.rnd (a + b) - (a + b)) + (a + b - (l.sum + l'.sum)) by ring]
      exact (abs_add_le _ _).trans (add_le_add e3 e4)
    refine e6.trans ?_
    have e7 : R.γ (m + 1) = R.γ 1 * (1 + R.γ m) + R.γ m := by
      have := R.one_add_γ_add m 1
      linarith
    rw [e7]
    have e8 : R.u * |a + b| ≤ R.γ 1 * ((1 + R.γ m) * ((l.map abs).sum + (l'.map abs).sum)) :=
      mul_le_mul R.u_le_γ e5 (abs_nonneg _) (R.γ_nonneg 1)
    linarith
  | perm h hp ih => rwa [← hp.sum_eq, ← hp.length_eq, ← (hp.map abs).sum_eq]

/-- Error of a product. -/
theorem prodOf_rel {l : List ℝ} {r : ℝ} (h : ProdOf R l r) : R.Rel (l.length - 1) r l.prod := by
  induction h with
  | nil => simpa using Rel.refl (R := R) 1
  | one x => simpa using Rel.refl (R := R) x
  | @mul l l' a b hl hl' h1 h2 ih1 ih2 =>
    have n1 := List.length_pos_iff.mpr hl
    have n2 := List.length_pos_iff.mpr hl'
    rw [List.prod_append]
    exact ((Rel.rnd (a * b)).trans (ih1.mul ih2)).mono (by rw [List.length_append]; omega)
  | perm h hp ih => rwa [← hp.prod_eq, ← hp.length_eq]

/-- Error of an inner product. -/
theorem dotOf_err {l : List (ℝ × ℝ)} {r : ℝ} (h : DotOf R l r) :
    |r - (l.map fun p => p.1 * p.2).sum| ≤ R.γ l.length * (l.map fun p => |p.1 * p.2|).sum := by
  have nn : ∀ l : List (ℝ × ℝ), 0 ≤ (l.map fun p => |p.1 * p.2|).sum := fun l => List.sum_nonneg (by
    intro x hx
    obtain ⟨p, -, rfl⟩ := List.mem_map.mp hx
    exact abs_nonneg _)
  have ab : ∀ l : List (ℝ × ℝ), |(l.map fun p => p.1 * p.2).sum| ≤ (l.map fun p => |p.1 * p.2|).sum := fun l => by
    have := abs_list_sum_le (l.map fun p => p.1 * p.2)
    rwa [List.map_map] at this
  have step : ∀ (m : ℕ) (s S T : ℝ), |S| ≤ T → |s - S| ≤ R.γ m * T → |R.rnd s - S| ≤ R.γ (m + 1) * T := by
    intro m s S T h1 h2
    have e3 := R.err s
    have e5 : |s| ≤ (1 + R.γ m) * T := by
      have := abs_sub_abs_le_abs_sub s S
      linarith
    have e7 : R.γ (m + 1) = R.γ 1 * (1 + R.γ m) + R.γ m := by
      have := R.one_add_γ_add m 1
      linarith
    have e8 : R.u * |s| ≤ R.γ 1 * ((1 + R.γ m) * T) := mul_le_mul R.u_le_γ e5 (abs_nonneg _) (R.γ_nonneg 1)
    rw [show R.rnd s - S = (R.rnd s - s) + (s - S) by ring, e7]
    refine (abs_add_le _ _).trans ?_
    linarith
  induction h with
  | nil => simp
  | one x y =>
    have := step 0 (x * y) (x * y) |x * y| le_rfl (by simp [γ_zero])
    simpa using this
  | @add l l' a b hl hl' h1 h2 ih1 ih2 =>
    have n1 := List.length_pos_iff.mpr hl
    have n2 := List.length_pos_iff.mpr hl'
    rw [List.length_append, List.map_append, List.sum_append, List.map_append, List.sum_append]
    obtain ⟨m, hm⟩ : ∃ m, l.length + l'.length = m + 1 := ⟨l.length + l'.length - 1, by omega⟩
    rw [hm]
    refine step m _ _ _ ?_ ?_
    · exact (abs_add_le _ _).trans (add_le_add (ab l) (ab l'))
    · have e1 := ih1.trans (mul_le_mul_of_nonneg_right (R.γ_mono (by omega : l.length ≤ m)) (nn l))
      have e2 := ih2.trans (mul_le_mul_of_nonneg_right (R.γ_mono (by omega : l'.length ≤ m)) (nn l'))
      rw [add_sub_add_comm, mul_add]
      exact (abs_add_le _ _).trans (add_le_add e1 e2)
  | @fma l a x y hl h ih =>
    rw [List.length_cons, List.map_cons, List.sum_cons, List.map_cons, List.sum_cons]
    refine step l.length _ _ _ ?_ ?_
    · exact (abs_add_le _ _).trans (add_le_add le_rfl (ab l))
    · rw [add_sub_add_left_eq_sub, mul_add]
      have := mul_nonneg (R.γ_nonneg l.length) (abs_nonneg (x * y))
      simp only at this ih ⊢
      linarith
  | perm h hp ih => rwa [← (hp.map _).sum_eq, ← hp.length_eq, ← (hp.map _).sum_eq]

end Rounding

end CE
