import Verif.Num.Float
import Mathlib.Data.Int.Log
import Mathlib.Algebra.Order.Round
import Mathlib.Tactic.Linarith
import Mathlib.Tactic.Positivity
import Mathlib.Tactic.FieldSimp
import Mathlib.Tactic.Ring

/-!
# Rounding to the nearest number with `p` binary digits

An instance of the floating point arithmetic of `Float.lean` (without bounds for the exponent; ties are rounded upwards).
-/

namespace CE

/-- Exponent of the last digit of `x`. -/
noncomputable def ulpExp (p : ℕ) (x : ℝ) : ℤ := Int.log 2 |x| + 1 - p

/-- Rounding to the nearest number with `p` binary digits. -/
noncomputable def roundTo (p : ℕ) (x : ℝ) : ℝ := (round (x / 2 ^ ulpExp p x) : ℝ) * 2 ^ ulpExp p x

theorem two_zpow_pos (e : ℤ) : (0 : ℝ) < 2 ^ e := zpow_pos (by norm_num) e

theorem round_mono' {x y : ℝ} (h : x ≤ y) : round x ≤ round y := by
  rw [round_eq, round_eq]
  exact Int.floor_mono (by linarith)

theorem log_bounds {x : ℝ} (hx : x ≠ 0) : (2 : ℝ) ^ Int.log 2 |x| ≤ |x| ∧ |x| < 2 ^ (Int.log 2 |x| + 1) := by
  have h1 := Int.zpow_log_le_self (R := ℝ) (b := 2) (by norm_num) (abs_pos.mpr hx)
  have h2 := Int.lt_zpow_succ_log_self (R := ℝ) (b := 2) (by norm_num) |x|
  push_cast at h1 h2
  exact ⟨h1, h2⟩

theorem zpow_le_of_le {a b : ℤ} (h : a ≤ b) : (2 : ℝ) ^ a ≤ 2 ^ b := zpow_le_zpow_right₀ (by norm_num) h

/-- Numbers with at most `p` digits are not changed. -/
theorem roundTo_fix {p : ℕ} (hp : 1 ≤ p) (m e : ℤ) (hm : |m| ≤ 2 ^ p) : roundTo p ((m : ℝ) * 2 ^ e) = m * 2 ^ e := by
  by_cases h0 : m = 0
  · subst h0
    simp [roundTo]
  set x : ℝ := m * 2 ^ e with hx
  have hx0 : x ≠ 0 := mul_ne_zero (by exact_mod_cast h0) (two_zpow_pos e).ne'
  -- it suffices that the quotient is an integer
  have key : ∀ k : ℤ, x = k * 2 ^ ulpExp p x → roundTo p x = x := by
    intro k hk
    have : x / 2 ^ ulpExp p x = (k : ℝ) := by
      rw [div_eq_iff (two_zpow_pos _).ne']
      exact hk
    unfold roundTo
    rw [this, round_intCast]
    exact hk.symm
  have habs : |x| = (|m| : ℤ) * 2 ^ e := by
    rw [hx, abs_mul, abs_of_pos (two_zpow_pos e)]
    push_cast
    rfl
  have hle : |x| ≤ 2 ^ ((p : ℤ) + e) := by
    rw [habs, zpow_add₀ (by norm_num)]
    refine mul_le_mul_of_nonneg_right ?_ (two_zpow_pos e).le
    rw [zpow_natCast]
    exact_mod_cast hm
  rcases hle.lt_or_eq with hlt | heq
  · have h1 : Int.log 2 |x| < (p : ℤ) + e := by
      refine (Int.lt_zpow_iff_log_lt (R := ℝ) (b := 2) (by norm_num) (abs_pos.mpr hx0)).mp ?_
      push_cast
      exact hlt
    have h2 : 0 ≤ e - ulpExp p x := by unfold ulpExp; omega
    refine key (m * 2 ^ (e - ulpExp p x).toNat) ?_
    push_cast
    rw [← zpow_natCast, Int.toNat_of_nonneg h2, mul_assoc, ← zpow_add₀ (by norm_num), sub_add_cancel]
  · have h1 : Int.log 2 |x| = (p : ℤ) + e := by
      rw [heq]
      have := Int.log_zpow (R := ℝ) (b := 2) (by norm_num) ((p : ℤ) + e)
      push_cast at this
      exact this
    have h2 : ulpExp p x = e + 1 := by unfold ulpExp; omega
    have h3 : (|m| : ℤ) = 2 ^ p := by
      have h4 : ((|m| : ℤ) : ℝ) * 2 ^ e = 2 ^ p * 2 ^ e := by
        rw [← habs, heq, zpow_add₀ (by norm_num), zpow_natCast]
      have h5 := mul_right_cancel₀ (two_zpow_pos e).ne' h4
      exact_mod_cast h5
    rcases p with _ | p
    · omega
    · obtain ⟨k, hk⟩ : ∃ k : ℤ, m = 2 * k := by
        have : (2 : ℤ) ∣ |m| := by rw [h3, pow_succ]; exact Dvd.intro_left _ rfl
        rw [dvd_abs] at this
        exact this
      refine key k ?_
      rw [h2, hx, hk, zpow_add₀ (by norm_num)]
      push_cast
      ring

theorem roundTo_err {p : ℕ} (x : ℝ) : |roundTo p x - x| ≤ 1 / 2 ^ p * |x| := by
  by_cases hx : x = 0
  · subst hx
    simp [roundTo]
  have hE := two_zpow_pos (ulpExp p x)
  have h1 := abs_sub_round (x / 2 ^ ulpExp p x)
  have h2 : roundTo p x - x = -((x / 2 ^ ulpExp p x - round (x / 2 ^ ulpExp p x)) * 2 ^ ulpExp p x) := by
    unfold roundTo
    rw [sub_mul, div_mul_cancel₀ _ hE.ne']
    ring
  rw [h2, abs_neg, abs_mul, abs_of_pos hE]
  have h3 : (2 : ℝ) ^ ulpExp p x = 2 ^ Int.log 2 |x| * 2 / 2 ^ p := by
    unfold ulpExp
    rw [zpow_sub₀ (by norm_num), zpow_add₀ (by norm_num), zpow_one, zpow_natCast]
  refine (mul_le_mul_of_nonneg_right h1 hE.le).trans ?_
  rw [h3]
  have h4 := (log_bounds hx).1
  have h5 : (0 : ℝ) < 2 ^ p := by positivity
  rw [show (1 : ℝ) / 2 * (2 ^ Int.log 2 |x| * 2 / 2 ^ p) = 1 / 2 ^ p * 2 ^ Int.log 2 |x| by ring]
  exact mul_le_mul_of_nonneg_left h4 (by positivity)

/-- The scaled number lies between `2^(p-1)` and `2^p`. -/
theorem scaled_bounds {p : ℕ} {x : ℝ} (hx : x ≠ 0) (hp : 1 ≤ p) :
    ((2 ^ (p - 1) : ℤ) : ℝ) ≤ |x| / 2 ^ ulpExp p x ∧ |x| / 2 ^ ulpExp p x ≤ ((2 ^ p : ℤ) : ℝ) := by
  have hE := two_zpow_pos (ulpExp p x)
  obtain ⟨h1, h2⟩ := log_bounds hx
  push_cast
  constructor
  · rw [le_div_iff₀ hE, ← zpow_natCast, ← zpow_add₀ (by norm_num)]
    refine le_trans (zpow_le_of_le ?_) h1
    unfold ulpExp
    omega
  · rw [div_le_iff₀ hE, ← zpow_natCast, ← zpow_add₀ (by norm_num)]
    refine h2.le.trans (zpow_le_of_le ?_)
    unfold ulpExp
    omega

theorem roundTo_pos_bounds {p : ℕ} (hp : 1 ≤ p) {x : ℝ} (hx : 0 < x) :
    (2 : ℝ) ^ Int.log 2 |x| ≤ roundTo p x ∧ roundTo p x ≤ 2 ^ (Int.log 2 |x| + 1) := by
  have hE := two_zpow_pos (ulpExp p x)
  obtain ⟨h1, h2⟩ := scaled_bounds hx.ne' hp
  rw [abs_of_pos hx] at h1 h2
  have r1 := round_mono' h1
  have r2 := round_mono' h2
  rw [round_intCast] at r1 r2
  have r1' : ((2 : ℝ) ^ (p - 1)) ≤ round (x / 2 ^ ulpExp p x) := by exact_mod_cast r1
  have r2' : (round (x / 2 ^ ulpExp p x) : ℝ) ≤ 2 ^ p := by exact_mod_cast r2
  unfold roundTo
  constructor
  · refine le_trans (le_of_eq ?_) (mul_le_mul_of_nonneg_right r1' hE.le)
    rw [← zpow_natCast, ← zpow_add₀ (by norm_num)]
    congr 1
    unfold ulpExp
    omega
  · refine (mul_le_mul_of_nonneg_right r2' hE.le).trans (le_of_eq ?_)
    rw [← zpow_natCast, ← zpow_add₀ (by norm_num)]
    congr 1
    unfold ulpExp
    omega

theorem roundTo_neg_bounds {p : ℕ} (hp : 1 ≤ p) {x : ℝ} (hx : x < 0) :
    -(2 : ℝ) ^ (Int.log 2 |x| + 1) ≤ roundTo p x ∧ roundTo p x ≤ -2 ^ Int.log 2 |x| := by
  have hE := two_zpow_pos (ulpExp p x)
  obtain ⟨h1, h2⟩ := scaled_bounds hx.ne hp
  rw [abs_of_neg hx, neg_div] at h1 h2
  have r1 := round_mono' (x := x / 2 ^ ulpExp p x) (y := ((-2 ^ (p - 1) : ℤ) : ℝ)) (by push_cast at h1 ⊢; linarith)
  have r2 := round_mono' (x := ((-2 ^ p : ℤ) : ℝ)) (y := x / 2 ^ ulpExp p x) (by push_cast at h2 ⊢; linarith)
  rw [round_intCast] at r1 r2
  have r1' : (round (x / 2 ^ ulpExp p x) : ℝ) ≤ -(2 : ℝ) ^ (p - 1) := by exact_mod_cast r1
  have r2' : -(2 : ℝ) ^ p ≤ (round (x / 2 ^ ulpExp p x) : ℝ) := by exact_mod_cast r2
  unfold roundTo
  constructor
  · refine le_trans (le_of_eq ?_) (mul_le_mul_of_nonneg_right r2' hE.le)
    rw [neg_mul, ← zpow_natCast, ← zpow_add₀ (by norm_num)]
    congr 2
    unfold ulpExp
    omega
  · refine (mul_le_mul_of_nonneg_right r1' hE.le).trans (le_of_eq ?_)
    rw [neg_mul, ← zpow_natCast, ← zpow_add₀ (by norm_num)]
    congr 2
    unfold ulpExp
    omega

theorem roundTo_same {p : ℕ} {x y : ℝ} (h : Int.log 2 |x| = Int.log 2 |y|) (hxy : x ≤ y) : roundTo p x ≤ roundTo p y := by
  unfold roundTo ulpExp
  rw [h]
  have hE := two_zpow_pos (Int.log 2 |y| + 1 - p)
  refine mul_le_mul_of_nonneg_right ?_ hE.le
  exact_mod_cast round_mono' (div_le_div_of_nonneg_right hxy hE.le)

theorem roundTo_mono {p : ℕ} (hp : 1 ≤ p) : Monotone (roundTo p) := by
  intro x y hxy
  have h0 : roundTo p 0 = 0 := by simp [roundTo]
  have pos : ∀ z, 0 < z → 0 < roundTo p z := fun z hz => (two_zpow_pos _).trans_le (roundTo_pos_bounds hp hz).1
  have neg : ∀ z, z < 0 → roundTo p z < 0 := fun z hz =>
    (roundTo_neg_bounds hp hz).2.trans_lt (neg_neg_of_pos (two_zpow_pos _))
  rcases lt_trichotomy x 0 with hx | rfl | hx
  · rcases lt_trichotomy y 0 with hy | rfl | hy
    · have habs : |y| ≤ |x| := by rw [abs_of_neg hx, abs_of_neg hy]; linarith
      rcases (Int.log_mono_right (R := ℝ) (b := 2) (abs_pos.mpr hy.ne) habs).lt_or_eq with hl | he
      · refine (roundTo_neg_bounds hp hx).2.trans (le_trans ?_ (roundTo_neg_bounds hp hy).1)
        exact neg_le_neg (zpow_le_of_le (by omega))
      · exact roundTo_same he.symm hxy
    · rw [h0]; exact (neg x hx).le
    · exact ((neg x hx).trans (pos y hy)).le
  · rcases hxy.lt_or_eq with hy | rfl
    · rw [h0]; exact (pos y hy).le
    · exact le_rfl
  · have hy : 0 < y := hx.trans_le hxy
    have habs : |x| ≤ |y| := by rw [abs_of_pos hx, abs_of_pos hy]; exact hxy
    rcases (Int.log_mono_right (R := ℝ) (b := 2) (abs_pos.mpr hx.ne') habs).lt_or_eq with hl | he
    · exact (roundTo_pos_bounds hp hx).2.trans ((zpow_le_of_le (by omega)).trans (roundTo_pos_bounds hp hy).1)
    · exact roundTo_same he hxy

theorem roundTo_idem {p : ℕ} (hp : 1 ≤ p) (x : ℝ) : roundTo p (roundTo p x) = roundTo p x := by
  by_cases hx : x = 0
  · subst hx
    simp [roundTo]
  refine roundTo_fix hp (round (x / 2 ^ ulpExp p x)) (ulpExp p x) ?_
  obtain ⟨-, h2⟩ := scaled_bounds hx hp
  have hE := two_zpow_pos (ulpExp p x)
  rw [← abs_of_pos hE, ← abs_div, abs_le] at h2
  have r1 := round_mono' (x := ((-2 ^ p : ℤ) : ℝ)) (y := x / 2 ^ ulpExp p x) (by push_cast at h2 ⊢; exact h2.1)
  have r2 := round_mono' h2.2
  rw [round_intCast] at r1 r2
  exact abs_le.mpr ⟨r1, r2⟩

/-- Natural numbers up to `2^p` are not changed. -/
theorem roundTo_nat {p : ℕ} (hp : 1 ≤ p) {m : ℕ} (hm : m ≤ 2 ^ p) : roundTo p m = m := by
  have := roundTo_fix hp (m : ℤ) 0 (by rw [abs_of_nonneg (by positivity)]; exact_mod_cast hm)
  simpa using this

/-- The value is determined by the nearest multiple of the last digit. -/
theorem roundTo_eq {p : ℕ} {x : ℝ} (L m : ℤ) (h1 : (2 : ℝ) ^ L ≤ |x|) (h2 : |x| < 2 ^ (L + 1))
    (h3 : |x - m * 2 ^ (L + 1 - p)| < 2 ^ (L + 1 - p) / 2) : roundTo p x = m * 2 ^ (L + 1 - p) := by
  have hx : 0 < |x| := (two_zpow_pos L).trans_le h1
  have hL : Int.log 2 |x| = L := by
    have a1 := (Int.zpow_le_iff_le_log (R := ℝ) (b := 2) (by norm_num) hx).mp (by push_cast; exact h1)
    have a2 := (Int.lt_zpow_iff_log_lt (R := ℝ) (b := 2) (by norm_num) hx).mp (by push_cast; exact h2)
    omega
  have hE := two_zpow_pos (L + 1 - p)
  unfold roundTo ulpExp
  rw [hL]
  congr 2
  rw [round_eq, Int.floor_eq_iff]
  have h4 : |x / 2 ^ (L + 1 - (p : ℤ)) - m| < 1 / 2 := by
    rw [show x / 2 ^ (L + 1 - (p : ℤ)) - m = (x - m * 2 ^ (L + 1 - (p : ℤ))) / 2 ^ (L + 1 - (p : ℤ)) by
      rw [sub_div, mul_div_cancel_right₀ _ hE.ne'], abs_div, abs_of_pos hE, div_lt_iff₀ hE]
    linarith
  rw [abs_lt] at h4
  constructor <;> linarith [h4.1, h4.2]

/-- Floating point numbers with `p` binary digits; a number halfway between two of them is rounded up (IEEE 754 rounds it to the one with an
even last digit). -/
noncomputable def binary (p : ℕ) (hp : 1 ≤ p) : Rounding where
  rnd := roundTo p
  u := 1 / 2 ^ p
  u_nonneg := by positivity
  u_lt := by
    rw [div_lt_one (by positivity)]
    exact one_lt_pow₀ (by norm_num) (by omega)
  err := roundTo_err
  mono := roundTo_mono hp
  idem := roundTo_idem hp
  one := by simpa using roundTo_nat hp (m := 1) Nat.one_le_two_pow

/-- Exact arithmetic. -/
def exactRounding : Rounding where
  rnd := id
  u := 0
  u_nonneg := le_rfl
  u_lt := one_pos
  err x := by simp
  mono := monotone_id
  idem _ := rfl
  one := rfl

namespace Rounding

variable (R : Rounding)

/-- Reductions that take the elements one after the other. -/
noncomputable def seqSum : List ℝ → ℝ
  | [] => 0
  | [x] => x
  | x :: y :: l => R.rnd (x + seqSum (y :: l))

noncomputable def seqProd : List ℝ → ℝ
  | [] => 1
  | [x] => x
  | x :: y :: l => R.rnd (x * seqProd (y :: l))

noncomputable def seqDot : List (ℝ × ℝ) → ℝ
  | [] => 0
  | [x] => R.rnd (x.1 * x.2)
  | x :: y :: l => R.rnd (R.rnd (x.1 * x.2) + seqDot (y :: l))

theorem seqSum_spec : ∀ l, SumOf R l (R.seqSum l)
  | [] => .nil
  | [x] => .one x
  | x :: y :: l => SumOf.add (l := [x]) (l' := y :: l) (by simp) (by simp) (.one x) (seqSum_spec (y :: l))

theorem seqProd_spec : ∀ l, ProdOf R l (R.seqProd l)
  | [] => .nil
  | [x] => .one x
  | x :: y :: l => ProdOf.mul (l := [x]) (l' := y :: l) (by simp) (by simp) (.one x) (seqProd_spec (y :: l))

theorem seqDot_spec : ∀ l, DotOf R l (R.seqDot l)
  | [] => .nil
  | [x] => .one x.1 x.2
  | x :: y :: l => DotOf.add (l := [x]) (l' := y :: l) (by simp) (by simp) (.one x.1 x.2) (seqDot_spec (y :: l))

/-- Floating point arithmetic with sequential reductions. -/
noncomputable def seq : Flt where
  toRounding := R
  sum := R.seqSum
  sum_spec := R.seqSum_spec
  prod := R.seqProd
  prod_spec := R.seqProd_spec
  dot A B i j := R.seqDot ((List.range A.cols).map fun k => (A.e i k, B.e k j))
  dot_spec _ _ _ _ := R.seqDot_spec _

end Rounding

/-- Double precision, without bounds for the exponent. -/
noncomputable def double : Flt := (binary 53 (by norm_num)).seq

end CE
