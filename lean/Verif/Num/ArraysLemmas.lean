import Verif.Num.Arrays
import Mathlib.Algebra.Order.BigOperators.Group.Finset
import Mathlib.Tactic.Linarith

/-! Lemmas about the numpy primitives. -/

namespace CE

variable {K : Type*}

/-- On an array whose elements satisfy `before` exactly up to position `m`, binary search finds `m`. -/
theorem binSearch_eq [Zero K] (before : K → Bool) (a : List K) (m : ℕ) :
    ∀ (n lo hi : ℕ), hi - lo ≤ n → lo ≤ m → m ≤ hi →
      (∀ i, lo ≤ i → i < hi → (before (nd a i) = true ↔ i < m)) → binSearch before a lo hi = m := by
  intro n
  induction n with
  | zero =>
    intro lo hi hn h1 h2 _
    unfold binSearch
    rw [dif_neg (by omega)]
    omega
  | succ n ih =>
    intro lo hi hn h1 h2 hb
    unfold binSearch
    by_cases h : lo < hi
    · rw [dif_pos h]
      simp only
      have hmid := hb (lo + (hi - lo) / 2) (by omega) (by omega)
      by_cases hm : before (nd a (lo + (hi - lo) / 2)) = true
      · rw [if_pos hm]
        have := hmid.mp hm
        exact ih _ _ (by omega) (by omega) h2 (fun i hi1 hi2 => hb i (by omega) hi2)
      · rw [if_neg hm]
        have : ¬ (lo + (hi - lo) / 2 < m) := fun hc => hm (hmid.mpr hc)
        exact ih _ _ (by omega) h1 (by omega) (fun i hi1 hi2 => hb i hi1 (by omega))
    · rw [dif_neg h]; omega

/-- Strictly ascending (spec vocabulary used throughout). -/
def Ascending [Zero K] [LT K] (t : List K) : Prop := ∀ i, i + 1 < t.length → nd t i < nd t (i + 1)

theorem Ascending.lt [Zero K] [LinearOrder K] {t : List K} (h : Ascending t) {i j : ℕ} (hij : i < j)
    (hj : j < t.length) : nd t i < nd t j := by
  induction j with
  | zero => omega
  | succ j ih =>
    rcases Nat.lt_or_ge i j with h1 | h1
    · exact lt_trans (ih h1 (by omega)) (h j hj)
    · have : i = j := by omega
      subst this; exact h i hj

theorem Ascending.le [Zero K] [LinearOrder K] {t : List K} (h : Ascending t) {i j : ℕ} (hij : i ≤ j)
    (hj : j < t.length) : nd t i ≤ nd t j := by
  rcases Nat.lt_or_eq_of_le hij with h1 | h1
  · exact (h.lt h1 hj).le
  · subst h1; exact le_rfl

theorem Ascending.lt_iff [Zero K] [LinearOrder K] {t : List K} (h : Ascending t) {i j : ℕ}
    (hi : i < t.length) (hj : j < t.length) : nd t i < nd t j ↔ i < j := by
  constructor
  · intro hlt
    by_contra hc
    exact absurd (h.le (Nat.le_of_not_lt hc) hi) (not_le.mpr hlt)
  · intro hij; exact h.lt hij hj

theorem Ascending.nodup [Zero K] [LinearOrder K] {t : List K} (h : Ascending t) : t.Nodup := by
  rw [List.nodup_iff_pairwise_ne, List.pairwise_iff_getElem]
  intro i j hi hj hij
  have := h.lt hij hj
  simp only [nd, List.getD_eq_getElem?_getD, List.getElem?_eq_getElem hi,
    List.getElem?_eq_getElem hj, Option.getD_some] at this
  exact this.ne

/-- `x` lies in interval `n` of the grid `t`, intervals closed on the left; the first and the last interval extend to
infinity. -/
def InRight [Zero K] [LinearOrder K] (t : List K) (n : ℕ) (x : K) : Prop :=
  n + 1 < t.length ∧ (n = 0 ∨ nd t n ≤ x) ∧ (n + 2 = t.length ∨ x < nd t (n + 1))

/-- The same with intervals closed on the right. -/
def InLeft [Zero K] [LinearOrder K] (t : List K) (n : ℕ) (x : K) : Prop :=
  n + 1 < t.length ∧ (n = 0 ∨ nd t n < x) ∧ (n + 2 = t.length ∨ x ≤ nd t (n + 1))

/-- Interval membership for either convention. -/
def InSide [Zero K] [LinearOrder K] (s : Side) (t : List K) (n : ℕ) (x : K) : Prop :=
  match s with
  | .left => InLeft t n x
  | .right => InRight t n x

/-- Insertion point of a sorted array. -/
theorem searchsorted_eq [Zero K] [LinearOrder K] {a : List K} (h : Ascending a) (v : K) (s : Side)
    {m : ℕ} (hm : m ≤ a.length)
    (hb : ∀ i, i < a.length → ((match s with | .left => nd a i < v | .right => nd a i ≤ v) ↔ i < m)) :
    searchsorted a v s = m := by
  have _ := h
  cases s with
  | left =>
    exact binSearch_eq _ a m _ 0 a.length le_rfl (Nat.zero_le _) hm
      (fun i _ hi => by simpa using hb i hi)
  | right =>
    exact binSearch_eq _ a m _ 0 a.length le_rfl (Nat.zero_le _) hm
      (fun i _ hi => by simpa using hb i hi)

/-- The interval index computed by the code is the interval containing the point. -/
theorem clip_searchsorted [Zero K] [LinearOrder K] {t : List K} (h : Ascending t) (s : Side) {n : ℕ}
    {x : K} (hn : InSide s t n x) :
    npClip ((searchsorted t x s : ℤ) - 1) 0 ((t.length : ℤ) - 2) = n := by
  -- monotone predicate
  have hmono : ∀ P : ℕ → Prop, (∀ i j, i ≤ j → j < t.length → P j → P i) →
      ∃ m ≤ t.length, ∀ i < t.length, (P i ↔ i < m) := by
    intro P hP
    classical
    by_cases hall : ∀ i < t.length, P i
    · exact ⟨t.length, le_rfl, fun i hi => ⟨fun _ => hi, fun _ => hall i hi⟩⟩
    · push Not at hall
      let m := Nat.find hall
      obtain ⟨hm1, hm2⟩ := Nat.find_spec hall
      refine ⟨m, hm1.le, fun i hi => ⟨fun hPi => ?_, fun him => ?_⟩⟩
      · by_contra hc
        exact hm2 (hP m i (Nat.le_of_not_lt hc) hi hPi)
      · by_contra hPi
        exact Nat.find_min hall him ⟨hi, hPi⟩
  cases s with
  | right =>
    obtain ⟨h1, h2, h3⟩ := hn
    obtain ⟨m, hm, hP⟩ := hmono (fun i => nd t i ≤ x) (fun i j hij hj hp => (h.le hij hj).trans hp)
    rw [searchsorted_eq h x .right hm hP]
    have ha : n = 0 ∨ n < m := h2.imp id (fun hx => (hP n (by omega)).mp hx)
    have hb : n + 2 = t.length ∨ m ≤ n + 1 := h3.imp id (fun hx => by
      by_contra hc
      exact absurd ((hP (n+1) h1).mpr (by omega)) (not_le.mpr hx))
    unfold npClip; omega
  | left =>
    obtain ⟨h1, h2, h3⟩ := hn
    obtain ⟨m, hm, hP⟩ := hmono (fun i => nd t i < x) (fun i j hij hj hp => lt_of_le_of_lt (h.le hij hj) hp)
    rw [searchsorted_eq h x .left hm hP]
    have ha : n = 0 ∨ n < m := h2.imp id (fun hx => (hP n (by omega)).mp hx)
    have hb : n + 2 = t.length ∨ m ≤ n + 1 := h3.imp id (fun hx => by
      by_contra hc
      exact absurd ((hP (n+1) h1).mpr (by omega)) (not_lt.mpr hx))
    unfold npClip; omega

/-- Every point lies in some interval. -/
theorem exists_inSide [Zero K] [LinearOrder K] {t : List K} (h2 : 2 ≤ t.length) (s : Side) (x : K) :
    ∃ n, InSide s t n x := by
  classical
  -- the first n such that n+2 = length or x is before t[n+1]
  have hex : ∃ n, n + 2 = t.length ∨ (match s with | .left => x ≤ nd t (n+1) | .right => x < nd t (n+1)) :=
    ⟨t.length - 2, Or.inl (by omega)⟩
  have hs := Nat.find_spec hex
  have hlen : Nat.find hex + 1 < t.length := by
    have : Nat.find hex ≤ t.length - 2 := Nat.find_min' hex (Or.inl (by omega))
    omega
  refine ⟨Nat.find hex, ?_⟩
  have hlow : Nat.find hex = 0 ∨
      (match s with | .left => nd t (Nat.find hex) < x | .right => nd t (Nat.find hex) ≤ x) := by
    rcases Nat.eq_zero_or_pos (Nat.find hex) with h0 | h0
    · exact Or.inl h0
    · right
      have := Nat.find_min hex (m := Nat.find hex - 1) (by omega)
      rw [show Nat.find hex - 1 + 1 = Nat.find hex by omega] at this
      push Not at this
      cases s <;> simpa using this.2
  cases s with
  | left => exact ⟨hlen, by simpa using hlow, by simpa using hs⟩
  | right => exact ⟨hlen, by simpa using hlow, by simpa using hs⟩

/-- The interval is unique. -/
theorem inSide_unique [Zero K] [LinearOrder K] {t : List K} (h : Ascending t) {s : Side} {n m : ℕ} {x : K}
    (hn : InSide s t n x) (hm : InSide s t m x) : n = m := by
  have h1 := clip_searchsorted h s hn
  have h2 := clip_searchsorted h s hm
  have := h1.symm.trans h2
  exact_mod_cast this

/-! ### horizontal stacking -/

/-- Offset of block `n`. -/
def off {α : Type*} (len : α → ℕ) (l : List α) (n : ℕ) : ℕ := ((l.take n).map len).sum

theorem off_zero {α : Type*} (len : α → ℕ) (l : List α) : off len l 0 = 0 := by simp [off]

theorem off_succ {α : Type*} (len : α → ℕ) (l : List α) {n : ℕ} (h : n < l.length) :
    off len l (n + 1) = off len l n + len l[n] := by
  unfold off
  rw [List.take_add_one, List.getElem?_eq_getElem h, List.map_append, List.sum_append]
  simp only [Option.toList_some, List.map_cons, List.map_nil, List.sum_cons, List.sum_nil,
    Nat.add_zero]

theorem off_cons {α : Type*} (len : α → ℕ) (a : α) (l : List α) (n : ℕ) :
    off len (a :: l) (n + 1) = len a + off len l n := by
  simp [off]

theorem hcat_cols [Zero K] (R : ℕ) (l : List (Mat K)) : (Mat.hcat R l).cols = off Mat.cols l l.length := by
  induction l with
  | nil => rfl
  | cons A l ih => rw [List.length_cons, off_cons, ← ih]; rfl

theorem hcat_rows [Zero K] (R : ℕ) (l : List (Mat K)) : (Mat.hcat R l).rows = R := by
  cases l <;> rfl

theorem hcat_e [Zero K] (R : ℕ) (l : List (Mat K)) {n : ℕ} (hn : n < l.length) {j : ℕ}
    (hj : j < (l[n]).cols) (i : ℕ) : (Mat.hcat R l).e i (off Mat.cols l n + j) = (l[n]).e i j := by
  induction l generalizing n with
  | nil => simp at hn
  | cons A l ih =>
    cases n with
    | zero =>
      rw [off_zero, Nat.zero_add]
      simp only [List.getElem_cons_zero] at hj ⊢
      exact if_pos hj
    | succ n =>
      rw [off_cons]
      simp only [List.getElem_cons_succ] at hj ⊢
      have := ih (by simpa using hn) hj
      rw [← this]
      show (if _ then _ else _) = _
      rw [if_neg (by omega)]
      congr 1; omega

theorem hstack_ok [Zero K] {l : List (Mat K)} (hne : l ≠ []) {R : ℕ} (h : ∀ A ∈ l, A.rows = R) :
    hstack l = .ok (Mat.hcat R l) := by
  cases l with
  | nil => exact absurd rfl hne
  | cons A l =>
    have hA : A.rows = R := h A (by simp)
    simp only [hstack]
    rw [if_pos, hA]
    rw [List.all_eq_true]
    intro B hB
    simp [hA, h B (by simp [hB])]

theorem flatten_length {α : Type*} (l : List (List α)) : l.flatten.length = off List.length l l.length := by
  simp [off, List.length_flatten]

theorem nd_flatten [Zero K] (l : List (List K)) {n : ℕ} (hn : n < l.length) {j : ℕ}
    (hj : j < (l[n]).length) : nd l.flatten (off List.length l n + j) = nd l[n] j := by
  induction l generalizing n with
  | nil => simp at hn
  | cons A l ih =>
    cases n with
    | zero =>
      rw [off_zero, Nat.zero_add]
      simp only [List.getElem_cons_zero] at hj ⊢
      simp [nd, List.getD_eq_getElem?_getD, List.getElem?_append_left hj]
    | succ n =>
      rw [off_cons]
      simp only [List.getElem_cons_succ] at hj ⊢
      rw [← ih (by simpa using hn) hj]
      simp only [nd, List.getD_eq_getElem?_getD, List.flatten_cons]
      rw [List.getElem?_append_right (by omega)]
      congr 2; omega

/-- Every position below the total length lies in a block. -/
theorem exists_block {α : Type*} (len : α → ℕ) (l : List α) {k : ℕ} (hk : k < off len l l.length) :
    ∃ (n : ℕ) (hn : n < l.length), off len l n ≤ k ∧ k < off len l n + len l[n] := by
  induction l generalizing k with
  | nil => simp [off] at hk
  | cons a l ih =>
    by_cases h : k < len a
    · exact ⟨0, by simp, by simp [off_zero], by simpa [off_zero] using h⟩
    · rw [List.length_cons, off_cons] at hk
      obtain ⟨n, hn, h1, h2⟩ := ih (k := k - len a) (by omega)
      refine ⟨n + 1, by simpa using hn, ?_, ?_⟩
      · rw [off_cons]; omega
      · rw [off_cons]; simp only [List.getElem_cons_succ]; omega

theorem pyIndex_nat {α : Type*} {l : List α} {n : ℕ} (h : n < l.length) :
    pyIndex l (n : ℤ) = .ok l[n] := by
  unfold pyIndex
  simp only [show ¬ ((n : ℤ) < 0) by omega, ↓reduceIte, Int.toNat_natCast, List.getElem?_eq_getElem h]

theorem pyIndex_last {α : Type*} (l : List α) (hne : l ≠ []) : pyIndex l (-1) = .ok (l.getLast hne) := by
  have hpos : 0 < l.length := List.length_pos_iff.mpr hne
  unfold pyIndex
  simp only [show (-1 : ℤ) < 0 by omega, ↓reduceIte]
  rw [if_neg (by omega), show ((-1 : ℤ) + (l.length : ℤ)).toNat = l.length - 1 by omega,
    List.getElem?_eq_getElem (by omega), List.getLast_eq_getElem]

end CE
