import Verif.Struct.PrefixText
import Verif.Struct.PropsText
import Verif.Struct.PropsPrefix
import Verif.Struct.PropsRepeat

/-! # C135: the text of a prefix -/

namespace CE.St

/-! ## Splitting texts -/

theorem int_split {i j : ℤ} {r r' : List Char} (hr : Begins (·.isDigit = false) r) (hr' : Begins (·.isDigit = false) r')
    (h : (Int.repr i).toList ++ r = (Int.repr j).toList ++ r') : i = j ∧ r = r' := by
  have key : ∀ (m n : ℕ) (r r' : List Char), (Int.repr (Int.ofNat m)).toList ++ r = (Int.repr (Int.negSucc n)).toList ++ r' → False := by
    intro m n r r' h
    obtain ⟨c, l, h1, h2⟩ := begins_repr m r
    simp only [Int.repr, String.toList_append, List.append_assoc] at h
    rw [h1] at h
    have h : c :: l = '-' :: ((n + 1).repr.toList ++ r') := h
    rw [(List.cons.inj h).1] at h2
    exact absurd h2 (by decide)
  match i, j with
  | .ofNat m, .ofNat n =>
    obtain ⟨h1, h2⟩ := repr_split hr hr' h
    exact ⟨by rw [h1], h2⟩
  | .ofNat m, .negSucc n => exact (key m n r r' h).elim
  | .negSucc m, .ofNat n => exact (key n m r' r h.symm).elim
  | .negSucc m, .negSucc n =>
    simp only [Int.repr, String.toList_append, List.append_assoc] at h
    obtain ⟨h1, h2⟩ := repr_split hr hr' (List.append_cancel_left h)
    exact ⟨by rw [Nat.succ.inj h1], h2⟩

theorem int_head (i : ℤ) (r : List Char) : ∃ c l, (Int.repr i).toList ++ r = c :: l ∧ (c.isDigit = true ∨ c = '-') := by
  match i with
  | .ofNat m =>
    obtain ⟨c, l, h1, h2⟩ := begins_repr m r
    exact ⟨c, l, h1, .inl h2⟩
  | .negSucc n =>
    simp only [Int.repr, String.toList_append, List.append_assoc]
    exact ⟨'-', _, rfl, .inr rfl⟩

/-- A name that is printed without escapes. -/
def PlainKey : Key → Prop
  | .str s => '\'' ∉ s.toList
  | .int _ => True

/-- The characters that follow an element. -/
theorem stop_noDigit {stop : Char} (hs : stop.isDigit = false) {r : List Char} (h : Begins (fun c => c = ',' ∨ c = stop) r) :
    Begins (·.isDigit = false) r := by
  intro c hc
  rcases h c hc with rfl | rfl
  exacts [rfl, hs]

theorem key_head (k : Key) (r : List Char) : ∃ c l, k.repr.toList ++ r = c :: l ∧ (c = '\'' ∨ c.isDigit = true ∨ c = '-') := by
  cases k with
  | str s =>
    obtain ⟨l, hl⟩ := quoted_head s r
    exact ⟨_, l, hl, .inl rfl⟩
  | int i =>
    obtain ⟨c, l, h1, h2⟩ := int_head i r
    exact ⟨c, l, h1, .inr h2⟩

theorem key_split {a b : Key} (ha : PlainKey a) (hb : PlainKey b) {r r' : List Char} (hr : Begins (·.isDigit = false) r)
    (hr' : Begins (·.isDigit = false) r') (h : a.repr.toList ++ r = b.repr.toList ++ r') : a = b ∧ r = r' := by
  have key : ∀ (s : String) (i : ℤ) (r r' : List Char), (quoted s).toList ++ r = (Int.repr i).toList ++ r' → False := by
    intro s i r r' h
    obtain ⟨l, hl⟩ := quoted_head s r
    obtain ⟨c, l', h1, h2⟩ := int_head i r'
    rw [hl, h1] at h
    rw [← (List.cons.inj h).1] at h2
    exact absurd h2 (by decide)
  cases a with
  | str s =>
    cases b with
    | str s' =>
      obtain ⟨h1, h2⟩ := quoted_split ha hb h
      exact ⟨by rw [h1], h2⟩
    | int i => exact (key s i r r' h).elim
  | int i =>
    cases b with
    | str s => exact (key s i r' r h.symm).elim
    | int j =>
      obtain ⟨h1, h2⟩ := int_split hr hr' h
      exact ⟨by rw [h1], h2⟩

theorem key_not {stop : Char} (h1 : stop ≠ '\'') (h2 : stop.isDigit = false) (h3 : stop ≠ '-') (k : Key) (r : List Char) :
    ¬ ∃ r', k.repr.toList ++ r = stop :: r' := by
  rintro ⟨r', h⟩
  obtain ⟨c, l, e1, e2⟩ := key_head k r
  rw [e1] at h
  rw [(List.cons.inj h).1] at e2
  rcases e2 with e | e | e
  exacts [h1 e, by rw [h2] at e; exact absurd e (by decide), h3 e]

/-- A tuple of texts that can be split off from what follows. -/
theorem tupleOf_split {α : Type} {f : α → String} {a b : List α}
    (hf : ∀ x ∈ a, ∀ y ∈ b, ∀ r r', Begins (fun c => c = ',' ∨ c = ')') r → Begins (fun c => c = ',' ∨ c = ')') r' →
      (f x).toList ++ r = (f y).toList ++ r' → x = y ∧ r = r')
    (hh : ∀ x ∈ a, ∀ r, ¬ ∃ r', (f x).toList ++ r = ')' :: r') (hh' : ∀ x ∈ b, ∀ r, ¬ ∃ r', (f x).toList ++ r = ')' :: r')
    {r r' : List Char} (h : (tupleOf (a.map f)).toList ++ r = (tupleOf (b.map f)).toList ++ r') : a = b ∧ r = r' := by
  have hform : ∀ l : List α, l.length ≠ 1 → tupleOf (l.map f) = "(" ++ joinWith ", " (l.map f) ++ ")" := by
    intro l hl
    match l, hl with
    | [], _ => rfl
    | _ :: _ :: _, _ => rfl
  have hc : ∀ l : List Char, Begins (fun c => c = ',' ∨ c = ')') (',' :: l) := fun l => begins_cons.2 (.inl rfl)
  by_cases h1 : a.length = 1
  · obtain ⟨x, rfl⟩ := List.length_eq_one_iff.1 h1
    by_cases h2 : b.length = 1
    · obtain ⟨y, rfl⟩ := List.length_eq_one_iff.1 h2
      simp only [List.map_cons, List.map_nil, tupleOf, String.toList_append, List.append_assoc] at h
      obtain ⟨h3, h4⟩ := hf x List.mem_cons_self y List.mem_cons_self (",)".toList ++ r) (",)".toList ++ r') (hc _) (hc _)
        (List.append_cancel_left h)
      exact ⟨by rw [h3], List.append_cancel_left h4⟩
    · exfalso
      rw [hform b h2] at h
      simp only [List.map_cons, List.map_nil, tupleOf, String.toList_append, List.append_assoc] at h
      have h := List.append_cancel_left h
      match b, h2 with
      | [], _ => exact hh x List.mem_cons_self _ ⟨_, h⟩
      | y :: z :: b, _ =>
        simp only [List.map_cons, joinWith_cons, String.toList_append, List.append_assoc] at h
        obtain ⟨-, h2⟩ := hf x List.mem_cons_self y List.mem_cons_self _ _ (hc _) (hc _) h
        have h2 : ',' :: ')' :: r = ',' :: ' ' :: _ := h2
        exact absurd (List.cons.inj (List.cons.inj h2).2).1 (by decide)
  · by_cases h2 : b.length = 1
    · exfalso
      obtain ⟨y, rfl⟩ := List.length_eq_one_iff.1 h2
      rw [hform a h1] at h
      simp only [List.map_cons, List.map_nil, tupleOf, String.toList_append, List.append_assoc] at h
      have h := List.append_cancel_left h
      match a, h1 with
      | [], _ => exact hh' y List.mem_cons_self _ ⟨_, h.symm⟩
      | x :: z :: a, _ =>
        simp only [List.map_cons, joinWith_cons, String.toList_append, List.append_assoc] at h
        obtain ⟨-, h2⟩ := hf x List.mem_cons_self y List.mem_cons_self _ _ (hc _) (hc _) h
        have h2 : ',' :: ' ' :: _ = ',' :: ')' :: r' := h2
        exact absurd (List.cons.inj (List.cons.inj h2).2).1 (by decide)
    · rw [hform a h1, hform b h2] at h
      simp only [String.toList_append, List.append_assoc] at h
      obtain ⟨h3, h4⟩ := join_split (R := Eq) (sep := ", ") (s := [' ']) rfl (stop := ')') (by decide) hf hh hh'
        (List.append_cancel_left h)
      exact ⟨List.forall₂_eq_eq_eq ▸ h3, h4⟩

theorem keys_split {a b : List Key} (ha : ∀ k ∈ a, PlainKey k) (hb : ∀ k ∈ b, PlainKey k) {r r' : List Char}
    (h : (tupleOf (a.map Key.repr)).toList ++ r = (tupleOf (b.map Key.repr)).toList ++ r') : a = b ∧ r = r' :=
  tupleOf_split (fun x hx y hy _ _ hr hr' h => key_split (ha x hx) (hb y hy) (stop_noDigit rfl hr) (stop_noDigit rfl hr') h)
    (fun x _ => key_not (by decide) rfl (by decide) x) (fun x _ => key_not (by decide) rfl (by decide) x) h

theorem opt_split {a b : Option ℤ} {r r' : List Char} (hr : Begins (·.isDigit = false) r) (hr' : Begins (·.isDigit = false) r')
    (h : (optText a).toList ++ r = (optText b).toList ++ r') : a = b ∧ r = r' := by
  have key : ∀ (i : ℤ) (r r' : List Char), "None".toList ++ r = (Int.repr i).toList ++ r' → False := by
    intro i r r' h
    obtain ⟨c, l', h1, h2⟩ := int_head i r'
    rw [h1] at h
    have h : 'N' :: _ = c :: l' := h
    rw [← (List.cons.inj h).1] at h2
    exact absurd h2 (by decide)
  cases a with
  | none =>
    cases b with
    | none => exact ⟨rfl, List.append_cancel_left h⟩
    | some j => exact (key j r r' h).elim
  | some i =>
    cases b with
    | none => exact (key i r' r h.symm).elim
    | some j =>
      obtain ⟨h1, h2⟩ := int_split hr hr' h
      exact ⟨by rw [h1], h2⟩

/-- Elements of a power index whose text is determined and that contain no names with quotes. -/
def PlainIdx {F : Type} : PIdx F → Prop
  | .str s => '\'' ∉ s.toList
  | .int _ | .slice _ _ _ | .ellipsis | .dict => True
  | .list l | .indexf l | .index l => ∀ k ∈ l, PlainKey k
  | .set l => ∀ s ∈ l, '\'' ∉ s.toList
  | .fn _ | .nesteddict | .mat _ => False

/-- The kind of an element of a power index. -/
def PIdx.kind {F : Type} : PIdx F → ℕ
  | .str _ => 0
  | .int _ => 1
  | .slice _ _ _ => 2
  | .list _ => 3
  | .ellipsis => 4
  | .dict => 5
  | .set [] => 6
  | .set _ => 7
  | .indexf _ => 8
  | .index _ => 9
  | .fn _ | .nesteddict | .mat _ => 10

/-- The kind of the element with which a text begins. -/
def kindOf : List Char → ℕ
  | '\'' :: _ => 0
  | 's' :: 'l' :: _ => 2
  | '[' :: _ => 3
  | 'E' :: _ => 4
  | '{' :: '}' :: _ => 5
  | 's' :: 'e' :: _ => 6
  | '{' :: '\'' :: _ => 7
  | 'F' :: _ => 8
  | 'I' :: _ => 9
  | _ => 1

theorem kindOf_repr {F : Type} (other : PIdx F → String) (p : PIdx F) (hp : PlainIdx p) (r : List Char) :
    kindOf ((p.repr other).toList ++ r) = p.kind := by
  cases p with
  | str s =>
    obtain ⟨l, hl⟩ := quoted_head s r
    rw [PIdx.repr, hl]
    rfl
  | int i =>
    obtain ⟨c, l, h1, h2⟩ := int_head i r
    rw [PIdx.repr, h1]
    unfold kindOf
    split
    case h_10 => rfl
    all_goals
      rename_i heq
      rw [(List.cons.inj heq).1] at h2
      exact absurd h2 (by decide)
  | slice a b c => simp only [PIdx.repr, String.toList_append, List.append_assoc]; rfl
  | list l => simp only [PIdx.repr, listText, String.toList_append, List.append_assoc]; rfl
  | ellipsis => simp only [PIdx.repr]; rfl
  | dict => simp only [PIdx.repr]; rfl
  | set l =>
    cases l with
    | nil => simp only [PIdx.repr]; rfl
    | cons a l =>
      have : ∃ l', (joinWith ", " ((a :: l).map quoted)).toList ++ ("}".toList ++ r) = '\'' :: l' := by
        cases l with
        | nil => exact quoted_head a _
        | cons b l =>
          simp only [List.map_cons, joinWith_cons, String.toList_append, List.append_assoc]
          exact quoted_head a _
      obtain ⟨l', hl'⟩ := this
      simp only [PIdx.repr, String.toList_append, List.append_assoc, hl']
      rfl
  | indexf arg => simp only [PIdx.repr, delegaterText, String.toList_append, List.append_assoc]; rfl
  | index arg => simp only [PIdx.repr, delegaterText, String.toList_append, List.append_assoc]; rfl
  | fn _ => exact hp.elim
  | nesteddict => exact hp.elim
  | mat _ => exact hp.elim

theorem delegater_split {cls : String} {a b : List Key} (ha : ∀ k ∈ a, PlainKey k) (hb : ∀ k ∈ b, PlainKey k) {r r' : List Char}
    (h : (delegaterText cls a).toList ++ r = (delegaterText cls b).toList ++ r') : a = b ∧ r = r' := by
  simp only [delegaterText, String.toList_append, List.append_assoc] at h
  obtain ⟨h1, h2⟩ := keys_split ha hb (List.append_cancel_left (List.append_cancel_left h))
  exact ⟨h1, List.append_cancel_left h2⟩

theorem idx_split {F : Type} (other : PIdx F → String) {p q : PIdx F} (hp : PlainIdx p) (hq : PlainIdx q) {r r' : List Char}
    (hr : Begins (·.isDigit = false) r) (hr' : Begins (·.isDigit = false) r')
    (h : (p.repr other).toList ++ r = (q.repr other).toList ++ r') : p = q ∧ r = r' := by
  have hk : p.kind = q.kind := by rw [← kindOf_repr other p hp r, ← kindOf_repr other q hq r', h]
  have hset : ∀ {a b : List String}, (∀ s ∈ a, '\'' ∉ s.toList) → (∀ s ∈ b, '\'' ∉ s.toList) →
      (joinWith ", " (a.map quoted)).toList ++ '}' :: r = (joinWith ", " (b.map quoted)).toList ++ '}' :: r' → a = b ∧ r = r' := by
    intro a b ha hb h
    have hh : ∀ (s : String) (r : List Char), ¬ ∃ r', (quoted s).toList ++ r = '}' :: r' := by
      rintro s r ⟨r', h⟩
      obtain ⟨l, hl⟩ := quoted_head s r
      rw [hl] at h
      exact absurd (List.cons.inj h).1 (by decide)
    obtain ⟨h3, h4⟩ := join_split (R := Eq) (sep := ", ") (s := [' ']) rfl (stop := '}') (by decide)
      (fun x hx y hy r r' _ _ h => quoted_split (ha x hx) (hb y hy) h) (fun x _ => hh x) (fun x _ => hh x) h
    exact ⟨List.forall₂_eq_eq_eq ▸ h3, h4⟩
  cases p with
  | str s =>
    cases q with
    | str s' =>
      obtain ⟨h1, h2⟩ := quoted_split hp hq h
      exact ⟨by rw [h1], h2⟩
    | set l => cases l <;> cases hk
    | _ => cases hk
  | int i =>
    cases q with
    | int j =>
      obtain ⟨h1, h2⟩ := int_split hr hr' h
      exact ⟨by rw [h1], h2⟩
    | set l => cases l <;> cases hk
    | _ => cases hk
  | slice a b c =>
    cases q with
    | slice a' b' c' =>
      simp only [PIdx.repr, String.toList_append, List.append_assoc] at h
      have hc : ∀ l : List Char, Begins (·.isDigit = false) (", ".toList ++ l) := fun l => begins_cons.2 rfl
      have hb : ∀ l : List Char, Begins (·.isDigit = false) (")".toList ++ l) := fun l => begins_cons.2 rfl
      obtain ⟨h1, h⟩ := opt_split (hc _) (hc _) (List.append_cancel_left h)
      obtain ⟨h2, h⟩ := opt_split (hc _) (hc _) (List.append_cancel_left h)
      obtain ⟨h3, h⟩ := opt_split (hb _) (hb _) (List.append_cancel_left h)
      exact ⟨by rw [h1, h2, h3], List.append_cancel_left h⟩
    | set l => cases l <;> cases hk
    | _ => cases hk
  | list l =>
    cases q with
    | list l' =>
      obtain ⟨h1, h2⟩ := listText_split (f := Key.repr)
        (fun x hx y hy _ _ hr hr' h => key_split (hp x hx) (hq y hy) (stop_noDigit rfl hr) (stop_noDigit rfl hr') h)
        (fun x _ => key_not (by decide) rfl (by decide) x) (fun x _ => key_not (by decide) rfl (by decide) x) h
      exact ⟨by rw [h1], h2⟩
    | set l => cases l <;> cases hk
    | _ => cases hk
  | ellipsis =>
    cases q with
    | ellipsis => exact ⟨rfl, List.append_cancel_left h⟩
    | set l => cases l <;> cases hk
    | _ => cases hk
  | dict =>
    cases q with
    | dict => exact ⟨rfl, List.append_cancel_left h⟩
    | set l => cases l <;> cases hk
    | _ => cases hk
  | set l =>
    cases l with
    | nil =>
      cases q with
      | set l' =>
        cases l' with
        | nil => exact ⟨rfl, List.append_cancel_left h⟩
        | cons _ _ => cases hk
      | _ => cases hk
    | cons a l =>
      cases q with
      | set l' =>
        cases l' with
        | nil => cases hk
        | cons b l' =>
          simp only [PIdx.repr, String.toList_append, List.append_assoc] at h
          obtain ⟨h1, h2⟩ := hset hp hq (List.append_cancel_left h)
          exact ⟨by rw [h1], h2⟩
      | _ => cases hk
  | indexf arg =>
    cases q with
    | indexf arg' =>
      obtain ⟨h1, h2⟩ := delegater_split hp hq h
      exact ⟨by rw [h1], h2⟩
    | set l => cases l <;> cases hk
    | _ => cases hk
  | index arg =>
    cases q with
    | index arg' =>
      obtain ⟨h1, h2⟩ := delegater_split hp hq h
      exact ⟨by rw [h1], h2⟩
    | set l => cases l <;> cases hk
    | _ => cases hk
  | fn _ => exact hp.elim
  | nesteddict => exact hp.elim
  | mat _ => exact hp.elim

theorem idx_not {F : Type} (other : PIdx F → String) {p : PIdx F} (hp : PlainIdx p) (r : List Char) :
    ¬ ∃ r', (p.repr other).toList ++ r = ')' :: r' := by
  rintro ⟨r', h⟩
  cases p with
  | str s => exact key_not (stop := ')') (by decide) rfl (by decide) (.str s) r ⟨r', h⟩
  | int i => exact key_not (stop := ')') (by decide) rfl (by decide) (.int i) r ⟨r', h⟩
  | slice a b c =>
    simp only [PIdx.repr, String.toList_append, List.append_assoc] at h
    exact absurd (List.cons.inj (show 's' :: _ = ')' :: r' from h)).1 (by decide)
  | list l =>
    simp only [PIdx.repr, listText, String.toList_append, List.append_assoc] at h
    exact absurd (List.cons.inj (show '[' :: _ = ')' :: r' from h)).1 (by decide)
  | ellipsis =>
    simp only [PIdx.repr] at h
    exact absurd (List.cons.inj (show 'E' :: _ = ')' :: r' from h)).1 (by decide)
  | dict =>
    simp only [PIdx.repr] at h
    exact absurd (List.cons.inj (show '{' :: _ = ')' :: r' from h)).1 (by decide)
  | set l =>
    cases l with
    | nil =>
      simp only [PIdx.repr] at h
      exact absurd (List.cons.inj (show 's' :: _ = ')' :: r' from h)).1 (by decide)
    | cons a l =>
      simp only [PIdx.repr, String.toList_append, List.append_assoc] at h
      exact absurd (List.cons.inj (show '{' :: _ = ')' :: r' from h)).1 (by decide)
  | indexf arg =>
    simp only [PIdx.repr, delegaterText, String.toList_append, List.append_assoc] at h
    exact absurd (List.cons.inj (show 'F' :: _ = ')' :: r' from h)).1 (by decide)
  | index arg =>
    simp only [PIdx.repr, delegaterText, String.toList_append, List.append_assoc] at h
    exact absurd (List.cons.inj (show 'I' :: _ = ')' :: r' from h)).1 (by decide)
  | fn _ => exact hp.elim
  | nesteddict => exact hp.elim
  | mat _ => exact hp.elim

/-! ## The property -/

variable {V : Type}

/-- **C135** (prefixes): the texts of two prefixes without functions, matrices and `nesteddict` are equal exactly if the prefixes and
the texts of the objects are. -/
theorem C135_prefix (other : PIdx (PyFn V) → String) {d d' : String} (hd : d ∈ descriptions) (hd' : d' ∈ descriptions) {p q : Prefixer V}
    (hp : ∀ i ∈ p.pre, PlainIdx i) (hq : ∀ i ∈ q.pre, PlainIdx i) :
    p.text other d = q.text other d' ↔ p.pre = q.pre ∧ d = d' ∧ p.obj.cs.text true = q.obj.cs.text true := by
  constructor
  · intro h
    have h := congrArg String.toList h
    simp only [Prefixer.text, String.toList_append, List.append_assoc] at h
    obtain ⟨h1, h2⟩ := tupleOf_split (f := PIdx.repr other)
      (fun x hx y hy _ _ hr hr' h => idx_split other (hp x hx) (hq y hy) (stop_noDigit rfl hr) (stop_noDigit rfl hr') h)
      (fun x hx => idx_not other (hp x hx)) (fun x hx => idx_not other (hq x hx)) (List.append_cancel_left h)
    have h3 := String.toList_inj.1 (List.append_cancel_right (List.append_cancel_left h2))
    exact ⟨h1, (C93_object hd hd' p.obj.cs q.obj.cs true).1 h3⟩
  · rintro ⟨h1, rfl, h3⟩
    simp only [Prefixer.text, h1, objText, if_true, h3]

/-- **C135** (layout): for well-formed structs with plain names that is exactly if the prefixes and descriptions are equal and the
entries of the structs correspond up to patterns and the orders of nested structs (C93). -/
theorem C135_layout (other : PIdx (PyFn V) → String) {d d' : String} (hd : d ∈ descriptions) (hd' : d' ∈ descriptions) {p q : Prefixer V}
    (hp : ∀ i ∈ p.pre, PlainIdx i) (hq : ∀ i ∈ q.pre, PlainIdx i)
    (hwf : WFs p.obj.cs.struct.entries p.obj.cs.struct.order) (hwf' : WFs q.obj.cs.struct.entries q.obj.cs.struct.order)
    (hn : Names PlainName p.obj.cs.struct.entries) (hn' : Names PlainName q.obj.cs.struct.entries) :
    p.text other d = q.text other d' ↔
      p.pre = q.pre ∧ d = d' ∧ List.Forall₂ SameText p.obj.cs.struct.entries q.obj.cs.struct.entries := by
  rw [C135_prefix other hd hd' hp hq, ← C93_compact hwf hwf' hn hn']
  have : ∀ c : CS, c.text true = c.struct.text true := fun c => by
    rw [CS.text, if_pos rfl]
    simp
  rw [this, this]

theorem wrap_inj {a b x y : String} (h : a ++ x ++ b = a ++ y ++ b) : x = y := by
  have h := congrArg String.toList h
  simp only [String.toList_append, List.append_assoc] at h
  exact String.toList_inj.1 (List.append_cancel_right (List.append_cancel_left h))

theorem begin_ne {a b x y : String} (n : ℕ) (ha : n ≤ a.toList.length) (hb : n ≤ b.toList.length)
    (h : a.toList.take n ≠ b.toList.take n) {u v w : String} : a ++ x ++ u ≠ b ++ y ++ v ++ w ++ u := by
  intro e
  rw [String.append_assoc, String.append_assoc, String.append_assoc, String.append_assoc] at e
  have e := congrArg (fun s => (String.toList s).take n) e
  simp only [String.toList_append, List.take_append_of_le_length ha, List.take_append_of_le_length hb] at e
  exact h e

theorem text_true (c : CS) : c.text true = c.struct.text true := by
  rw [CS.text, if_pos rfl]
  simp

/-- **C135** (constructors): the text of `s.prefix` determines the description and the text of the object, and it is never the text of
a prefix. -/
theorem C135_constructor (other : PIdx (PyFn V) → String) {d d' : String} (hd : d ∈ descriptions) (hd' : d' ∈ descriptions) (c c' : CS) :
    (prefixConstructorText d c = prefixConstructorText d' c' ↔ d = d' ∧ c.text true = c'.text true) ∧
    ∀ p : Prefixer V, prefixConstructorText d c ≠ p.text other d' := by
  refine ⟨Iff.trans ⟨fun h => wrap_inj h, fun h => ?_⟩ (C93_object hd hd' c c' true), fun p h => ?_⟩
  · exact congrArg (fun t => "prefixConstructor(" ++ t ++ ")") h
  · exact begin_ne (a := "prefixConstructor(") (b := "prefix( ") 7 (by decide +kernel) (by decide +kernel) (by decide +kernel) h

/-- **C135** (delayed indices): the texts of `index[...]` and `indexf[...]` determine which of them it is and the names and numbers. -/
theorem C135_index {F : Type} (other : PIdx F → String) {a b : List Key} (ha : ∀ k ∈ a, PlainKey k) (hb : ∀ k ∈ b, PlainKey k) :
    ((PIdx.index (F := F) a).repr other = (PIdx.index b).repr other ↔ a = b) ∧
    ((PIdx.indexf (F := F) a).repr other = (PIdx.indexf b).repr other ↔ a = b) ∧
    (PIdx.index (F := F) a).repr other ≠ (PIdx.indexf b).repr other := by
  have key : ∀ {p q : PIdx F}, PlainIdx p → PlainIdx q → p.repr other = q.repr other → p = q := fun hp hq h =>
    (idx_split other hp hq (r := []) (r' := []) (by intro c hc; cases hc) (by intro c hc; cases hc) (by rw [h])).1
  refine ⟨⟨fun h => ?_, fun h => by rw [h]⟩, ⟨fun h => ?_, fun h => by rw [h]⟩, fun h => ?_⟩
  · exact PIdx.index.inj (key ha hb h)
  · exact PIdx.indexf.inj (key ha hb h)
  · cases key (p := .index a) (q := .indexf b) ha hb h

/-- **C135** (finding): the text does not show whether a prefix casts to the whole matrix: the view `s.repeated(a)` and the prefix with
the same object and names have the same text, but the view casts to `a` and the prefix to the list of what the view gives for the columns
(or an error). -/
theorem C135_cast [Zero V] [Add V] [Sub V] (other : PIdx (PyFn V) → String) (d : String) {c : CS}
    (hwf : WFs c.struct.entries c.struct.order) {a : SMat V} {view : Prefixer V} (h : c.repeated a = .ok view) :
    (view.obj.prefix view.pre).text other d = view.text other d ∧ view.cast = .ok (.leaf ⟨.dense a.sp.rows a.sp.cols, a.data⟩) ∧
      (view.obj.prefix view.pre).cast =
        (((List.range a.sp.cols).map fun j : ℕ => (j : ℤ)).mapM fun j => view.getitem [.int j]).map .list ∧
      (view.obj.prefix view.pre).cast ≠ view.cast := by
  unfold CS.repeated at h
  split at h
  · cases h
  · cases hs : CS.ofStruct ⟨[.nested "t" [a.sp.cols] c.struct.entries c.struct.order], [.one "t"]⟩ with
    | error e => rw [hs] at h; cases h
    | ok s =>
      rw [hs] at h
      simp only [bind, Except.bind] at h
      split at h
      · cases h
      · split at h
        · cases h
        · cases h
          have e := ofStruct_struct hs
          have key := C45_all (⟨s, a.data, []⟩ : Obj V) (by rw [e]; exact repeated_wf hwf a.sp.cols) [] _ _ .root
            (.nested "t" [a.sp.cols] c.struct.entries c.struct.order) (by rw [e]; exact List.mem_singleton_self _) [] [] [] a.sp.cols rfl .nil
          refine ⟨rfl, rfl, key, fun h => ?_⟩
          have h : _ = Except.ok (Tree.leaf (⟨.dense a.sp.rows a.sp.cols, a.data⟩ : SMat V)) := key.symm.trans h
          revert h
          generalize List.mapM (m := Except PyErr) _ _ = r
          intro h
          cases r <;> cases h

/-! ## Instances -/

/-- The two casts of C135_cast differ: one is a matrix with 17 rows and 3 columns, the other a list (or an error). -/
example : ∃ c view, CS.ofStruct exStruct = .ok c ∧
    c.repeated (SMat.fill (.dense 17 3) fun p => (10 * p.1 + p.2 : ℤ)) = .ok view ∧
    (view.obj.prefix view.pre).text (fun _ => "") "Mutable DM" = view.text (fun _ => "") "Mutable DM" ∧
    (view.obj.prefix view.pre).cast = ([0, 1, 2].mapM fun j => view.getitem [.int j]).map .list ∧
    (view.obj.prefix view.pre).cast ≠ view.cast := by
  obtain ⟨c, h1, h2⟩ := C50_repeated_partial (V := ℤ) exStruct exStruct_wf
  have hc : c.size = 17 := by
    obtain ⟨c', h, hs, _⟩ := C39_size exStruct exStruct_wf
    rw [h1] at h
    cases h
    rw [hs]; decide
  obtain ⟨view, h3, _, h4⟩ := h2 (SMat.fill (.dense 17 3) fun p => (10 * p.1 + p.2 : ℤ))
    ⟨Sparsity.dense_canon _ _, by simp [SMat.fill]⟩ (by rw [hc]; rfl)
  obtain ⟨k1, -, k2, k3⟩ := C135_cast (fun _ => "") "Mutable DM" (by rw [ofStruct_struct h1]; exact exStruct_wf) h3
  exact ⟨c, view, h1, h3, k1, k2, k3⟩

/-- A prefix of `exStruct`. -/
example (c : CS) (h : CS.ofStruct exStruct = .ok c) :
    (Obj.prefix (V := ℚ) ⟨c, [], []⟩ [.str "n", .int (-1), .slice none (some 2) none, .list [.int 0, .str "u"]]).text (fun _ => "") "Mutable DM" =
      "prefix( ('n', -1, slice(None, 2, None), [0, 'u']),Mutable DM ({x: 2x1,n: repeated([2]): {u: 1x1,P: 2x2},a: repeated([3]): 1x1,b: repeated([2]): 2x1}))" := by
  have e2 : c.struct = exStruct := ofStruct_struct h
  have e3 : objText "Mutable DM" c true = "Mutable DM ({x: 2x1,n: repeated([2]): {u: 1x1,P: 2x2},a: repeated([3]): 1x1,b: repeated([2]): 2x1})" := by
    rw [objText, if_pos rfl, text_true, e2]
    decide +kernel
  rw [Prefixer.text, show (Obj.prefix (V := ℚ) ⟨c, [], []⟩ _).obj.cs = c from rfl, e3]
  dsimp only [Obj.prefix]
  decide +kernel

/-- `('a',)` and `'a'` are printed differently from `['a']`, `{'a'}` and `index['a']`. -/
example : tupleOf (([.str "a", .list [.str "a"], .set ["a"], .index [.str "a"], .dict, .set [], .ellipsis] : List (PIdx Empty)).map
    (PIdx.repr fun _ => "")) = "('a', ['a'], {'a'}, IndexDelegater[('a',)], {}, set(), Ellipsis)" := by decide +kernel

/-- C135_index, C135_constructor and C135_prefix at work: `index['a', 0]` is not `index['a']`, the constructor of prefixes is not a prefix,
and the prefixes `('n', 0)` and `('n', 1)` of one object have different texts. -/
example (c : CS) (m : List ℚ) :
    (PIdx.index (F := Empty) [.str "a", .int 0]).repr (fun _ => "") ≠ (PIdx.index (F := Empty) [.str "a"]).repr (fun _ => "") ∧
    prefixConstructorText "MX.sym" c ≠ (Obj.prefix ⟨c, m, []⟩ []).text (fun _ => "") "MX.sym" ∧
    (Obj.prefix ⟨c, m, []⟩ [.str "n", .int 0]).text (fun _ => "") "MX.sym" ≠
      (Obj.prefix ⟨c, m, []⟩ [.str "n", .int 1]).text (fun _ => "") "MX.sym" := by
  have hd : "MX.sym" ∈ descriptions := by simp [descriptions]
  have hpl : ∀ j : ℤ, ∀ i ∈ ([.str "n", .int j] : List (PIdx (PyFn ℚ))), PlainIdx i := by
    intro j i hi
    simp only [List.mem_cons, List.not_mem_nil, or_false] at hi
    rcases hi with rfl | rfl <;> simp [PlainIdx]
  refine ⟨fun h => ?_, (C135_constructor (fun _ => "") hd hd c c).2 _, fun h => ?_⟩
  · have := (C135_index (F := Empty) (fun _ => "") (a := [.str "a", .int 0]) (b := [.str "a"]) (by simp [PlainKey]) (by simp [PlainKey])).1.1 h
    simp at this
  · have := ((C135_prefix (fun _ => "") hd hd (hpl 0) (hpl 1)).1 h).1
    simp [Obj.prefix] at this

/-- C135_layout at work: the text of a prefix of `exStruct` is not that of a prefix of a struct with one entry. -/
example (c c' : CS) (h : CS.ofStruct exStruct = .ok c) (e : Entry) (h1 : c'.struct.entries = [e])
    (hwf : WFs c'.struct.entries c'.struct.order) (hn : Names PlainName c'.struct.entries) (m m' : List ℚ) :
    (Obj.prefix ⟨c, m, []⟩ [.str "n", .int 0]).text (fun _ => "") "Mutable DM" ≠
      (Obj.prefix ⟨c', m', []⟩ [.str "n", .int 0]).text (fun _ => "") "Mutable DM" := by
  intro ht
  have e2 : c.struct = exStruct := ofStruct_struct h
  have hpl : ∀ i ∈ ([.str "n", .int 0] : List (PIdx (PyFn ℚ))), PlainIdx i := by
    intro i hi
    simp only [List.mem_cons, List.not_mem_nil, or_false] at hi
    rcases hi with rfl | rfl <;> simp [PlainIdx]
  have hm : "Mutable DM" ∈ descriptions := by simp [descriptions]
  have hw1 : WFs c.struct.entries c.struct.order := by rw [e2]; exact exStruct_wf
  have hn1 : Names PlainName c.struct.entries := by rw [e2]; exact exStruct_plain
  have := ((C135_layout (p := Obj.prefix ⟨c, m, []⟩ [.str "n", .int 0]) (q := Obj.prefix ⟨c', m', []⟩ [.str "n", .int 0]) (fun _ => "")
    hm hm hpl hpl hw1 hwf hn1 hn).1 ht).2.2
  have := this.length_eq
  change c.struct.entries.length = c'.struct.entries.length at this
  rw [h1, e2] at this
  simp [exStruct] at this

end CE.St
