import Verif.Struct.Text
import Verif.Struct.PropsLabels

/-! # Lemmas about texts: they can be read unambiguously from the left -/

namespace CE.St

/-- The list is empty or begins with a character that satisfies `P`. -/
def Begins (P : Char → Prop) (r : List Char) : Prop := ∀ c, r.head? = some c → P c

theorem begins_cons {P : Char → Prop} {c : Char} {r : List Char} : Begins P (c :: r) ↔ P c := by simp [Begins]

theorem takeWhile_split {p : Char → Bool} {a r : List Char} (ha : ∀ c ∈ a, p c = true) (hr : Begins (p · = false) r) :
    (a ++ r).takeWhile p = a := by
  induction a with
  | nil =>
    cases r with
    | nil => rfl
    | cons x r => simp [List.takeWhile_cons, begins_cons.1 hr]
  | cons x a ih =>
    rw [List.cons_append, List.takeWhile_cons, ha x List.mem_cons_self, if_pos rfl,
      ih fun c hc => ha c (List.mem_cons_of_mem _ hc)]

/-- Two texts of characters with `p`, each followed by a character without `p`. -/
theorem split_unique {p : Char → Bool} {a b r r' : List Char} (ha : ∀ c ∈ a, p c = true) (hb : ∀ c ∈ b, p c = true)
    (hr : Begins (p · = false) r) (hr' : Begins (p · = false) r') (h : a ++ r = b ++ r') : a = b ∧ r = r' := by
  have h1 : a = b := by rw [← takeWhile_split ha hr, h, takeWhile_split hb hr']
  subst h1
  exact ⟨rfl, List.append_cancel_left h⟩

theorem split_char {c : Char} {a b r r' : List Char} (ha : c ∉ a) (hb : c ∉ b) (h : a ++ c :: r = b ++ c :: r') :
    a = b ∧ r = r' := by
  obtain ⟨h1, h2⟩ := split_unique (p := (· != c)) (a := a) (b := b) (r := c :: r) (r' := c :: r')
    (fun x hx => by simp only [bne_iff_ne]; rintro rfl; exact ha hx)
    (fun x hx => by simp only [bne_iff_ne]; rintro rfl; exact hb hx)
    (begins_cons.2 (by simp)) (begins_cons.2 (by simp)) h
  exact ⟨h1, (List.cons.inj h2).2⟩

/-! ## Numbers -/

theorem isDigit_repr {n : ℕ} {c : Char} (h : c ∈ (Nat.repr n).toList) : c.isDigit = true := by
  rw [Nat.toList_repr] at h
  exact Nat.isDigit_of_mem_toDigits (by decide) (by decide) h

theorem repr_inj {i j : ℕ} (h : (Nat.repr i).toList = (Nat.repr j).toList) : i = j :=
  toStr_nat_inj (String.toList_inj.1 h)

theorem repr_ne_nil (n : ℕ) : (Nat.repr n).toList ≠ [] := by
  rw [Nat.toList_repr]
  exact Nat.toDigits_ne_nil

theorem repr_split {i j : ℕ} {r r' : List Char} (hr : Begins (·.isDigit = false) r) (hr' : Begins (·.isDigit = false) r')
    (h : (Nat.repr i).toList ++ r = (Nat.repr j).toList ++ r') : i = j ∧ r = r' := by
  obtain ⟨h1, h2⟩ := split_unique (p := Char.isDigit) (fun c hc => isDigit_repr hc) (fun c hc => isDigit_repr hc) hr hr' h
  exact ⟨repr_inj h1, h2⟩

theorem begins_repr (n : ℕ) (r : List Char) : ∃ c l, (Nat.repr n).toList ++ r = c :: l ∧ c.isDigit = true := by
  cases h : (Nat.repr n).toList with
  | nil => exact absurd h (repr_ne_nil n)
  | cons c l => exact ⟨c, l ++ r, rfl, isDigit_repr (n := n) (by rw [h]; exact List.mem_cons_self)⟩

/-! ## Joined lists -/

theorem joinWith_cons (sep a x : String) (l : List String) :
    joinWith sep (a :: x :: l) = a ++ sep ++ joinWith sep (x :: l) := by
  rw [joinWith]
  simp

theorem joinComma_eq (l : List String) : joinComma l = joinWith "," l := by
  fun_induction joinComma l with
  | case1 => rfl
  | case2 => rfl
  | case3 a l h ih =>
    cases l with
    | nil => exact absurd rfl h
    | cons x l => rw [joinWith_cons, ih]

/-- A list of texts that begin with other characters than `stop` and that can be split off from what follows. -/
theorem join_split {α : Type} {f : α → String} {R : α → α → Prop} {sep : String} {s : List Char} (hsep : sep.toList = ',' :: s)
    {stop : Char} (hstop : stop ≠ ',') {l l' : List α}
    (hf : ∀ a ∈ l, ∀ b ∈ l', ∀ r r', Begins (fun c => c = ',' ∨ c = stop) r → Begins (fun c => c = ',' ∨ c = stop) r' →
      (f a).toList ++ r = (f b).toList ++ r' → R a b ∧ r = r')
    (hh : ∀ a ∈ l, ∀ r, ¬ ∃ r', (f a).toList ++ r = stop :: r') (hh' : ∀ a ∈ l', ∀ r, ¬ ∃ r', (f a).toList ++ r = stop :: r')
    {r r' : List Char} (h : (joinWith sep (l.map f)).toList ++ stop :: r = (joinWith sep (l'.map f)).toList ++ stop :: r') :
    List.Forall₂ R l l' ∧ r = r' := by
  induction l generalizing l' with
  | nil =>
    cases l' with
    | nil => exact ⟨.nil, (List.cons.inj h).2⟩
    | cons b l' =>
      exfalso
      cases l' with
      | nil =>
        simp only [List.map_cons, List.map_nil, joinWith, String.toList_empty, List.nil_append] at h
        exact hh' b List.mem_cons_self _ ⟨_, h.symm⟩
      | cons b2 l' =>
        simp only [List.map_cons, List.map_nil, joinWith_cons, joinWith, String.toList_empty, List.nil_append,
          String.toList_append, List.append_assoc] at h
        exact hh' b List.mem_cons_self _ ⟨_, h.symm⟩
  | cons a l ih =>
    cases l' with
    | nil =>
      exfalso
      cases l with
      | nil =>
        simp only [List.map_cons, List.map_nil, joinWith, String.toList_empty, List.nil_append] at h
        exact hh a List.mem_cons_self _ ⟨_, h⟩
      | cons a2 l =>
        simp only [List.map_cons, List.map_nil, joinWith_cons, joinWith, String.toList_empty, List.nil_append,
          String.toList_append, List.append_assoc] at h
        exact hh a List.mem_cons_self _ ⟨_, h⟩
    | cons b l' =>
      have hab := hf a List.mem_cons_self b List.mem_cons_self
      cases l with
      | nil =>
        cases l' with
        | nil =>
          simp only [List.map_cons, List.map_nil, joinWith] at h
          obtain ⟨h1, h2⟩ := hab _ _ (begins_cons.2 (.inr rfl)) (begins_cons.2 (.inr rfl)) h
          exact ⟨.cons h1 .nil, (List.cons.inj h2).2⟩
        | cons b2 l' =>
          simp only [List.map_cons, List.map_nil, joinWith_cons, joinWith, String.toList_append, List.append_assoc, hsep,
            List.cons_append] at h
          obtain ⟨-, h2⟩ := hab _ _ (begins_cons.2 (.inr rfl)) (begins_cons.2 (.inl rfl)) h
          exact absurd (List.cons.inj h2).1 hstop
      | cons a2 l =>
        cases l' with
        | nil =>
          simp only [List.map_cons, List.map_nil, joinWith_cons, joinWith, String.toList_append, List.append_assoc, hsep,
            List.cons_append] at h
          obtain ⟨-, h2⟩ := hab _ _ (begins_cons.2 (.inl rfl)) (begins_cons.2 (.inr rfl)) h
          exact absurd (List.cons.inj h2).1.symm hstop
        | cons b2 l' =>
          simp only [List.map_cons, joinWith_cons, String.toList_append, List.append_assoc, hsep, List.cons_append] at h
          obtain ⟨h1, h2⟩ := hab _ _ (begins_cons.2 (.inl rfl)) (begins_cons.2 (.inl rfl)) h
          have h3 := List.append_cancel_left (List.cons.inj h2).2
          obtain ⟨h4, h5⟩ := ih (l' := b2 :: l') (fun x hx y hy => hf x (List.mem_cons_of_mem _ hx) y (List.mem_cons_of_mem _ hy))
            (fun x hx => hh x (List.mem_cons_of_mem _ hx)) (fun x hx => hh' x (List.mem_cons_of_mem _ hx))
            (by simpa only [List.map_cons] using h3)
          exact ⟨.cons h1 h4, h5⟩

/-- A list in brackets. -/
theorem listText_split {α : Type} {f : α → String} {l l' : List α}
    (hf : ∀ a ∈ l, ∀ b ∈ l', ∀ r r', Begins (fun c => c = ',' ∨ c = ']') r → Begins (fun c => c = ',' ∨ c = ']') r' →
      (f a).toList ++ r = (f b).toList ++ r' → a = b ∧ r = r')
    (hh : ∀ a ∈ l, ∀ r, ¬ ∃ r', (f a).toList ++ r = ']' :: r') (hh' : ∀ a ∈ l', ∀ r, ¬ ∃ r', (f a).toList ++ r = ']' :: r')
    {r r' : List Char} (h : (listText (l.map f)).toList ++ r = (listText (l'.map f)).toList ++ r') : l = l' ∧ r = r' := by
  simp only [listText, String.toList_append, List.append_assoc] at h
  have h := List.append_cancel_left h
  obtain ⟨h1, h2⟩ := join_split (R := Eq) (sep := ", ") (s := [' ']) rfl (stop := ']') (by decide) hf hh hh' h
  exact ⟨List.forall₂_eq_eq_eq ▸ h1, h2⟩

theorem nats_split {l l' : List ℕ} {r r' : List Char}
    (h : (listText (l.map Nat.repr)).toList ++ r = (listText (l'.map Nat.repr)).toList ++ r') : l = l' ∧ r = r' := by
  have key : ∀ (n : ℕ) (r : List Char), ¬ ∃ r', (Nat.repr n).toList ++ r = ']' :: r' := by
    rintro n r ⟨r', h⟩
    obtain ⟨c, l, h1, h2⟩ := begins_repr n r
    rw [h1] at h
    rw [(List.cons.inj h).1] at h2
    revert h2
    decide
  refine listText_split (fun a _ b _ r r' hr hr' => repr_split ?_ ?_) (fun a _ => key a) (fun a _ => key a) h
  · intro c hc
    rcases hr c hc with rfl | rfl <;> rfl
  · intro c hc
    rcases hr' c hc with rfl | rfl <;> rfl

/-! ## Names -/

theorem quoted_split {a b : String} (ha : '\'' ∉ a.toList) (hb : '\'' ∉ b.toList) {r r' : List Char}
    (h : (quoted a).toList ++ r = (quoted b).toList ++ r') : a = b ∧ r = r' := by
  simp only [quoted, String.toList_append, List.append_assoc] at h
  have h := List.append_cancel_left h
  obtain ⟨h1, h2⟩ := split_char ha hb h
  exact ⟨String.toList_inj.1 h1, h2⟩

theorem quoted_head (a : String) (r : List Char) : ∃ l, (quoted a).toList ++ r = '\'' :: l := by
  simp only [quoted, String.toList_append, List.append_assoc]
  exact ⟨_, rfl⟩

theorem tuple_split {a b : List String} (ha : ∀ s ∈ a, '\'' ∉ s.toList) (hb : ∀ s ∈ b, '\'' ∉ s.toList) {r r' : List Char}
    (h : (tupleText a).toList ++ r = (tupleText b).toList ++ r') : a = b ∧ r = r' := by
  have hh : ∀ (s : String) (r : List Char), ¬ ∃ r', (quoted s).toList ++ r = ')' :: r' := by
    rintro s r ⟨r', h⟩
    obtain ⟨l, hl⟩ := quoted_head s r
    rw [hl] at h
    exact absurd (List.cons.inj h).1 (by decide)
  have key : ∀ (x : String) (b : List String), '\'' ∉ x.toList → (∀ s ∈ b, '\'' ∉ s.toList) → b.length ≠ 1 → ∀ r r' : List Char,
      (quoted x).toList ++ ',' :: ')' :: r = (joinWith ", " (b.map quoted)).toList ++ ')' :: r' → False := by
    intro x b hx hb hl r r' h
    match b, hl with
    | [], _ =>
      exact hh x _ ⟨_, h⟩
    | y :: z :: b, _ =>
      simp only [List.map_cons, joinWith_cons, String.toList_append, List.append_assoc] at h
      obtain ⟨-, h2⟩ := quoted_split hx (hb y List.mem_cons_self) h
      have h2 : ',' :: ')' :: r = ',' :: ' ' :: _ := h2
      exact absurd (List.cons.inj (List.cons.inj h2).2).1 (by decide)
  have hform : ∀ l : List String, l.length ≠ 1 → tupleText l = "(" ++ joinWith ", " (l.map quoted) ++ ")" := by
    intro l hl
    match l, hl with
    | [], _ => rfl
    | _ :: _ :: _, _ => rfl
  by_cases h1 : a.length = 1
  · obtain ⟨x, rfl⟩ := List.length_eq_one_iff.1 h1
    by_cases h2 : b.length = 1
    · obtain ⟨y, rfl⟩ := List.length_eq_one_iff.1 h2
      simp only [tupleText, String.toList_append, List.append_assoc] at h
      obtain ⟨h3, h4⟩ := quoted_split (ha x List.mem_cons_self) (hb y List.mem_cons_self) (List.append_cancel_left h)
      exact ⟨by rw [h3], List.append_cancel_left h4⟩
    · rw [hform b h2, tupleText] at h
      simp only [String.toList_append, List.append_assoc] at h
      exact absurd (List.append_cancel_left h) fun h => key x b (ha x List.mem_cons_self) hb h2 _ _ h
  · by_cases h2 : b.length = 1
    · obtain ⟨y, rfl⟩ := List.length_eq_one_iff.1 h2
      rw [hform a h1, tupleText] at h
      simp only [String.toList_append, List.append_assoc] at h
      exact absurd (List.append_cancel_left h) fun h => key y a (hb y List.mem_cons_self) ha h1 _ _ h.symm
    · rw [hform a h1, hform b h2] at h
      simp only [String.toList_append, List.append_assoc] at h
      obtain ⟨h3, h4⟩ := join_split (R := Eq) (sep := ", ") (s := [' ']) rfl (stop := ')') (by decide)
        (fun x hx y hy r r' _ _ h => quoted_split (ha x hx) (hb y hy) h) (fun x _ => hh x) (fun x _ => hh x)
        (List.append_cancel_left h)
      exact ⟨List.forall₂_eq_eq_eq ▸ h3, h4⟩

theorem tuple_head (a : List String) (r : List Char) : ∃ l, (tupleText a).toList ++ r = '(' :: l := by
  match a with
  | [] => exact ⟨_, rfl⟩
  | [x] =>
    simp only [tupleText, String.toList_append, List.append_assoc]
    exact ⟨_, rfl⟩
  | x :: y :: l =>
    simp only [tupleText, String.toList_append, List.append_assoc]
    exact ⟨_, rfl⟩

theorem order_split {a b : OrderItem} (ha : ∀ s ∈ a.names, '\'' ∉ s.toList) (hb : ∀ s ∈ b.names, '\'' ∉ s.toList) {r r' : List Char}
    (h : a.text.toList ++ r = b.text.toList ++ r') : a = b ∧ r = r' := by
  cases a with
  | one x =>
    cases b with
    | one y =>
      obtain ⟨h1, h2⟩ := quoted_split (ha x (by simp [OrderItem.names])) (hb y (by simp [OrderItem.names])) h
      exact ⟨by rw [h1], h2⟩
    | tup ys =>
      obtain ⟨l, hl⟩ := quoted_head x r
      obtain ⟨l', hl'⟩ := tuple_head ys r'
      have := hl.symm.trans (h.trans hl')
      exact absurd (List.cons.inj this).1 (by decide)
  | tup xs =>
    cases b with
    | one y =>
      obtain ⟨l, hl⟩ := tuple_head xs r
      obtain ⟨l', hl'⟩ := quoted_head y r'
      have := hl.symm.trans (h.trans hl')
      exact absurd (List.cons.inj this).1 (by decide)
    | tup ys =>
      obtain ⟨h1, h2⟩ := tuple_split ha hb h
      exact ⟨congrArg OrderItem.tup h1, h2⟩

theorem orders_split {l l' : List OrderItem} (hl : ∀ a ∈ l, ∀ s ∈ a.names, '\'' ∉ s.toList)
    (hl' : ∀ a ∈ l', ∀ s ∈ a.names, '\'' ∉ s.toList) {r r' : List Char}
    (h : (listText (l.map OrderItem.text)).toList ++ r = (listText (l'.map OrderItem.text)).toList ++ r') : l = l' ∧ r = r' := by
  have key : ∀ (a : OrderItem) (r : List Char), ¬ ∃ r', a.text.toList ++ r = ']' :: r' := by
    rintro a r ⟨r', h⟩
    cases a with
    | one x =>
      obtain ⟨l, hl⟩ := quoted_head x r
      exact absurd (List.cons.inj (hl.symm.trans h)).1 (by decide)
    | tup xs =>
      obtain ⟨l, hl⟩ := tuple_head xs r
      exact absurd (List.cons.inj (hl.symm.trans h)).1 (by decide)
  exact listText_split (fun a ha b hb r r' _ _ h => order_split (hl a ha) (hl' b hb) h) (fun a _ => key a) (fun a _ => key a) h

/-! ## Dicts -/

theorem dictSet_append {d : List (String × String)} {k v : String} (h : k ∉ d.map (·.1)) : dictSet d k v = d ++ [(k, v)] := by
  unfold dictSet
  split_ifs with h1
  · exfalso
    simp at h1 h
    grind
  · rfl

theorem dictOfList_nodup {t : List (String × String)} (h : (t.map (·.1)).Nodup) : dictOfList t = t := by
  have key : ∀ (t d : List (String × String)), ((d ++ t).map (·.1)).Nodup →
      t.foldl (fun d p => dictSet d p.1 p.2) d = d ++ t := by
    intro t
    induction t with
    | nil => simp
    | cons p t ih =>
      intro d hd
      have hp : p.1 ∉ d.map (·.1) := by
        intro hmem
        simp only [List.map_append, List.map_cons, List.nodup_append] at hd
        exact hd.2.2 _ hmem _ List.mem_cons_self rfl
      rw [List.foldl_cons, dictSet_append hp, ih _ (by simpa using hd)]
      simp
  exact key t [] h

theorem textTable_eq (es : List Entry) : textTable es = es.map fun e => (e.name, e.text) := by
  induction es with
  | nil => rfl
  | cons e es ih => rw [textTable, ih]; rfl

end CE.St
