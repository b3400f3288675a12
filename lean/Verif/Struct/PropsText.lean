import Verif.Struct.LemText
import Verif.Struct.PropsRepeat

/-! # C93: the text of a struct -/

namespace CE.St

/-- Two entries with the same name, repeat counts and, for primitive entries, numbers of rows and columns and type, for entries
with a struct, entries that correspond in the same sense.  Patterns and the orders of nested structs may differ. -/
inductive SameText : Entry → Entry → Prop
  | prim {n d} {p p' : Prim} : p.sp.rows = p'.sp.rows → p.sp.cols = p'.sp.cols → p.symm = p'.symm →
      SameText (.prim n d p) (.prim n d p')
  | nested {n d es es' o o'} : List.Forall₂ SameText es es' → SameText (.nested n d es o) (.nested n d es' o')

/-- A name without the characters that separate the parts of a text. -/
def PlainName (s : String) : Prop := ∀ c ∈ [':', '}', '\'', '=', '\n'], c ∉ s.toList

/-- The names of the entries are distinct and plain, also in nested structs. -/
inductive TextOk : List Entry → Prop
  | mk {es : List Entry} (nodup : (es.map Entry.name).Nodup) (name : ∀ e ∈ es, PlainName e.name)
      (sub : ∀ n d es' o, Entry.nested n d es' o ∈ es → TextOk es') : TextOk es

theorem TextOk.of_wf {es o} (hwf : WFs es o) (hn : Names PlainName es) : TextOk es := by
  induction hwf with
  | mk nodup _ _ _ ih =>
    cases hn with
    | mk h1 h2 => exact .mk nodup h1 fun n d es' o' he => ih n d es' o' he (h2 n d es' o' he)

theorem compactText_ok {es : List Entry} (h : (es.map Entry.name).Nodup) :
    compactText (textTable es) = "{" ++ joinWith "," (es.map fun e => e.name ++ ": " ++ e.text) ++ "}" := by
  rw [compactText, textTable_eq, dictOfList_nodup (by simpa [Function.comp_def] using h), joinComma_eq]
  simp [Function.comp_def]

/-- What follows an entry. -/
def Follow (c : Char) : Prop := c = ',' ∨ c = '}' ∨ c = '\n'

theorem Follow.noDigit {r : List Char} (h : Begins Follow r) : Begins (·.isDigit = false) r := by
  intro c hc
  rcases h c hc with rfl | rfl | rfl <;> rfl

theorem repeatText_split {d d' : List ℕ} {v v' : List Char} (hv : Begins (· ≠ 'r') v) (hv' : Begins (· ≠ 'r') v')
    (h : (repeatText d).toList ++ v = (repeatText d').toList ++ v') : d = d' ∧ v = v' := by
  have head : ∀ (d : List ℕ) (v : List Char), d.length ≥ 1 → ∃ l, (repeatText d).toList ++ v = 'r' :: l := by
    intro d v hd
    simp only [repeatText, if_pos hd, String.toList_append, List.append_assoc]
    exact ⟨_, rfl⟩
  by_cases h1 : d.length ≥ 1
  · by_cases h2 : d'.length ≥ 1
    · simp only [repeatText, if_pos h1, if_pos h2, String.toList_append, List.append_assoc] at h
      obtain ⟨h3, h4⟩ := nats_split (List.append_cancel_left h)
      exact ⟨h3, List.append_cancel_left h4⟩
    · obtain ⟨l, hl⟩ := head d v h1
      rw [hl, repeatText, if_neg h2] at h
      have h : 'r' :: l = v' := h
      rw [← h] at hv'
      exact absurd rfl (begins_cons.1 hv')
  · by_cases h2 : d'.length ≥ 1
    · obtain ⟨l, hl⟩ := head d' v' h2
      rw [hl, repeatText, if_neg h1] at h
      have h : v = 'r' :: l := h
      rw [h] at hv
      exact absurd rfl (begins_cons.1 hv)
    · rw [repeatText, repeatText, if_neg h1, if_neg h2] at h
      have e1 : d = [] := List.eq_nil_of_length_eq_zero (by omega)
      have e2 : d' = [] := List.eq_nil_of_length_eq_zero (by omega)
      exact ⟨by rw [e1, e2], h⟩

theorem prim_head (p : Prim) (r : List Char) : ∃ c l, p.text.toList ++ r = c :: l ∧ c ≠ 'r' ∧ c ≠ '{' := by
  unfold Prim.text
  split_ifs
  · simp only [String.toList_append, List.append_assoc]
    exact ⟨'s', _, rfl, by decide, by decide⟩
  · simp only [Sparsity.dimText, String.toList_append, List.append_assoc]
    obtain ⟨c, l, h1, h2⟩ := begins_repr p.sp.rows ("x".toList ++ ((Nat.repr p.sp.cols).toList ++ r))
    refine ⟨c, l, h1, ?_, ?_⟩ <;> rintro rfl <;> revert h2 <;> decide

theorem dim_split {s s' : Sparsity} {r r' : List Char} (hr : Begins (·.isDigit = false) r) (hr' : Begins (·.isDigit = false) r')
    (h : s.dimText.toList ++ r = s'.dimText.toList ++ r') : s.rows = s'.rows ∧ s.cols = s'.cols ∧ r = r' := by
  simp only [Sparsity.dimText, String.toList_append, List.append_assoc] at h
  obtain ⟨h1, h2⟩ := repr_split (begins_cons.2 rfl) (begins_cons.2 rfl) h
  obtain ⟨h3, h4⟩ := repr_split hr hr' (List.cons.inj h2).2
  exact ⟨h1, h3, h4⟩

theorem prim_split {p p' : Prim} {r r' : List Char} (hr : Begins (·.isDigit = false) r) (hr' : Begins (·.isDigit = false) r')
    (h : p.text.toList ++ r = p'.text.toList ++ r') :
    p.sp.rows = p'.sp.rows ∧ p.sp.cols = p'.sp.cols ∧ p.symm = p'.symm ∧ r = r' := by
  have mixed : ∀ (s s' : Sparsity) (r r' : List Char), ("symm(" ++ s.dimText ++ ")").toList ++ r ≠ s'.dimText.toList ++ r' := by
    intro s s' r r' h
    simp only [Sparsity.dimText, String.toList_append, List.append_assoc] at h
    obtain ⟨c, l, h1, h2⟩ := begins_repr s'.rows ("x".toList ++ ((Nat.repr s'.cols).toList ++ r'))
    rw [h1] at h
    rw [← (List.cons.inj h).1] at h2
    revert h2
    decide
  unfold Prim.text at h
  cases hp : p.symm <;> cases hp' : p'.symm <;> rw [hp, hp'] at h
  · obtain ⟨h1, h2, h3⟩ := dim_split hr hr' h
    exact ⟨h1, h2, rfl, h3⟩
  · exact absurd h.symm (mixed _ _ _ _)
  · exact absurd h (mixed _ _ _ _)
  · simp only [if_true, String.toList_append, List.append_assoc] at h
    obtain ⟨h1, h2, h3⟩ := dim_split (begins_cons.2 rfl) (begins_cons.2 rfl) (List.append_cancel_left h)
    exact ⟨h1, h2, rfl, (List.cons.inj h3).2⟩

theorem nested_head (es : List Entry) (r : List Char) : ∃ l, (compactText (textTable es)).toList ++ r = '{' :: l := by
  simp only [compactText, String.toList_append, List.append_assoc]
  exact ⟨_, rfl⟩

/-- The names and texts of the entries can be read from the text of the list. -/
theorem fields_split {es es' : List Entry} (hn : ∀ e ∈ es, PlainName e.name) (hn' : ∀ e ∈ es', PlainName e.name)
    (hrec : ∀ e ∈ es, ∀ e' ∈ es', ∀ r r', Begins Follow r → Begins Follow r' → e.text.toList ++ r = e'.text.toList ++ r' →
      (e.name = e'.name → SameText e e') ∧ r = r') {r r' : List Char}
    (h : (joinWith "," (es.map fun e => e.name ++ ": " ++ e.text)).toList ++ '}' :: r =
      (joinWith "," (es'.map fun e => e.name ++ ": " ++ e.text)).toList ++ '}' :: r') :
    List.Forall₂ SameText es es' ∧ r = r' := by
  have hh : ∀ e : Entry, PlainName e.name → ∀ r, ¬ ∃ r', (e.name ++ ": " ++ e.text).toList ++ r = '}' :: r' := by
    rintro e he r ⟨r', h⟩
    simp only [String.toList_append, List.append_assoc] at h
    have h1 := he '}' (by simp)
    cases hl : e.name.toList with
    | nil =>
      rw [hl] at h
      exact absurd (List.cons.inj h).1 (by decide)
    | cons c l =>
      rw [hl] at h h1
      exact h1 (by rw [(List.cons.inj h).1]; exact List.mem_cons_self)
  refine join_split (sep := ",") (s := []) rfl (stop := '}') (by decide) ?_ (fun e he => hh e (hn e he))
    (fun e he => hh e (hn' e he)) h
  intro e he e' he' r r' hr hr' h
  simp only [String.toList_append, List.append_assoc] at h
  obtain ⟨h1, h2⟩ := split_char (hn e he ':' (by simp)) (hn' e' he' ':' (by simp)) h
  obtain ⟨h3, h4⟩ := hrec e he e' he' r r' (fun c hc => (hr c hc).elim .inl fun h => .inr (.inl h))
    (fun c hc => (hr' c hc).elim .inl fun h => .inr (.inl h)) (List.cons.inj h2).2
  exact ⟨h3 (String.toList_inj.1 h1), h4⟩

/-- The text of an entry determines the entry, up to name, patterns and the orders of nested structs. -/
theorem entry_split (e e' : Entry) (he : ∀ n d es o, e = .nested n d es o → TextOk es)
    (he' : ∀ n d es o, e' = .nested n d es o → TextOk es) (r r' : List Char) (hr : Begins Follow r) (hr' : Begins Follow r')
    (h : e.text.toList ++ r = e'.text.toList ++ r') : (e.name = e'.name → SameText e e') ∧ r = r' := by
  match e, e' with
  | .prim n d p, .prim n' d' p' =>
    simp only [Entry.text, String.toList_append, List.append_assoc] at h
    obtain ⟨c, l, h1, h2, -⟩ := prim_head p r
    obtain ⟨c', l', h1', h2', -⟩ := prim_head p' r'
    obtain ⟨rfl, h3⟩ := repeatText_split (by rw [h1]; exact begins_cons.2 h2) (by rw [h1']; exact begins_cons.2 h2') h
    obtain ⟨h4, h5, h6, h7⟩ := prim_split (Follow.noDigit hr) (Follow.noDigit hr') h3
    exact ⟨fun hn => by cases (show n = n' from hn); exact .prim h4 h5 h6, h7⟩
  | .prim n d p, .nested n' d' es' o' =>
    simp only [Entry.text, String.toList_append, List.append_assoc] at h
    obtain ⟨c, l, h1, h2, h2c⟩ := prim_head p r
    obtain ⟨l', h1'⟩ := nested_head es' r'
    obtain ⟨-, h3⟩ := repeatText_split (by rw [h1]; exact begins_cons.2 h2) (by rw [h1']; exact begins_cons.2 (by decide)) h
    exact absurd (List.cons.inj (h1.symm.trans (h3.trans h1'))).1 h2c
  | .nested n d es o, .prim n' d' p' =>
    simp only [Entry.text, String.toList_append, List.append_assoc] at h
    obtain ⟨c, l, h1, h2, h2c⟩ := prim_head p' r'
    obtain ⟨l', h1'⟩ := nested_head es r
    obtain ⟨-, h3⟩ := repeatText_split (by rw [h1']; exact begins_cons.2 (by decide)) (by rw [h1]; exact begins_cons.2 h2) h
    exact absurd (List.cons.inj (h1.symm.trans (h3.symm.trans h1'))).1 h2c
  | .nested n d es o, .nested n' d' es' o' =>
    simp only [Entry.text, String.toList_append, List.append_assoc] at h
    obtain ⟨l, h1⟩ := nested_head es r
    obtain ⟨l', h1'⟩ := nested_head es' r'
    obtain ⟨rfl, h3⟩ := repeatText_split (by rw [h1]; exact begins_cons.2 (by decide))
      (by rw [h1']; exact begins_cons.2 (by decide)) h
    have ho := he n d es o rfl
    have ho' := he' n' d es' o' rfl
    cases ho with
    | mk nodup name sub =>
    cases ho' with
    | mk nodup' name' sub' =>
    rw [compactText_ok nodup, compactText_ok nodup'] at h3
    simp only [String.toList_append, List.append_assoc] at h3
    obtain ⟨h4, h5⟩ := fields_split name name' (fun a ha b hb r r' hr hr' h =>
      have : sizeOf a < 1 + sizeOf n + sizeOf d + sizeOf es + sizeOf o := by
        have := List.sizeOf_lt_of_mem ha
        omega
      entry_split a b (fun n d es'' o'' hx => sub n d es'' o'' (hx ▸ ha))
        (fun n d es'' o'' hx => sub' n d es'' o'' (hx ▸ hb)) r r' hr hr' h) (List.append_cancel_left h3)
    exact ⟨fun hn => by cases (show n = n' from hn); exact .nested h4, h5⟩
termination_by sizeOf e
decreasing_by simp only [Entry.nested.sizeOf_spec]; omega

/-- The same entries have the same text. -/
theorem SameText.text_eq (e e' : Entry) (he : ∀ n d es o, e = .nested n d es o → TextOk es)
    (he' : ∀ n d es o, e' = .nested n d es o → TextOk es) (h : SameText e e') : e.name = e'.name ∧ e.text = e'.text := by
  match e, e', h with
  | .prim n d p, .prim _ _ p', .prim h1 h2 h3 =>
    refine ⟨rfl, ?_⟩
    simp only [Entry.text, Prim.text, Sparsity.dimText, h1, h2, h3]
  | .nested n d es o, .nested _ _ es' o', .nested h =>
    refine ⟨rfl, ?_⟩
    cases he n d es o rfl with
    | mk nodup name sub =>
    cases he' n d es' o' rfl with
    | mk nodup' name' sub' =>
    have key : ∀ l l' : List Entry, (∀ a ∈ l, a ∈ es) → (∀ b ∈ l', b ∈ es') → List.Forall₂ SameText l l' →
        l.map (fun e => e.name ++ ": " ++ e.text) = l'.map fun e => e.name ++ ": " ++ e.text := by
      intro l l' hl hl' h
      induction h with
      | nil => rfl
      | @cons a b l l' hab _ ih =>
        have : sizeOf a < 1 + sizeOf n + sizeOf d + sizeOf es + sizeOf o := by
          have := List.sizeOf_lt_of_mem (hl a List.mem_cons_self)
          omega
        obtain ⟨h1, h2⟩ := SameText.text_eq a b (fun n d es'' o'' hx => sub n d es'' o'' (hx ▸ hl a List.mem_cons_self))
          (fun n d es'' o'' hx => sub' n d es'' o'' (hx ▸ hl' b List.mem_cons_self)) hab
        rw [List.map_cons, List.map_cons, h1, h2, ih (fun x hx => hl x (List.mem_cons_of_mem _ hx))
          (fun x hx => hl' x (List.mem_cons_of_mem _ hx))]
    simp only [Entry.text, compactText_ok nodup, compactText_ok nodup', key es es' (fun _ h => h) (fun _ h => h) h]
termination_by sizeOf e
decreasing_by simp only [Entry.nested.sizeOf_spec]; omega

theorem forall₂_text {es es' : List Entry} (hs : ∀ n d es'' o, Entry.nested n d es'' o ∈ es → TextOk es'')
    (hs' : ∀ n d es'' o, Entry.nested n d es'' o ∈ es' → TextOk es'') (h : List.Forall₂ SameText es es') :
    es.map (fun e => (e.name, e.text)) = es'.map fun e => (e.name, e.text) := by
  induction h with
  | nil => rfl
  | @cons a b l l' hab _ ih =>
    obtain ⟨h1, h2⟩ := SameText.text_eq a b (fun n d es o hx => hs n d es o (hx ▸ List.mem_cons_self))
      (fun n d es o hx => hs' n d es o (hx ▸ List.mem_cons_self)) hab
    rw [List.map_cons, List.map_cons, h1, h2, ih (fun n d es o hx => hs n d es o (List.mem_cons_of_mem _ hx))
      (fun n d es o hx => hs' n d es o (List.mem_cons_of_mem _ hx))]

theorem fullText_ok {s : Struct} (h : (s.entries.map Entry.name).Nodup) :
    s.text = "Structure holding " ++ Nat.repr s.entries.length ++ " entries.\n" ++
      "  Order: " ++ listText (s.order.map OrderItem.text) ++ "\n" ++
      joinWith "" (s.entries.map fun e => "  " ++ e.name ++ " = " ++ e.text ++ "\n") := by
  have e1 : dictOfList (textTable s.entries) = s.entries.map fun e => (e.name, e.text) := by
    rw [textTable_eq, dictOfList_nodup (by simpa [Function.comp_def] using h)]
  rw [Struct.text, if_neg (by simp), e1]
  simp [Function.comp_def]

theorem joinWith_empty (a : String) (l : List String) : joinWith "" (a :: l) = a ++ joinWith "" l := by
  cases l with
  | nil => simp [joinWith]
  | cons b l => rw [joinWith_cons]; simp

theorem lines_split {es es' : List Entry} (hn : ∀ e ∈ es, PlainName e.name) (hn' : ∀ e ∈ es', PlainName e.name)
    (hs : ∀ n d es'' o, Entry.nested n d es'' o ∈ es → TextOk es'')
    (hs' : ∀ n d es'' o, Entry.nested n d es'' o ∈ es' → TextOk es'')
    (h : (joinWith "" (es.map fun e => "  " ++ e.name ++ " = " ++ e.text ++ "\n")).toList =
      (joinWith "" (es'.map fun e => "  " ++ e.name ++ " = " ++ e.text ++ "\n")).toList) :
    List.Forall₂ SameText es es' := by
  induction es generalizing es' with
  | nil =>
    cases es' with
    | nil => exact .nil
    | cons e' es' =>
      rw [List.map_cons, joinWith_empty] at h
      simp only [String.toList_append, List.append_assoc] at h
      exact absurd h (by simp [joinWith])
  | cons e es ih =>
    cases es' with
    | nil =>
      rw [List.map_cons, joinWith_empty] at h
      simp only [String.toList_append, List.append_assoc] at h
      exact absurd h (by simp [joinWith])
    | cons e' es' =>
      rw [List.map_cons, List.map_cons, joinWith_empty, joinWith_empty] at h
      simp only [String.toList_append, List.append_assoc] at h
      have h := List.append_cancel_left h
      have hsp : ∀ e : Entry, PlainName e.name → '=' ∉ e.name.toList ++ [' '] := by
        intro e he
        have := he '=' (by simp)
        simp [this]
      obtain ⟨h1, h2⟩ := split_char (c := '=') (hsp e (hn e List.mem_cons_self)) (hsp e' (hn' e' List.mem_cons_self))
        (by simpa [List.append_assoc] using h)
      have h1 : e.name = e'.name := String.toList_inj.1 (List.append_cancel_right h1)
      obtain ⟨h3, h4⟩ := entry_split e e' (fun n d es o hx => hs n d es o (hx ▸ List.mem_cons_self))
        (fun n d es o hx => hs' n d es o (hx ▸ List.mem_cons_self)) _ _
        (begins_cons.2 (.inr (.inr rfl))) (begins_cons.2 (.inr (.inr rfl))) (List.cons.inj h2).2
      refine .cons (h3 h1) (ih (fun x hx => hn x (List.mem_cons_of_mem _ hx)) (fun x hx => hn' x (List.mem_cons_of_mem _ hx))
        (fun n d es o hx => hs n d es o (List.mem_cons_of_mem _ hx)) (fun n d es o hx => hs' n d es o (List.mem_cons_of_mem _ hx))
        (List.cons.inj h4).2)

/-- **C93** (compact text): the compact texts of two structs with plain names are equal exactly if the structs have the same names,
repeat counts, numbers of rows and columns, types and nested structs, in this order of entries. -/
theorem C93_compact {s s' : Struct} (hwf : WFs s.entries s.order) (hwf' : WFs s'.entries s'.order)
    (hn : Names PlainName s.entries) (hn' : Names PlainName s'.entries) :
    s.text true = s'.text true ↔ List.Forall₂ SameText s.entries s'.entries := by
  cases TextOk.of_wf hwf hn with
  | mk nodup name sub =>
  cases TextOk.of_wf hwf' hn' with
  | mk nodup' name' sub' =>
  constructor
  · intro h
    simp only [Struct.text, if_true, compactText_ok nodup, compactText_ok nodup'] at h
    have h := congrArg String.toList h
    simp only [String.toList_append, List.append_assoc] at h
    refine (fields_split name name' (fun a ha b hb r r' hr hr' h => entry_split a b (fun n d es o hx => sub n d es o (hx ▸ ha))
      (fun n d es o hx => sub' n d es o (hx ▸ hb)) r r' hr hr' h) (r := []) (r' := []) (List.append_cancel_left h)).1
  · intro h
    simp only [Struct.text, if_true, textTable_eq, forall₂_text sub sub' h]

/-- **C93** (text): the texts `str(s)` of two structs with plain names are equal exactly if in addition the total size and the order
of the outermost struct are the same. -/
theorem C93_text {c c' : CS} (hwf : WFs c.struct.entries c.struct.order) (hwf' : WFs c'.struct.entries c'.struct.order)
    (hn : Names PlainName c.struct.entries) (hn' : Names PlainName c'.struct.entries) :
    c.text = c'.text ↔
      c.size = c'.size ∧ c.struct.order = c'.struct.order ∧ List.Forall₂ SameText c.struct.entries c'.struct.entries := by
  have quote : ∀ {es o}, WFs es o → Names PlainName es → ∀ a ∈ o, ∀ s ∈ a.names, '\'' ∉ s.toList := by
    intro es o hwf hn a ha s hs
    cases hwf with
    | mk _ perm _ _ =>
    cases hn with
    | mk h1 _ =>
    obtain ⟨e, he, rfl⟩ := List.mem_map.1 (perm.subset (List.mem_flatMap.2 ⟨a, ha, hs⟩))
    exact h1 e he '\'' (by simp)
  have hq := quote hwf hn
  have hq' := quote hwf' hn'
  cases TextOk.of_wf hwf hn with
  | mk nodup name sub =>
  cases TextOk.of_wf hwf' hn' with
  | mk nodup' name' sub' =>
  constructor
  · intro h
    simp only [CS.text, Bool.false_eq_true, if_false, fullText_ok nodup, fullText_ok nodup'] at h
    have h := congrArg String.toList h
    simp only [String.toList_append, List.append_assoc] at h
    obtain ⟨h1, h2⟩ := repr_split (begins_cons.2 rfl) (begins_cons.2 rfl) (List.append_cancel_left h)
    obtain ⟨-, h4⟩ := repr_split (begins_cons.2 rfl) (begins_cons.2 rfl) (List.append_cancel_left (List.append_cancel_left
      (as := ".\n".toList) h2))
    obtain ⟨h5, h6⟩ := orders_split hq hq' (List.append_cancel_left (as := "  Order: ".toList)
      (List.append_cancel_left (as := " entries.\n".toList) h4))
    exact ⟨h1, h5, lines_split name name' sub sub' (List.append_cancel_left h6)⟩
  · rintro ⟨h1, h2, h3⟩
    simp only [CS.text, Bool.false_eq_true, if_false, Struct.text, textTable_eq, forall₂_text sub sub' h3, h1, h2]

/-- The descriptions of the classes of objects (structure3.py:944, 999, 1035-1036, 1101). -/
def descriptions : List String :=
  ["symbolic SX", "MX.sym", "Mutable SX", "Mutable DM", "Mutable MX", "Partially mutable MX"]

theorem objText_take {d : String} (hd : d ∈ descriptions) (c : CS) (compact : Bool) :
    (objText d c compact).toList.take 9 = (d ++ if compact then " ({" else " with").toList.take 9 := by
  simp only [descriptions, List.mem_cons, List.not_mem_nil, or_false] at hd
  cases compact with
  | false =>
    simp only [objText, Bool.false_eq_true, if_false, String.toList_append, List.append_assoc]
    rcases hd with rfl | rfl | rfl | rfl | rfl | rfl <;> rfl
  | true =>
    have hJ : (c.text true).toList = '{' :: ((joinComma ((dictOfList (textTable c.struct.entries)).map fun p =>
        p.1 ++ ": " ++ p.2)).toList ++ "}".toList) := by
      rw [CS.text, if_pos rfl, Struct.text, if_pos rfl, compactText, String.toList_append, String.toList_append,
        String.toList_append]
      rfl
    rw [objText, if_pos rfl, if_pos rfl, String.toList_append, String.toList_append, String.toList_append, hJ, List.append_assoc,
      List.append_assoc, String.toList_append]
    rcases hd with rfl | rfl | rfl | rfl | rfl | rfl <;> rfl

/-- **C93** (objects): the texts of two objects are equal exactly if their descriptions and the texts of their structs are. -/
theorem C93_object {d d' : String} (hd : d ∈ descriptions) (hd' : d' ∈ descriptions) (c c' : CS) (compact : Bool) :
    objText d c compact = objText d' c' compact ↔ d = d' ∧ c.text compact = c'.text compact := by
  constructor
  · intro h
    have h1 := congrArg (fun s => (String.toList s).take 9) h
    simp only [objText_take hd, objText_take hd'] at h1
    have key : d = d' := by
      cases compact with
      | false => exact (by decide : ∀ a ∈ descriptions, ∀ b ∈ descriptions,
          (a ++ " with").toList.take 9 = (b ++ " with").toList.take 9 → a = b) d hd d' hd' h1
      | true => exact (by decide : ∀ a ∈ descriptions, ∀ b ∈ descriptions,
          (a ++ " ({").toList.take 9 = (b ++ " ({").toList.take 9 → a = b) d hd d' hd' h1
    subst key
    refine ⟨rfl, ?_⟩
    have h := congrArg String.toList h
    cases compact with
    | false =>
      simp only [objText, Bool.false_eq_true, if_false, String.toList_append, List.append_assoc] at h
      exact String.toList_inj.1 (List.append_cancel_left (List.append_cancel_left h))
    | true =>
      simp only [objText, if_true, String.toList_append, List.append_assoc] at h
      have h := List.append_cancel_left (List.append_cancel_left h)
      exact String.toList_inj.1 (List.append_cancel_right h)
  · rintro ⟨rfl, h⟩
    cases compact <;> simp only [objText, h, if_true, Bool.false_eq_true, if_false]

/-! ## Instances -/

theorem exStruct_plain : Names PlainName exStruct.entries := by
  refine .mk ?_ ?_
  · intro e he
    simp only [exStruct, List.mem_cons, List.not_mem_nil, or_false] at he
    rcases he with rfl | rfl | rfl | rfl <;> simp [PlainName, Entry.name]
  · intro n d es' o he
    simp only [exStruct, List.mem_cons, List.not_mem_nil, or_false, reduceCtorEq, false_or, Entry.nested.injEq] at he
    obtain ⟨-, -, rfl, -⟩ := he
    refine .mk ?_ ?_
    · intro e he
      simp only [exNested, List.mem_cons, List.not_mem_nil, or_false] at he
      rcases he with rfl | rfl <;> simp [PlainName, Entry.name]
    · intro n d es' o he
      simp [exNested] at he

/-- The texts of `exStruct`; `n` has an upper triangular entry `P`, whose pattern is not shown. -/
example : exStruct.text true = "{x: 2x1,n: repeated([2]): {u: 1x1,P: 2x2},a: repeated([3]): 1x1,b: repeated([2]): 2x1}" ∧
    (CS.ofStruct exStruct).map (objText "Mutable DM") = .ok ("Mutable DM with following structure:\n" ++
      "Structure with total size 17.\nStructure holding 4 entries.\n  Order: ['x', 'n', ('a', 'b')]\n" ++
      "  x = 2x1\n  n = repeated([2]): {u: 1x1,P: 2x2}\n  a = repeated([3]): 1x1\n  b = repeated([2]): 2x1\n") :=
  ⟨rfl, by decide +kernel⟩

/-- No other struct that is well-formed and has plain names has the text of `exStruct` and a single entry. -/
example (c : CS) (e : Entry) (h : c.struct.entries = [e]) (hwf : WFs c.struct.entries c.struct.order)
    (hn : Names PlainName c.struct.entries) (c' : CS) (h' : CS.ofStruct exStruct = .ok c') : c.text ≠ c'.text := by
  intro ht
  have e2 : c'.struct = exStruct := ofStruct_struct h'
  have := ((C93_text hwf (by rw [e2]; exact exStruct_wf) hn (by rw [e2]; exact exStruct_plain)).1 ht).2.2
  have := this.length_eq
  rw [h, e2] at this
  simp [exStruct] at this

/-- A struct with a nested struct of the given order. -/
def exInner (o : List OrderItem) : Struct :=
  ⟨[.nested "n" [] [.prim "x" [] ⟨.dense 1, false, none, none⟩, .prim "y" [] ⟨.dense 1, false, none, none⟩] o], [.one "n"]⟩

/-- **C93** (finding): the text does not determine the layout: two structs with the same text, in which position 0 belongs to
different elements. -/
theorem C93_order_hidden : ∃ c c', CS.ofStruct (exInner [.one "x", .one "y"]) = .ok c ∧
    CS.ofStruct (exInner [.one "y", .one "x"]) = .ok c' ∧ c.text = c'.text ∧
    c.getCanonicalIndex 0 0 = .ok [.str "n", .str "x"] ∧ c'.getCanonicalIndex 0 0 = .ok [.str "n", .str "y"] :=
  ⟨_, _, rfl, rfl, rfl, rfl, rfl⟩

/-- The compact text distinguishes `exStruct` from a struct with its first entry alone, and the text of an SX struct differs from
that of a mutable DM struct. -/
example (c : CS) : exStruct.text true ≠ (⟨[.prim "x" [] ⟨.dense 2 1, false, none, none⟩], [.one "x"]⟩ : Struct).text true ∧
    objText "symbolic SX" c false ≠ objText "Mutable DM" c false := by
  constructor
  · rw [Ne, C93_compact exStruct_wf (.mk (by simp) (by simp [Entry.name, OrderItem.names])
      (by simp; rintro _ _ _ - - rfl; exact Sparsity.dense_canon _ _) (by simp)) exStruct_plain (.mk (by simp [PlainName, Entry.name]) (by simp))]
    intro h
    simpa [exStruct] using h.length_eq
  · rw [Ne, C93_object (by simp [descriptions]) (by simp [descriptions])]
    simp

end CE.St
