import Verif.Struct.PropsExpr
import Verif.Struct.PropsSymm

/-! # Definition of entries (C65) -/

namespace CE.St

variable {V : Type}

/-! ## What the arguments mean -/

/-- The keywords of `entry`. -/
inductive Kw
  | repeat' | shape | sym | expr | struct | shapestruct | type

/-- The keyword is given. -/
def EntryArgs.Has (a : EntryArgs V) : Kw → Prop
  | .repeat' => a.repeat' ≠ none
  | .shape => a.shape ≠ none
  | .sym => a.sym ≠ none
  | .expr => a.expr ≠ none
  | .struct => a.struct ≠ none
  | .shapestruct => a.shapestruct ≠ none
  | .type => a.type ≠ none

/-- The pairs of keywords that exclude each other. -/
inductive Clash : Kw → Kw → Prop
  | shape_struct : Clash .shape .struct
  | shapestruct_struct : Clash .shapestruct .struct
  | sym_shape : Clash .sym .shape
  | sym_repeat : Clash .sym .repeat'
  | sym_expr : Clash .sym .expr
  | expr_shape : Clash .expr .shape
  | expr_repeat : Clash .expr .repeat'

/-- All elements of an `r` x `c` matrix are structural nonzeros. -/
def IsFull (r c : ℕ) (sp : Sparsity) : Prop :=
  sp.Canon ∧ sp.rows = r ∧ sp.cols = c ∧ ∀ i j, (i, j) ∈ sp.nz ↔ i < r ∧ j < c

/-- The dimensions that a `shape` argument stands for. -/
inductive ShapeDims : ShapeArg → ℕ → ℕ → Prop
  | int (n) : ShapeDims (.int n) n 1
  | one (n) : ShapeDims (.tup [n]) n 1
  | two (n m) : ShapeDims (.tup [n, m]) n m

/-- The length that an element of `shapestruct` stands for. -/
inductive SSLen : SSItem → ℕ → Prop
  | num (n) : SSLen (.num n) n
  | struct (c : CS) : SSLen (.struct c) c.size

/-- The dimensions that a `shapestruct` argument stands for. -/
inductive SSDims : SSArg → ℕ → ℕ → Prop
  | struct (c : CS) : SSDims (.struct c) c.size 1
  | one {x n} : SSLen x n → SSDims (.tup [x]) n 1
  | two {x y n m} : SSLen x n → SSLen y m → SSDims (.tup [x, y]) n m

/-- Following first elements of the lists one finds `None` or an empty list. -/
inductive NoHead : Pay V → Prop
  | none : NoHead .none
  | nil : NoHead (.list [])
  | cons {p l} : NoHead p → NoHead (.list (p :: l))

/-- The pattern of an element, before `type` is taken into account: that of the expression or symbol, else the shape, else the
sizes of the structures, else a scalar. -/
inductive EntryArgs.Elem (a : EntryArgs V) : Sparsity → Prop
  | expr {e r m} : a.expr = some e → Heads e r m → a.Elem m.sp
  | exprNone {e sp} : a.expr = some e → NoHead e → IsFull 0 0 sp → a.Elem sp
  | symSX {m} : a.expr = none → a.sym = some (.sx m true) → a.Elem m.sp
  | symStruct {s m} : a.expr = none → a.sym = some (.structured s m) → a.Elem m.sp
  | shape {x r c sp} : a.expr = none → a.sym = none → a.shape = some x → ShapeDims x r c → IsFull r c sp → a.Elem sp
  | pattern {sp} : a.expr = none → a.sym = none → a.shape = some (.sparsity sp) → a.Elem sp
  | shapestruct {x r c sp} : a.expr = none → a.sym = none → a.shape = none → a.shapestruct = some x → SSDims x r c →
      IsFull r c sp → a.Elem sp
  | scalar {sp} : a.expr = none → a.sym = none → a.shape = none → a.shapestruct = none → IsFull 1 1 sp → a.Elem sp

/-- The repeat counts. -/
inductive EntryArgs.Reps (a : EntryArgs V) : List ℕ → Prop
  | expr {e r m} : a.expr = some e → Heads e r m → a.Reps r
  | exprNone {e} : a.expr = some e → NoHead e → a.Reps [0]
  | given {r} : a.expr = none → a.repeat' = some r → a.Reps r
  | none : a.expr = none → a.repeat' = none → a.Reps []

/-! ## The steps -/

theorem isFull_dense (r c : ℕ) : IsFull r c (.dense r c) :=
  ⟨List.Sublist.refl _, rfl, rfl, fun _ _ => Sparsity.mem_positions⟩

theorem IsFull.eq {r c : ℕ} {sp : Sparsity} (h : IsFull r c sp) : sp = .dense r c := by
  obtain ⟨hc, rfl, rfl, hm⟩ := h
  have : sp.nz = Sparsity.positions sp.rows sp.cols := by
    refine hc.eq_of_length_le ?_
    refine (List.subperm_of_subset (Sparsity.positions_nodup _ _) ?_).length_le
    rintro ⟨i, j⟩ hp
    exact (hm i j).2 (Sparsity.mem_positions.1 hp)
  cases sp
  simp only [Sparsity.dense, Sparsity.mk.injEq, true_and]
  exact this

theorem getPrimitive_none {pay : Pay V} {r : List ℕ} : (getPrimitive pay r).1 = none ↔ NoHead pay := by
  fun_induction getPrimitive pay r with
  | case1 => simp [NoHead.nil]
  | case2 r e l ih =>
    rw [ih]
    exact ⟨.cons, fun h => by cases h; assumption⟩
  | case3 => simp [NoHead.none]
  | case4 r e h1 h2 h3 =>
    simp only [reduceCtorEq, false_iff]
    intro h
    cases h with
    | none => exact h3 rfl
    | nil => exact h1 rfl
    | cons => exact h2 _ _ rfl

theorem getPrimitive_mat {pay : Pay V} {r ds : List ℕ} {m : SMat V} (h : getPrimitive pay r = (some (.mat m), ds)) :
    ∃ ds', ds = r ++ ds' ∧ Heads pay ds' m := by
  fun_induction getPrimitive pay r with
  | case1 => simp at h
  | case2 r e l ih =>
    obtain ⟨ds', rfl, hh⟩ := ih h
    exact ⟨_, by simp, .list hh⟩
  | case3 => simp at h
  | case4 r e h1 h2 h3 =>
    simp only [Prod.mk.injEq, Option.some.injEq] at h
    obtain ⟨rfl, rfl⟩ := h
    exact ⟨[], by simp, .mat m⟩

theorem conflict_iff (a : EntryArgs V) : a.conflict = false ↔ ∀ k k', Clash k k' → ¬ (a.Has k ∧ a.Has k') := by
  constructor
  · intro h k k' hc hh
    simp only [EntryArgs.conflict, Bool.or_eq_false_iff, Bool.and_eq_false_iff, Option.isSome_eq_false_iff,
      Option.isNone_iff_eq_none] at h
    cases hc <;> simp only [EntryArgs.Has] at hh <;> simp_all
  · intro h
    have h1 := h _ _ .shape_struct
    have h2 := h _ _ .shapestruct_struct
    have h3 := h _ _ .sym_shape
    have h4 := h _ _ .sym_repeat
    have h5 := h _ _ .sym_expr
    have h6 := h _ _ .expr_shape
    have h7 := h _ _ .expr_repeat
    simp only [EntryArgs.Has] at h1 h2 h3 h4 h5 h6 h7
    simp only [EntryArgs.conflict]
    cases ha : a.shape <;> cases hb : a.struct <;> cases hc : a.shapestruct <;> cases hd : a.sym <;> cases he : a.expr <;>
      cases hf : a.repeat' <;> simp_all

theorem shapeSp_ok {x : ShapeArg} {sp : Sparsity} :
    shapeSp (some x) = .ok sp ↔ x = .sparsity sp ∨ ∃ r c, ShapeDims x r c ∧ IsFull r c sp := by
  constructor
  · intro h
    match x, h with
    | .int n, h => cases h; exact .inr ⟨_, _, .int n, isFull_dense _ _⟩
    | .tup [n], h => cases h; exact .inr ⟨_, _, .one n, isFull_dense _ _⟩
    | .tup [n, m], h => cases h; exact .inr ⟨_, _, .two n m, isFull_dense _ _⟩
    | .sparsity sp, h => cases h; exact .inl rfl
  · rintro (rfl | ⟨r, c, hd, hf⟩)
    · rfl
    · rw [hf.eq]
      cases hd <;> rfl

theorem ssStep_ok {x : SSArg} {b : Bool} {sp0 sp : Sparsity} {ss} (h : ssStep (some x) b sp0 = .ok (ss, sp)) :
    ∃ r c, SSDims x r c ∧ sp = if b then sp0 else .dense r c := by
  rw [ssStep] at h
  match x, h with
  | .struct c, h => cases h; exact ⟨_, _, .struct c, rfl⟩
  | .tup [], h => simp [ssItems, Except.map] at h
  | .tup [.other], h => simp [ssItems, Except.map] at h
  | .tup [.num n], h => cases h; exact ⟨_, _, .one (.num n), rfl⟩
  | .tup [.struct c], h => cases h; exact ⟨_, _, .one (.struct c), rfl⟩
  | .tup [.other, _], h => simp [ssItems, Except.map] at h
  | .tup [.num _, .other], h => simp [ssItems, Except.map] at h
  | .tup [.struct _, .other], h => simp [ssItems, Except.map] at h
  | .tup [.num n, .num m], h => cases h; exact ⟨_, _, .two (.num n) (.num m), rfl⟩
  | .tup [.num n, .struct d], h => cases h; exact ⟨_, _, .two (.num n) (.struct d), rfl⟩
  | .tup [.struct c, .num m], h => cases h; exact ⟨_, _, .two (.struct c) (.num m), rfl⟩
  | .tup [.struct c, .struct d], h => cases h; exact ⟨_, _, .two (.struct c) (.struct d), rfl⟩
  | .tup (_ :: _ :: _ :: _), h => simp [ssItems, Except.map] at h
  | .other, h => simp [ssItems, Except.map] at h

theorem ssStep_dims {x : SSArg} {r c : ℕ} (h : SSDims x r c) (b : Bool) (sp0 : Sparsity) :
    ∃ ss, ssStep (some x) b sp0 = .ok (ss, if b then sp0 else .dense r c) := by
  cases h with
  | struct c => exact ⟨_, rfl⟩
  | one h1 => cases h1 <;> exact ⟨_, rfl⟩
  | two h1 h2 => cases h1 <;> cases h2 <;> exact ⟨_, rfl⟩

theorem exprStep_ok {e : Pay V} {rep0 rep : List ℕ} {sp0 sp : Sparsity} (h : exprStep (some e) rep0 sp0 = .ok (rep, sp)) :
    (∃ m, Heads e rep m ∧ sp = m.sp) ∨ (NoHead e ∧ rep = [0] ∧ sp = .dense 0 0) := by
  rw [exprStep] at h
  generalize hg : getPrimitive e [] = g at h
  match g, h with
  | (none, r), h =>
    cases h
    exact .inr ⟨getPrimitive_none.1 (by rw [hg]), rfl, rfl⟩
  | (some (.mat m), r), h =>
    cases h
    obtain ⟨ds, h1, h2⟩ := getPrimitive_mat hg
    rw [List.nil_append] at h1
    subst h1
    exact .inl ⟨m, h2, rfl⟩

theorem exprStep_noHead {e : Pay V} (h : NoHead e) (rep0 : List ℕ) (sp0 : Sparsity) :
    exprStep (some e) rep0 sp0 = .ok ([0], .dense 0 0) := by
  have := getPrimitive_none (r := []) |>.2 h
  rw [exprStep]
  generalize getPrimitive e [] = g at this
  obtain ⟨g1, g2⟩ := g
  simp only at this
  subst this
  rfl

theorem exprStep_heads {e : Pay V} {r : List ℕ} {m : SMat V} (h : Heads e r m) (rep0 : List ℕ) (sp0 : Sparsity) :
    exprStep (some e) rep0 sp0 = .ok (r, m.sp) := by
  rw [exprStep]
  simp only [h.primitive, List.nil_append]

/-- A pattern is accepted by the `type` argument. -/
def TypeOK (t : Option String) (sp : Sparsity) : Prop := ∀ x, t = some x → x = "symm" ∧ sp.rows = sp.cols

theorem typeStep_iff {t : Option String} {sp : Sparsity} {ss} : (∃ p, typeStep t sp ss = .ok p) ↔ TypeOK t sp := by
  cases t with
  | none => exact ⟨fun _ _ h => (by cases h), fun _ => ⟨_, rfl⟩⟩
  | some x =>
    rw [typeStep]
    constructor
    · rintro ⟨p, h⟩ y hy
      cases hy
      split_ifs at h with h1 h2
      exact ⟨not_not.1 h1, not_not.1 h2⟩
    · intro h
      obtain ⟨h1, h2⟩ := h x rfl
      exact ⟨_, by rw [if_neg (not_not.2 h1), if_neg (not_not.2 h2)]⟩

/-- The struct of the entry: that of the symbol, else the argument `struct`. -/
def EntryArgs.sub (a : EntryArgs V) : Option Struct :=
  match a.sym with
  | some (.structured s _) => some s
  | _ => a.struct.getD none

/-- The symbols of the entry. -/
def EntryArgs.symbols (a : EntryArgs V) : Option (SMat V) :=
  match a.sym with
  | some (.structured _ m) => some m
  | some (.sx m _) => some m
  | _ => none

/-- The steps that determine the pattern, in one. -/
def EntryArgs.steps (a : EntryArgs V) :
    Except PyErr (Option (List (Option ShapeFns)) × Option Struct × Option (SMat V) ×
      List ℕ × Sparsity) := do
  let sp ← shapeSp a.shape
  let (ss, sp) ← ssStep a.shapestruct a.shape.isSome sp
  let (struct, sym, sp) ← symStep a.sym (a.struct.getD none) sp
  let (rep, sp) ← exprStep a.expr (a.repeat'.getD []) sp
  pure (ss, struct, sym, rep, sp)

theorem newEntry_steps (a : EntryArgs V) (d : EntryDef V) : newEntry a = .ok d ↔
    a.unknown = [] ∧ a.conflict = false ∧ ∃ ss st sy rep sp p, a.steps = .ok (ss, st, sy, rep, sp) ∧
      typeStep a.type sp ss = .ok p ∧ d = ⟨mkEntry a.name rep st p, sy, match a.expr with | some .none => none | e => e⟩ := by
  unfold newEntry EntryArgs.steps
  by_cases hu : a.unknown = []
  swap
  · simp [hu]
  by_cases hc : a.conflict = true
  · simp [hu, hc]
  rw [if_neg (not_not.2 hu), if_neg hc]
  simp only [hu, Bool.not_eq_true] at hc ⊢
  simp only [hc, true_and]
  rcases shapeSp a.shape with e | sp
  · exact ⟨fun h => (by cases h), fun ⟨_, _, _, _, _, _, h, _⟩ => (by cases h)⟩
  show Except.bind (ssStep a.shapestruct a.shape.isSome sp) _ = _ ↔ _
  change _ ↔ ∃ ss st sy rep sp' p, Except.bind (ssStep a.shapestruct a.shape.isSome sp) _ = _ ∧ _
  rcases ssStep a.shapestruct a.shape.isSome sp with e | ⟨ss, sp⟩
  · exact ⟨fun h => (by cases h), fun ⟨_, _, _, _, _, _, h, _⟩ => (by cases h)⟩
  change Except.bind (symStep a.sym (a.struct.getD none) sp) _ = _ ↔
    ∃ ss st sy rep sp' p, Except.bind (symStep a.sym (a.struct.getD none) sp) _ = _ ∧ _
  rcases symStep a.sym (a.struct.getD none) sp with e | ⟨st, sy, sp⟩
  · exact ⟨fun h => (by cases h), fun ⟨_, _, _, _, _, _, h, _⟩ => (by cases h)⟩
  change Except.bind (exprStep a.expr (a.repeat'.getD []) sp) _ = _ ↔
    ∃ ss st sy rep sp' p, Except.bind (exprStep a.expr (a.repeat'.getD []) sp) _ = _ ∧ _
  rcases exprStep a.expr (a.repeat'.getD []) sp with e | ⟨rep, sp⟩
  · exact ⟨fun h => (by cases h), fun ⟨_, _, _, _, _, _, h, _⟩ => (by cases h)⟩
  change Except.bind (typeStep a.type sp ss) _ = _ ↔ _
  constructor
  · intro h
    rcases ht : typeStep a.type sp ss with e | p
    · rw [ht] at h; cases h
    · rw [ht] at h
      cases h
      exact ⟨_, _, _, _, _, _, rfl, ht, rfl⟩
  · rintro ⟨_, _, _, _, _, p, h, ht, rfl⟩
    cases h
    rw [ht]
    rfl

/-- What the entry keeps of an element of `shapestruct`: how to index by the structure. -/
inductive SSFun : SSItem → Option ShapeFns → Prop
  | num (n) : SSFun (.num n) none
  | struct (c : CS) : SSFun (.struct c) (some c.shapeFns)

/-- What the entry keeps of `shapestruct`. -/
inductive SSAttr : Option SSArg → Option (List (Option ShapeFns)) → Prop
  | none : SSAttr none none
  | struct (c : CS) : SSAttr (some (.struct c)) (some [some c.shapeFns, Option.none])
  | tup {l fs} : List.Forall₂ SSFun l fs → SSAttr (some (.tup l)) (some fs)

theorem ssStep_attr {x : Option SSArg} {b : Bool} {sp0 sp : Sparsity} {ss} (h : ssStep x b sp0 = .ok (ss, sp)) : SSAttr x ss := by
  cases x with
  | none => cases h; exact .none
  | some x =>
    obtain ⟨r, c, hd, _⟩ := ssStep_ok h
    cases hd with
    | struct c => cases h; exact .struct c
    | one h1 => cases h1 <;> cases h <;> exact .tup (.cons (by constructor) .nil)
    | two h1 h2 => cases h1 <;> cases h2 <;> cases h <;> exact .tup (.cons (by constructor) (.cons (by constructor) .nil))

theorem symStep_ok {x : Option (SymArg V)} {st0 st : Option Struct} {sp0 sp : Sparsity} {sy : Option (SMat V)}
    (h : symStep x st0 sp0 = .ok (st, sy, sp)) :
    (x = none ∧ st = st0 ∧ sy = none ∧ sp = sp0) ∨ (∃ m, x = some (.sx m true) ∧ st = st0 ∧ sy = some m ∧ sp = m.sp) ∨
      ∃ s m, x = some (.structured s m) ∧ st = some s ∧ sy = some m ∧ sp = m.sp := by
  match x, h with
  | none, h => cases h; exact .inl ⟨rfl, rfl, rfl, rfl⟩
  | some (.sx m true), h => cases h; exact .inr (.inl ⟨m, rfl, rfl, rfl, rfl⟩)
  | some (.structured s m), h => cases h; exact .inr (.inr ⟨s, m, rfl, rfl, rfl, rfl⟩)

theorem steps_ok {a : EntryArgs V} {ss st sy rep sp} (h : a.steps = .ok (ss, st, sy, rep, sp)) :
    SSAttr a.shapestruct ss ∧ st = a.sub ∧ sy = a.symbols ∧ a.Reps rep ∧ a.Elem sp ∧
      ∀ x, a.shapestruct = some x → ∃ r c, SSDims x r c := by
  unfold EntryArgs.steps at h
  rcases h1 : shapeSp a.shape with e | sp1
  · rw [h1] at h; cases h
  rw [h1] at h
  change Except.bind (ssStep a.shapestruct a.shape.isSome sp1) _ = _ at h
  rcases h2 : ssStep a.shapestruct a.shape.isSome sp1 with e | ⟨ss2, sp2⟩
  · rw [h2] at h; cases h
  rw [h2] at h
  change Except.bind (symStep a.sym (a.struct.getD none) sp2) _ = _ at h
  rcases h3 : symStep a.sym (a.struct.getD none) sp2 with e | ⟨st3, sy3, sp3⟩
  · rw [h3] at h; cases h
  rw [h3] at h
  change Except.bind (exprStep a.expr (a.repeat'.getD []) sp3) _ = _ at h
  rcases h4 : exprStep a.expr (a.repeat'.getD []) sp3 with e | ⟨rep4, sp4⟩
  · rw [h4] at h; cases h
  rw [h4] at h
  cases h
  have hsub : st = a.sub ∧ sy = a.symbols := by
    rcases symStep_ok h3 with ⟨hx, e1, e2, _⟩ | ⟨m, hx, e1, e2, _⟩ | ⟨s, m, hx, e1, e2, _⟩ <;>
      simp only [EntryArgs.sub, EntryArgs.symbols, hx, e1, e2, and_self]
  refine ⟨ssStep_attr h2, hsub.1, hsub.2, ?_, ?_, ?_⟩
  · cases he : a.expr with
    | none =>
      rw [he] at h4
      cases h4
      cases hr : a.repeat' with
      | none => exact .none he hr
      | some r => exact .given he hr
    | some e =>
      rw [he] at h4
      rcases exprStep_ok h4 with ⟨m, hm, _⟩ | ⟨hn, rfl, _⟩
      · exact .expr he hm
      · exact .exprNone he hn
  · cases he : a.expr with
    | some e =>
      rw [he] at h4
      rcases exprStep_ok h4 with ⟨m, hm, rfl⟩ | ⟨hn, _, rfl⟩
      · exact .expr he hm
      · exact .exprNone he hn (isFull_dense 0 0)
    | none =>
      rw [he] at h4
      cases h4
      rcases symStep_ok h3 with ⟨hx, _, _, e3⟩ | ⟨m, hx, _, _, rfl⟩ | ⟨s, m, hx, _, _, rfl⟩
      · rw [← e3] at h2
        cases hs : a.shape with
        | some x =>
          rw [hs] at h1 h2
          have e : sp = sp1 := by
            cases ht : a.shapestruct with
            | none => rw [ht] at h2; cases h2; rfl
            | some y => rw [ht] at h2; obtain ⟨_, _, _, e⟩ := ssStep_ok h2; simpa using e
          subst e
          rcases shapeSp_ok.1 h1 with rfl | ⟨r, c, hd, hf⟩
          · exact .pattern he hx hs
          · exact .shape he hx hs hd hf
        | none =>
          rw [hs] at h1 h2
          cases h1
          cases ht : a.shapestruct with
          | none => rw [ht] at h2; cases h2; exact .scalar he hx hs ht (isFull_dense 1 1)
          | some y =>
            rw [ht] at h2
            obtain ⟨r, c, hd, e⟩ := ssStep_ok h2
            have e : sp = .dense r c := by simpa using e
            exact .shapestruct he hx hs ht hd (e ▸ isFull_dense r c)
      · exact .symSX he hx
      · exact .symStruct he hx
  · intro x hx
    rw [hx] at h2
    obtain ⟨r, c, hd, _⟩ := ssStep_ok h2
    exact ⟨r, c, hd⟩

theorem steps_complete {a : EntryArgs V} (hc : a.conflict = false) (hss : ∀ x, a.shapestruct = some x → ∃ r c, SSDims x r c)
    {sp : Sparsity} (h : a.Elem sp) : ∃ ss st sy rep, a.steps = .ok (ss, st, sy, rep, sp) := by
  have hcl := (conflict_iff a).1 hc
  have hshape : ∀ x, a.expr = some x → a.shape = none ∧ a.sym = none := fun x hx =>
    ⟨by_contra fun h => hcl _ _ .expr_shape ⟨by simp [EntryArgs.Has, hx], h⟩,
      by_contra fun h => hcl _ _ .sym_expr ⟨h, by simp [EntryArgs.Has, hx]⟩⟩
  have hsym : ∀ x, a.sym = some x → a.shape = none := fun x hx =>
    by_contra fun h => hcl _ _ .sym_shape ⟨by simp [EntryArgs.Has, hx], h⟩
  -- `shape` and `shapestruct` in one
  have key : ∀ sp1, shapeSp a.shape = .ok sp1 → ∃ ss, ∃ sp2, ssStep a.shapestruct a.shape.isSome sp1 = .ok (ss, sp2) := by
    intro sp1 _
    cases ht : a.shapestruct with
    | none => exact ⟨_, _, rfl⟩
    | some y =>
      obtain ⟨r, c, hd⟩ := hss y ht
      obtain ⟨ss, hs⟩ := ssStep_dims hd a.shape.isSome sp1
      exact ⟨ss, _, hs⟩
  have fin : ∀ {sp1 ss sp2 st sy sp3 rep sp4}, shapeSp a.shape = .ok sp1 →
      ssStep a.shapestruct a.shape.isSome sp1 = .ok (ss, sp2) → symStep a.sym (a.struct.getD none) sp2 = .ok (st, sy, sp3) →
      exprStep a.expr (a.repeat'.getD []) sp3 = .ok (rep, sp4) → a.steps = .ok (ss, st, sy, rep, sp4) := by
    intro sp1 ss sp2 st sy sp3 rep sp4 h1 h2 h3 h4
    unfold EntryArgs.steps
    rw [h1]
    show Except.bind (ssStep a.shapestruct a.shape.isSome sp1) _ = _
    rw [h2]
    show Except.bind (symStep a.sym (a.struct.getD none) sp2) _ = _
    rw [h3]
    show Except.bind (exprStep a.expr (a.repeat'.getD []) sp3) _ = _
    rw [h4]
    rfl
  have plain : ∀ {sp1 ss sp2}, a.expr = none → a.sym = none → shapeSp a.shape = .ok sp1 →
      ssStep a.shapestruct a.shape.isSome sp1 = .ok (ss, sp2) → ∃ ss st sy rep, a.steps = .ok (ss, st, sy, rep, sp2) := by
    intro sp1 ss sp2 he hx h1 h2
    exact ⟨_, _, _, _, fin h1 h2 (by rw [hx]; rfl) (by rw [he]; rfl)⟩
  have withShape : ∀ {x}, a.expr = none → a.sym = none → a.shape = some x → shapeSp (some x) = .ok sp →
      ∃ ss st sy rep, a.steps = .ok (ss, st, sy, rep, sp) := by
    intro x he hx hs h1
    rw [← hs] at h1
    obtain ⟨ss, sp2, h2⟩ := key sp h1
    have e : sp2 = sp := by
      rw [hs] at h2
      cases ht : a.shapestruct with
      | none => rw [ht] at h2; cases h2; rfl
      | some y => rw [ht] at h2; obtain ⟨_, _, _, e⟩ := ssStep_ok h2; simpa using e
    exact plain he hx h1 (e ▸ h2)
  cases h with
  | @expr e r m he hh =>
    obtain ⟨hs, hx⟩ := hshape e he
    obtain ⟨ss, sp2, h2⟩ := key (.dense 1 1) (by rw [hs]; rfl)
    exact ⟨_, _, _, _, fin (by rw [hs]; rfl) h2 (by rw [hx]; rfl) (by rw [he]; exact exprStep_heads hh _ _)⟩
  | @exprNone e _ he hn hf =>
    obtain ⟨hs, hx⟩ := hshape e he
    obtain ⟨ss, sp2, h2⟩ := key (.dense 1 1) (by rw [hs]; rfl)
    rw [hf.eq]
    exact ⟨_, _, _, _, fin (by rw [hs]; rfl) h2 (by rw [hx]; rfl) (by rw [he]; exact exprStep_noHead hn _ _)⟩
  | @symSX m he hx =>
    have hs := hsym _ hx
    obtain ⟨ss, sp2, h2⟩ := key (.dense 1 1) (by rw [hs]; rfl)
    exact ⟨_, _, _, _, fin (by rw [hs]; rfl) h2 (by rw [hx]; rfl) (by rw [he]; rfl)⟩
  | @symStruct s m he hx =>
    have hs := hsym _ hx
    obtain ⟨ss, sp2, h2⟩ := key (.dense 1 1) (by rw [hs]; rfl)
    exact ⟨_, _, _, _, fin (by rw [hs]; rfl) h2 (by rw [hx]; rfl) (by rw [he]; rfl)⟩
  | shape he hx hs hd hf => exact withShape he hx hs (shapeSp_ok.2 (.inr ⟨_, _, hd, hf⟩))
  | pattern he hx hs => exact withShape he hx hs rfl
  | @shapestruct x r c _ he hx hs ht hd hf =>
    obtain ⟨ss, h2⟩ := ssStep_dims hd false (.dense 1 1)
    rw [hf.eq]
    exact plain he hx (by rw [hs]; rfl) (by rw [ht, hs]; exact h2)
  | scalar he hx hs ht hf =>
    rw [hf.eq]
    exact plain he hx (by rw [hs]; rfl) (by rw [ht, hs]; rfl)

/-- **C65** (which definitions are accepted): `entry(name, ...)` succeeds exactly if all keywords are known, no two of them
exclude each other, `shapestruct` consists of one or two structures or integers, the other arguments determine a pattern, and a
`type` is 'symm' and the pattern square. -/
theorem C65_accept (a : EntryArgs V) : (∃ d, newEntry a = .ok d) ↔
    a.unknown = [] ∧ (∀ k k', Clash k k' → ¬ (a.Has k ∧ a.Has k')) ∧
      (∀ x, a.shapestruct = some x → ∃ r c, SSDims x r c) ∧
      ∃ sp, a.Elem sp ∧ ∀ t, a.type = some t → t = "symm" ∧ sp.rows = sp.cols := by
  constructor
  · rintro ⟨d, h⟩
    obtain ⟨hu, hc, ss, st, sy, rep, sp, p, h1, h2, _⟩ := (newEntry_steps a d).1 h
    obtain ⟨_, _, _, _, he, hs⟩ := steps_ok h1
    exact ⟨hu, (conflict_iff a).1 hc, hs, sp, he, typeStep_iff.1 ⟨p, h2⟩⟩
  · rintro ⟨hu, hc, hs, sp, he, ht⟩
    have hc := (conflict_iff a).2 hc
    obtain ⟨ss, st, sy, rep, h1⟩ := steps_complete hc hs he
    obtain ⟨p, hp⟩ := typeStep_iff (ss := ss).2 ht
    exact ⟨_, (newEntry_steps a _).2 ⟨hu, hc, ss, st, sy, rep, sp, p, h1, hp, rfl⟩⟩

/-- **C65** (rejected definitions): an entry that is not accepted raises. -/
theorem C65_reject (a : EntryArgs V) (h : a.unknown ≠ [] ∨ ∃ k k', Clash k k' ∧ a.Has k ∧ a.Has k') :
    newEntry a = .error .generic := by
  unfold newEntry
  by_cases hu : a.unknown = []
  · rw [if_neg (not_not.2 hu), if_pos]
    rcases h with h | ⟨k, k', hk, hh⟩
    · exact absurd hu h
    · by_contra hc
      exact (conflict_iff a).1 (by simpa using hc) k k' hk hh
  · rw [if_pos hu]

/-- **C65** (the entry): name, repeat counts and the attributes `sym` and `expr` are as given; with a struct the entry is
nested, otherwise its elements have the pattern given by the arguments, or the upper triangle of it for the type 'symm'. -/
theorem C65_result (a : EntryArgs V) (d : EntryDef V) (h : newEntry a = .ok d) (hcan : ∀ sp, a.Elem sp → sp.Canon) :
    d.entry.name = a.name ∧ a.Reps d.entry.dims ∧ d.sym = a.symbols ∧ (a.expr ≠ some .none → d.expr = a.expr) ∧
      (∀ s, a.sub = some s → d.entry = .nested a.name d.entry.dims s.entries s.order) ∧
      (a.sub = none → ∃ p sp, d.entry = .prim a.name d.entry.dims p ∧ a.Elem sp ∧ SSAttr a.shapestruct p.ss ∧
        p.sp.Canon ∧ p.sp.rows = sp.rows ∧ p.sp.cols = sp.cols ∧
        (a.type = none → p.symm = false ∧ p.orig = none ∧ p.sp = sp) ∧
        (a.type ≠ none → p.symm = true ∧ p.orig = some sp ∧ ∀ i j, (i, j) ∈ p.sp.nz ↔ (i, j) ∈ sp.nz ∧ i ≤ j)) := by
  obtain ⟨hu, hc, ss, st, sy, rep, sp, p, h1, h2, rfl⟩ := (newEntry_steps a d).1 h
  obtain ⟨hattr, rfl, rfl, hr, he, hs⟩ := steps_ok h1
  refine ⟨?_, ?_, rfl, ?_, ?_, ?_⟩
  · simp only [mkEntry]; cases a.sub <;> rfl
  · have : (mkEntry a.name rep a.sub p).dims = rep := by simp only [mkEntry]; cases a.sub <;> rfl
    rw [this]; exact hr
  · intro hn
    show (match a.expr with | some .none => none | e => e) = a.expr
    split
    · rename_i hh; exact absurd hh hn
    · rfl
  · intro s hsub
    simp only [mkEntry, hsub, Entry.dims]
  · intro hsub
    refine ⟨p, sp, by simp only [mkEntry, hsub, Entry.dims], he, ?_⟩
    have hcs := hcan sp he
    cases ht : a.type with
    | none =>
      rw [ht] at h2
      cases h2
      exact ⟨hattr, hcs, rfl, rfl, fun _ => ⟨rfl, rfl, rfl⟩, fun hn => absurd rfl hn⟩
    | some t =>
      obtain ⟨rfl, hsq⟩ := typeStep_iff.1 ⟨p, h2⟩ t ht
      rw [ht, typeStep] at h2
      simp only [ne_eq, not_true_eq_false, if_false, hsq] at h2
      cases h2
      have hsy : IsSymm ⟨sp.inter (.upper sp.cols), true, some sp, ss⟩ sp := ⟨rfl, rfl, hcs, hsq, by rw [hsq]⟩
      refine ⟨hattr, ?_, rfl, rfl, fun hn => (by cases hn), fun _ => ⟨rfl, rfl, fun i j => hsy.mem_sp⟩⟩
      exact List.Sublist.trans List.filter_sublist hcs

/-! ## Examples -/

/-- `entry("P", shape=(2, 2), type='symm', repeat=[3])`: three upper triangles. -/
example : ∃ d, newEntry (V := ℚ) { name := "P", shape := some (.tup [2, 2]), type := some "symm", repeat' := some [3] } = .ok d ∧
    d.entry.dims = [3] ∧ d.entry.sparsity = ⟨2, 2, [(0, 0), (0, 1), (1, 1)]⟩ := ⟨_, rfl, rfl, by decide⟩

/-- `entry("P", shape=(2, 3), type='symm')` is not square. -/
example : ¬ ∃ d, newEntry (V := ℚ) { name := "P", shape := some (.tup [2, 3]), type := some "symm" } = .ok d := by
  rintro ⟨d, h⟩; cases h

/-- `entry("a", sym=x, repeat=2)` raises. -/
example (x : SMat ℚ) : newEntry { name := "a", sym := some (.sx x true), repeat' := some [2] } = .error .generic :=
  C65_reject _ (.inr ⟨_, _, .sym_repeat, by simp [EntryArgs.Has], by simp [EntryArgs.Has]⟩)

/-- `entry("a", shape=(1, 2, 3))` raises. -/
example : ¬ ∃ d, newEntry (V := ℚ) { name := "a", shape := some (.tup [1, 2, 3]) } = .ok d := by
  rintro ⟨d, h⟩; cases h

/-- `entry("a", expr=[[], x])`: no elements, whatever `x` is. -/
example (x : SMat ℚ) : ∃ d, newEntry { name := "a", expr := some (.list [.list [], .mat x]) } = .ok d ∧ d.entry.dims = [0] :=
  ⟨_, rfl, rfl⟩

end CE.St
