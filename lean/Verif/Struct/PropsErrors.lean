import Verif.Struct.PropsDefine
import Verif.Struct.PropsIneq

/-! # The exception classes of structs and inequalities (C86) -/

namespace CE.St

variable {V : Type}

theorem traverse_class {σ F R : Type} (s : Struct) (d : Disp σ V F R) (pi : List (PIdx F)) (pay : Pay V) (st : σ) (e : PyErr)
    (h : (s.traverse d pi pay st).1 = .error e) : e = .generic := by
  unfold Struct.traverse at h
  split at h
  · cases h
  · cases h; rfl

/-- **C86** (reading): whatever goes wrong in `s[...]`, also inside a callable, the exception is a plain `Exception`. -/
theorem C86_getitem [Zero V] [Add V] [Sub V] (o : Obj V) (pi : List (PIdx (PyFn V))) (e : PyErr)
    (h : o.getitem pi = .error e) : e = .generic :=
  traverse_class _ _ _ _ _ _ h

/-- **C86** (indices): the same for `s.i[...]`. -/
theorem C86_i (c : CS) (pi : List (PIdx (PyFn V))) (e : PyErr) (h : c.i pi = .error e) : e = .generic :=
  traverse_class _ _ _ _ _ _ h

/-- **C86** (writing): the same for `s[...] = value`. -/
theorem C86_setitem [Zero V] (o : Obj V) (pi : List (PIdx (PyFn V))) (v : Pay V) (e : PyErr)
    (h : (o.setitem pi v).1 = .error e) : e = .generic := by
  unfold Obj.setitem at h
  split at h
  · cases h
  · rename_i h1
    cases h
    exact traverse_class _ _ _ _ _ _ (by rw [h1])

/-- **C86** (writing to a `struct_MX`): the same. -/
theorem C86_setitem_veccat (o : VObj V) (pi : List (PIdx (PyFn V))) (v : Pay V) (e : PyErr)
    (h : (o.setitem pi v).1 = .error e) : e = .generic := by
  unfold VObj.setitem at h
  split at h
  · cases h
  · rename_i h1
    cases h
    exact traverse_class _ _ _ _ _ _ (by rw [h1])

/-- **C86** (data): the constructor from data raises nothing but `Exception`. -/
theorem C86_data [Zero V] (c : CS) (m : SMat V) (e : PyErr) (h : newMatrixStruct c m = .error e) : e = .generic := by
  unfold newMatrixStruct at h
  split_ifs at h <;> cases h <;> rfl

theorem assignKeys_class [Zero V] (items : List (String × Pay V)) : ∀ (ks : List String) (o : Obj V) (e : PyErr),
    (∀ k ∈ ks, k ∈ items.map Prod.fst) → assignKeys items ks o = .error e → e = .generic := by
  intro ks
  induction ks with
  | nil => intro o e _ h; cases h
  | cons k ks ih =>
    intro o e hk h
    rw [assignKeys] at h
    cases hd : dictGet items k with
    | none => exact absurd (hk k List.mem_cons_self) (dictGet_eq_none.1 hd)
    | some v =>
      rw [hd] at h
      simp only at h
      split at h
      · exact ih _ _ (fun k hk' => hk k (List.mem_cons_of_mem _ hk')) h
      · rename_i h1
        cases h
        exact C86_setitem o _ v _ (by rw [h1])

/-- **C86** (call): `s(arg)` for a dict, a matrix, a number or lists raises nothing but `Exception`; in particular a missing
key is no KeyError. -/
theorem C86_call [Zero V] (nan : V) (c : CS) (arg : Pay V) (e : PyErr) (h : callDM nan c arg = .error e) : e = .generic := by
  unfold callDM at h
  split at h
  · rename_i items
    split_ifs at h with h1
    · rw [Bool.and_eq_true, List.all_eq_true, List.all_eq_true] at h1
      exact assignKeys_class items _ _ _ (fun k hk => by simpa using h1.2 k hk) h
    · cases h; rfl
  · split at h
    · cases h; rfl
    · split_ifs at h <;> exact C86_data _ _ _ h

/-- **C86** (entries): the definition of an entry raises `Exception`, or TypeError because of its `type`. -/
theorem C86_entry (a : EntryArgs V) (e : PyErr) (h : newEntry a = .error e) :
    e = .generic ∨ (e = .type ∧ a.type ≠ none) := by
  unfold newEntry at h
  split_ifs at h with h1 h2
  · cases h; exact .inl rfl
  · cases h; exact .inl rfl
  · simp only [bind, Except.bind] at h
    cases h3 : shapeSp a.shape with
    | error e' =>
      rw [h3] at h
      cases h
      unfold shapeSp at h3
      split at h3 <;> cases h3 <;> exact .inl rfl
    | ok sp =>
    rw [h3] at h
    simp only at h
    cases h4 : ssStep a.shapestruct a.shape.isSome sp with
    | error e' =>
      rw [h4] at h
      cases h
      unfold ssStep at h4
      split at h4
      · cases h4
      · rename_i arg _
        cases h5 : ssItems arg with
        | error e' =>
          rw [h5] at h4
          cases h4
          unfold ssItems at h5
          split at h5
          · cases h5
          · split_ifs at h5
            cases h5; exact .inl rfl
          · cases h5; exact .inl rfl
        | ok l => rw [h5] at h4; cases h4
    | ok x =>
    rw [h4] at h
    simp only at h
    cases h6 : symStep a.sym (a.struct.getD none) x.2 with
    | error e' =>
      rw [h6] at h
      cases h
      unfold symStep at h6
      split at h6 <;> cases h6 <;> exact .inl rfl
    | ok y =>
    rw [h6] at h
    simp only at h
    cases h7 : exprStep a.expr (a.repeat'.getD []) y.2.2 with
    | error e' =>
      rw [h7] at h
      cases h
      unfold exprStep at h7
      split at h7
      · cases h7
      · split at h7 <;> cases h7 <;> exact .inl rfl
    | ok z =>
    rw [h7] at h
    simp only at h
    cases h8 : typeStep a.type z.2 x.1 with
    | error e' =>
      rw [h8] at h
      cases h
      unfold typeStep at h8
      split at h8
      · cases h8
      · rename_i ht
        split_ifs at h8 <;> cases h8 <;> exact .inr ⟨rfl, by rw [ht]; simp⟩
    | ok p => rw [h8] at h; cases h

/-- **C86** (structs): for entries with canonical patterns and well-formed nested structs, and the default order or one that
names each entry once, the definition of a struct raises nothing but `Exception`. -/
theorem C86_define (arg : List Item) (order : Option (List OrderItem))
    (hp : ∀ n d p, Entry.prim n d p ∈ arg.flatMap Item.entries → p.sp.Canon)
    (hs : ∀ n d es o, Entry.nested n d es o ∈ arg.flatMap Item.entries → WFs es o)
    (ho : ∀ o, order = some o → (o.flatMap OrderItem.names).Perm ((arg.flatMap Item.entries).map Entry.name)) (e : PyErr)
    (h : CS.ofList arg order = .error e) : e = .generic := by
  by_cases hn : ((arg.flatMap Item.entries).map Entry.name).Nodup
  swap
  · rw [C57_duplicate arg order hn] at h
    cases h; rfl
  by_cases ht : order.isSome → ∀ es, Item.tup es ∉ arg
  swap
  · push Not at ht
    obtain ⟨h1, es, h2⟩ := ht
    obtain ⟨o, rfl⟩ := Option.isSome_iff_exists.1 h1
    rw [C57_tuple arg o es h2] at h
    cases h; rfl
  exfalso
  have hperm : ((order.getD (arg.map Item.orderItem)).flatMap OrderItem.names).Perm
      ((arg.flatMap Item.entries).map Entry.name) := by
    cases order with
    | none => rw [Option.getD_none, default_names]
    | some o => exact ho o rfl
  rw [ofList_ok ht hn] at h
  · obtain ⟨c, ls, h1, -⟩ := ofStruct_built (s := ⟨arg.flatMap Item.entries, order.getD (arg.map Item.orderItem)⟩)
      (.mk hn hperm hp hs)
    rw [h1] at h
    cases h
  · intro i hi n hn'
    have := hperm.mem_iff.1 (List.mem_flatMap.2 ⟨i, hi, hn'⟩)
    obtain ⟨e, he, rfl⟩ := List.mem_map.1 this
    exact ⟨e, he, rfl⟩

/-! ## Inequalities -/

variable {E K : Type}

theorem toNum_class (p : Pay V) (e : PyErr) (h : p.toNum = .error e) : e = .runtime := by
  unfold Pay.toNum at h
  split at h <;> cases h
  rfl

theorem mapM_class {α β : Type} {f : α → Except PyErr β} (c : PyErr) (l : List α)
    (hf : ∀ a ∈ l, ∀ e, f a = .error e → e = c) (e : PyErr) (h : l.mapM f = .error e) : e = c := by
  induction l with
  | nil => cases h
  | cons a l ih =>
    rw [List.mapM_cons] at h
    cases ha : f a with
    | error e' =>
      rw [ha] at h
      cases h
      exact hf a List.mem_cons_self _ ha
    | ok b =>
      rw [ha] at h
      cases hl : l.mapM f with
      | error e' =>
        rw [hl] at h
        cases h
        exact ih (fun a ha => hf a (List.mem_cons_of_mem _ ha)) hl
      | ok r => rw [hl] at h; cases h

theorem toRow_class (p : Pay V) (e : PyErr) (h : p.toRow = .error e) : e = .runtime := by
  unfold Pay.toRow at h
  split at h
  · exact mapM_class _ _ (fun a _ => toNum_class a) _ h
  · cases h; rfl

theorem ofRows_class (l : List (List V)) (e : PyErr) (h : ofRows l = .error e) : e = .runtime := by
  unfold ofRows at h
  simp only at h
  split at h <;> cases h
  rfl

theorem toMat_class (p : Pay V) (e : PyErr) (h : p.toMat = .error e) : e = .runtime := by
  unfold Pay.toMat at h
  split at h
  · cases h
  · cases h
  · rename_i l
    split at h
    · cases h
    · cases hm : l.mapM Pay.toRow with
      | error e' =>
        rw [hm] at h
        cases h
        exact mapM_class _ _ (fun a _ => toRow_class a) _ hm
      | ok r =>
        rw [hm] at h
        exact ofRows_class r e h
  · cases h; rfl

theorem convert_class (a : BArg K) (e : PyErr) (h : a.convert = .error e) :
    e = .runtime ∧ ∃ p, a = .pay p ∧ ∃ e', p.toMat = .error e' := by
  cases a with
  | st o => cases h
  | pay p =>
    rw [BArg.convert] at h
    cases hp : p.toMat with
    | error e' =>
      rw [hp] at h
      cases h
      exact ⟨toMat_class p e hp, p, rfl, e, hp⟩
    | ok m => rw [hp] at h; cases h

/-- **C86** (inequalities): the constructor raises RuntimeError, only if a bound or nominal value cannot be converted, or
AssertionError. -/
theorem C86_inequality [Neg K] (x : ExprObj E) (lb ub nom : Option (BArg K)) (e : PyErr)
    (h : newIneq x lb ub nom = .error e) : e = .assertion ∨
      (e = .runtime ∧ ∃ p : Pay (Ext K), (lb = some (.pay p) ∨ ub = some (.pay p) ∨ nom = some (.pay p)) ∧
        ∃ e', p.toMat = .error e') := by
  have bound : ∀ (d : SMat (Ext K)) (a : Option (BArg K)) (e : PyErr), boundOr d a = .error e →
      e = .runtime ∧ ∃ p, a = some (.pay p) ∧ ∃ e', p.toMat = .error e' := by
    intro d a e h
    cases a with
    | none => cases h
    | some a =>
      obtain ⟨h1, p, rfl, h2⟩ := convert_class a e h
      exact ⟨h1, p, rfl, h2⟩
  unfold newIneq at h
  simp only [bind, Except.bind] at h
  cases h1 : boundOr (dmInf x.shape).neg lb with
  | error e' =>
    rw [h1] at h
    cases h
    obtain ⟨h2, p, h3, h4⟩ := bound _ _ _ h1
    exact .inr ⟨h2, p, .inl h3, h4⟩
  | ok l =>
  rw [h1] at h
  simp only at h
  cases h2 : boundOr (dmInf x.shape) ub with
  | error e' =>
    rw [h2] at h
    cases h
    obtain ⟨h2, p, h3, h4⟩ := bound _ _ _ h2
    exact .inr ⟨h2, p, .inr (.inl h3), h4⟩
  | ok u =>
  rw [h2] at h
  simp only at h
  split_ifs at h
  · cases h3 : nominalOr x.shape nom with
    | error e' =>
      rw [h3] at h
      cases h
      cases nom with
      | none => cases h3
      | some a =>
        rw [nominalOr] at h3
        cases h4 : a.convert with
        | error e' =>
          rw [h4] at h3
          cases h3
          obtain ⟨h5, p, rfl, h6⟩ := convert_class a e h4
          exact .inr ⟨h5, p, .inr (.inr rfl), h6⟩
        | ok n =>
          rw [h4] at h3
          simp only at h3
          split_ifs at h3
          cases h3
          exact .inl rfl
    | ok n => rw [h3] at h; cases h
  · cases h; exact .inl rfl

/-- **C86** (the two classes): a bound or a nominal value of another shape is an AssertionError. -/
theorem C86_inequality_shape [Neg K] (m : SMat E) (l : SMat (Ext K)) (h : (l.sp.rows, l.sp.cols) ≠ (m.sp.rows, m.sp.cols)) :
    newIneq (.mx m) (some (.pay (.mat l))) none none = .error .assertion ∧
    newIneq (.mx m) none (some (.pay (.mat l))) none = .error .assertion ∧
    newIneq (.mx m) none none (some (.pay (.mat l))) = .error .assertion := by
  refine ⟨?_, ?_, ?_⟩
  · show (if _ then _ else _) = _
    rw [if_neg]
    rintro ⟨h1, -⟩
    exact h h1
  · show (if _ then _ else _) = _
    rw [if_neg]
    rintro ⟨-, h1⟩
    exact h h1
  · show (if _ then _ else _) = _
    rw [if_pos ⟨rfl, rfl⟩]
    show Except.map _ (if _ then _ else _) = _
    rw [if_neg]
    · rfl
    · exact h

/-! ## Examples -/

/-- An unknown name, a slice on the level of names, a list of the wrong length: always a plain `Exception`. -/
example (o : Obj ℚ) (h : o.cs.struct = oneStruct ⟨.dense 2 1, false, none, none⟩) :
    o.getitem [.str "y"] = .error .generic ∧ o.getitem [.slice none none none] = .error .generic := by
  constructor
  all_goals
    unfold Obj.getitem Struct.traverse
    rw [h]
    rfl

/-- `entry("x", type="sym")` is a TypeError, `entry("x", shape=2, struct=s)` an `Exception`. -/
example (s : Struct) : newEntry ({ name := "x", type := some "sym" } : EntryArgs ℚ) = .error .type ∧
    newEntry ({ name := "x", shape := some (.int 2), struct := some (some s) } : EntryArgs ℚ) = .error .generic := ⟨rfl, rfl⟩

/-- A dict without the keys of the struct, a column of the wrong length. -/
example (c : CS) (h : c.struct = oneStruct ⟨.dense 2 1, false, none, none⟩) (h2 : c.size = 2) :
    callDM (0 : ℚ) c (.dict []) = .error .generic ∧ callDM (0 : ℚ) c (.list [.num 1, .num 2, .num 3]) = .error .generic := by
  constructor
  · unfold callDM
    rw [h]
    rfl
  · have : callDM (0 : ℚ) c (.list [.num 1, .num 2, .num 3]) = newMatrixStruct c (.col [1, 2, 3]) := by
      have h3 : (Pay.list [.num 1, .num 2, .num 3] : Pay ℚ).toMat = .ok (.col [1, 2, 3]) := rfl
      unfold callDM
      simp only [h3]
      rw [if_neg]
      rintro ⟨h, -⟩
      exact absurd h (by decide)
    rw [this, newMatrixStruct, if_pos (by rw [h2]; show (3 : ℕ) ≠ 2; decide)]

/-- A bound that is a dict, a lower bound with three elements for two. -/
example (m : SMat ℚ) (hm : m.sp = .dense 2 1) :
    newIneq (K := ℚ) (.mx m) (some (.pay (.dict []))) none none = .error .runtime ∧
    newIneq (K := ℚ) (.mx m) (some (.pay (.mat (.col [.fin 0, .fin 0, .fin 0])))) none none = .error .assertion :=
  ⟨rfl, (C86_inequality_shape m _ (by rw [hm]; decide)).1⟩

/-- Further instances of C86: writing to a struct or a `struct_MX`, `s.i[...]`, and a definition with two entries of the same name. -/
example (o : Obj ℚ) (v : VObj ℚ) (c : CS) (x y : PyErr) (z : PyErr) (w : PyErr)
    (h1 : (o.setitem [.str "x", .int 7] (.num 1)).1 = .error x) (h2 : (v.setitem [.str "x"] (.dict [])).1 = .error y)
    (h3 : c.i (V := ℚ) [.str "x", .nesteddict] = .error z)
    (h4 : CS.ofList [.one (.prim "x" [] ⟨.dense 2 1, false, none, none⟩), .one (.prim "x" [] ⟨.dense 2 1, false, none, none⟩)] none =
      .error w) : x = .generic ∧ y = .generic ∧ z = .generic ∧ w = .generic := by
  refine ⟨C86_setitem o _ _ x h1, C86_setitem_veccat v _ _ y h2, C86_i c _ z h3, C86_define _ _ ?_ (by simp [Item.entries]) (by rintro o ⟨⟩) w h4⟩
  intro n d p h
  simp only [List.flatMap_cons, Item.entries, List.flatMap_nil, List.append_nil, List.singleton_append, List.mem_cons,
    Entry.prim.injEq, List.not_mem_nil, or_false, or_self] at h
  obtain ⟨_, _, rfl⟩ := h
  exact Sparsity.dense_canon _ _

end CE.St
