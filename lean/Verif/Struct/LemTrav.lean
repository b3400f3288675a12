import Verif.Struct.Trav
import Verif.Struct.LemBuild

/-! # Traversals along canonical indices -/

namespace CE.St

section
variable {σ V F R : Type}

theorem goEntry_nil (d : Disp σ V F R) (leaf : Trav σ V F R) (pi : List (PIdx F)) (inner : Bool) (c : CIdx) (pay : Pay V) :
    goEntry d leaf [] pi inner c pay = leaf pi inner c pay := by
  rw [goEntry]

theorem goEntry_int (d : Disp σ V F R) (leaf : Trav σ V F R) (s : ℕ) (ds : List ℕ) (i : ℤ) (rest : List (PIdx F))
    (inner : Bool) (c : CIdx) (pay : Pay V) :
    goEntry d leaf (s :: ds) (.int i :: rest) inner c pay = goEntry d leaf ds rest inner (c ++ [.int (canonical i s)]) pay := by
  rw [goEntry]

theorem canonical_nat (i s : ℕ) : canonical (i : ℤ) s = i := by
  rw [canonical, if_neg (by omega)]

theorem goEntry_ints (d : Disp σ V F R) (leaf : Trav σ V F R) {ks : CIdx} {dims : List ℕ} (h : InDims ks dims)
    (ds : List ℕ) (rest : List (PIdx F)) (inner : Bool) (c : CIdx) (pay : Pay V) :
    goEntry d leaf (dims ++ ds) (ks.map .ofKey ++ rest) inner c pay = goEntry d leaf ds rest inner (c ++ ks) pay := by
  induction h generalizing c with
  | nil => simp
  | @cons k dd ks dims a _ ih =>
    obtain ⟨i, hi, rfl⟩ := a
    rw [List.map_cons, List.cons_append, List.cons_append]
    show goEntry d leaf (dd :: (dims ++ ds)) (.int i :: _) inner c pay = _
    rw [goEntry_int, canonical_nat, ih]
    congr 1
    simp

theorem travTable_eq (d : Disp σ V F R) (es : List Entry) :
    travTable d es = es.map fun e => (e.name, goEntry d (Entry.leafTrav d e) e.dims) := by
  induction es with
  | nil => rfl
  | cons e es ih => rw [travTable, ih, List.map_cons]

/-- The traversal of an entry by name. -/
def entryTrav (d : Disp σ V F R) (es : List Entry) (k : String) : Trav σ V F R := fun pi inner c pay =>
  match (travTable d es).reverse.find? (fun t => decide (t.1 = k)) with
  | some t => t.2 pi inner c pay
  | none => M.throw .generic

theorem goStruct_str (d : Disp σ V F R) (keys : List String) (es : List Entry) (k : String) (rest : List (PIdx F))
    (inner : Bool) (c : CIdx) (pay : Pay V) :
    goStruct d keys (travTable d es) (.str k :: rest) inner c pay =
      entryTrav d es k rest inner (c ++ [.str k]) pay := by
  rw [goStruct]
  rfl

theorem entryTrav_of_mem (d : Disp σ V F R) {es : List Entry} (hn : (es.map Entry.name).Nodup) {e : Entry} (he : e ∈ es) :
    entryTrav d es e.name = goEntry d (Entry.leafTrav d e) e.dims := by
  funext pi inner c pay
  unfold entryTrav
  rw [travTable_eq, ← List.map_reverse, List.find?_map]
  have : es.reverse.find? ((fun t : String × Trav σ V F R => decide (t.1 = e.name)) ∘
      fun e => (e.name, goEntry d (Entry.leafTrav d e) e.dims)) = some e := find?_reverse_of_nodup hn he
  rw [this]
  rfl

theorem goStruct_entry (d : Disp σ V F R) (keys : List String) {es : List Entry} (hn : (es.map Entry.name).Nodup) {e : Entry}
    (he : e ∈ es) (rest : List (PIdx F)) (inner : Bool) (c : CIdx) (pay : Pay V) :
    goStruct d keys (travTable d es) (.str e.name :: rest) inner c pay =
      goEntry d (Entry.leafTrav d e) e.dims rest inner (c ++ [.str e.name]) pay := by
  rw [goStruct_str, entryTrav_of_mem d hn he]

/-- The dispatcher call at an element. -/
def callLeaf (d : Disp σ V F R) (inner : Bool) (pay : Pay V) (c : CIdx) (extra : List (PIdx F)) (p : Option Prim) :
    M σ (Tree R) :=
  M.bind (d.call inner pay c (if extra.isEmpty then none else some extra) p) fun r => M.pure (.leaf r)

/-- A canonical index followed by an extra index leads to the dispatcher call at that element. -/
theorem goStruct_leaf (d : Disp σ V F R) {es o ci p} (hwf : WFs es o) (h : IsLeaf es ci p) (keys : List String)
    (extra : List (PIdx F)) (inner : Bool) (c : CIdx) (pay : Pay V) :
    goStruct d keys (travTable d es) (ci.map .ofKey ++ extra) inner c pay =
      callLeaf d inner pay (c ++ ci) extra (some p) := by
  induction h generalizing o keys c with
  | @prim es n dims p ks he hks =>
    rw [List.map_cons, List.cons_append]
    show goStruct d keys (travTable d es) (.str (Entry.prim n dims p).name :: _) inner c pay = _
    rw [goStruct_entry d keys hwf.nodup he]
    have := goEntry_ints d (Entry.leafTrav d (.prim n dims p)) hks [] extra inner (c ++ [.str n]) pay
    rw [List.append_nil] at this
    simp only [Entry.dims, Entry.name]
    rw [this, goEntry_nil, Entry.leafTrav, callLeaf]
    simp
  | @nested es n dims es' o' ks ci p he hks hc ih =>
    rw [List.map_cons, List.cons_append]
    show goStruct d keys (travTable d es) (.str (Entry.nested n dims es' o').name :: _) inner c pay = _
    rw [goStruct_entry d keys hwf.nodup he, List.map_append, List.append_assoc]
    have := goEntry_ints d (Entry.leafTrav d (.nested n dims es' o')) hks [] (ci.map .ofKey ++ extra) inner (c ++ [.str n]) pay
    rw [List.append_nil] at this
    simp only [Entry.dims, Entry.name]
    rw [this, goEntry_nil, Entry.leafTrav]
    have key := ih (hwf.sub _ _ _ _ he) (o'.flatMap OrderItem.names) (c ++ [Key.str n] ++ ks)
    obtain ⟨m, ci', rfl⟩ := hc.head
    rw [List.map_cons, List.cons_append] at key ⊢
    simp only
    rw [key]
    congr 1
    simp

/-- A canonical index of a nested struct leads to the traversal of that struct. -/
theorem goStruct_node (d : Disp σ V F R) {es o ci es' o'} (hwf : WFs es o) (h : IsNode es ci es' o') (keys : List String)
    (rest : List (PIdx F)) (inner : Bool) (c : CIdx) (pay : Pay V) :
    goStruct d keys (travTable d es) (ci.map .ofKey ++ rest) inner c pay =
      goStruct d (o'.flatMap OrderItem.names) (travTable d es') rest inner (c ++ ci) pay := by
  induction h generalizing o keys c with
  | @top es n dims es' o' ks he hks =>
    rw [List.map_cons, List.cons_append]
    show goStruct d keys (travTable d es) (.str (Entry.nested n dims es' o').name :: _) inner c pay = _
    rw [goStruct_entry d keys hwf.nodup he]
    have := goEntry_ints d (Entry.leafTrav d (.nested n dims es' o')) hks [] rest inner (c ++ [.str n]) pay
    rw [List.append_nil] at this
    simp only [Entry.dims, Entry.name]
    rw [this, goEntry_nil, Entry.leafTrav]
    cases rest with
    | nil => rw [goStruct]; simp
    | cons r rest => simp
  | @nested es n dims es' o' ks ci es'' o'' he hks hc ih =>
    rw [List.map_cons, List.cons_append]
    show goStruct d keys (travTable d es) (.str (Entry.nested n dims es' o').name :: _) inner c pay = _
    rw [goStruct_entry d keys hwf.nodup he, List.map_append, List.append_assoc]
    have := goEntry_ints d (Entry.leafTrav d (.nested n dims es' o')) hks [] (ci.map .ofKey ++ rest) inner (c ++ [.str n]) pay
    rw [List.append_nil] at this
    simp only [Entry.dims, Entry.name]
    rw [this, goEntry_nil, Entry.leafTrav]
    have key := ih (hwf.sub _ _ _ _ he) (o'.flatMap OrderItem.names) (c ++ [Key.str n] ++ ks)
    obtain ⟨m, ci', rfl⟩ := hc.head
    rw [List.map_cons, List.cons_append] at key ⊢
    simp only
    rw [key]
    congr 1
    simp

end

end CE.St
