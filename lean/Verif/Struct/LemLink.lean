import Verif.Struct.PropsPrio
import Verif.Struct.PropsExpr
import Verif.Num.PropsDae
import Verif.Num.PropsGuess

/-! # Lemmas for the link between the numeric model and the struct framework (C122) -/

namespace CE.St

variable {V : Type}

/-- The definition `entry(name, expr=m)`. -/
def matDef (e : String × SMat V) : EntryDef V := ⟨.prim e.1 [] ⟨e.2.sp, false, none, none⟩, none, some (.mat e.2)⟩

theorem newEntry_mat (e : String × SMat V) (h : e.2.WF) :
    newEntry { name := e.1, expr := some (.mat e.2) } = .ok (matDef e) := C58_entry e.1 (.mat e.2) [] e.2.sp (.mat h rfl)

theorem defs_ones (ds : List (EntryDef V)) : (ds.map DefItem.one).flatMap DefItem.defs = ds := by
  rw [flatMap_map']
  simp [DefItem.defs]

theorem matDef_isExpr {e : String × SMat V} (h : e.2.WF) : IsExprDef (matDef e) (.mat e.2) [] e.2.sp :=
  ⟨.mat h rfl, newEntry_mat e h⟩

theorem matDefs (L : List (String × SMat V)) (hw : ∀ e ∈ L, e.2.WF) (hn : (L.map Prod.fst).Nodup) :
    ExprDefs ((L.map matDef).map DefItem.one) none where
  nodup := by
    rw [defs_ones, List.map_map]
    exact hn
  order := by rintro o ⟨⟩
  expr := by
    rw [defs_ones]
    intro d hd
    obtain ⟨e, he, rfl⟩ := List.mem_map.1 hd
    exact ⟨_, _, _, (matDef_isExpr (hw e he)).stores⟩

theorem toPay_mat {t : Tree (SMat V)} {m : SMat V} (h : t.toPay = .mat m) : t = .leaf m := by
  cases t with
  | leaf x => rw [Tree.toPay] at h; cases h; rfl
  | list l => rw [Tree.toPay] at h; cases h
  | dict l => rw [Tree.toPay] at h; cases h

/-- A struct of matrices: what is stored and what is read. -/
theorem veccat_mats [Zero V] [Add V] [Sub V] (L : List (String × SMat V)) (hw : ∀ e ∈ L, e.2.WF) (hn : (L.map Prod.fst).Nodup) :
    ∃ o c ls, newVeccat ((L.map matDef).map .one) none = .ok o ∧ o.cs = c ∧
      CS.ofList (((L.map matDef).map DefItem.one).map DefItem.item) none = .ok c ∧ Built c ls ∧
      WFs c.struct.entries c.struct.order ∧ c.struct.entries = L.map (fun e => (matDef e).entry) ∧
      c.struct.traverseCanonicalIndex 1 = L.map (fun e => [.str e.1]) ∧
      VReach c o ∧ o.master = .ok (L.flatMap fun e => e.2.data) ∧ (L.flatMap fun e => e.2.data).length = c.size ∧
      ∀ e ∈ L, o.getitem [.str e.1] = .ok (.leaf e.2) := by
  have h := matDefs L hw hn
  obtain ⟨o, c, h1, h2, h3, h4, h5⟩ := C52_assemble _ none h
  obtain ⟨c', ls, k1, k2, hwf, hb, _⟩ := h.struct
  rw [h2] at k1
  cases k1
  rw [defs_ones] at k2
  obtain ⟨o', m1, m2⟩ := C58_veccat_cat _ none h (L.map matDef) (by rw [defs_ones]) (by
    rw [defs_ones]
    intro d hd
    obtain ⟨e, he, rfl⟩ := List.mem_map.1 hd
    exact ⟨_, _, _, matDef_isExpr (hw e he)⟩) (by simp [List.map_map, Function.comp_def, DefItem.item, Item.orderItem])
  rw [h1] at m1
  cases m1
  rw [flatMap_map'] at m2
  obtain ⟨o', r1, r2⟩ := C58_veccat_read_partial _ none h
  rw [h1] at r1
  cases r1
  obtain ⟨l, g1, g2, _⟩ := (C52_cat hb hwf h3).1 h5
  have hl : L.flatMap (fun e => e.2.data) = l := Except.ok.inj (m2.symm.trans g1)
  refine ⟨o, c, ls, h1, (h3.good hwf).cs, h2, hb, hwf, ?_, ?_, h3, m2, hl ▸ g2, ?_⟩
  · rw [k2, List.map_map]
    rfl
  · have hord : c.struct.order = ((L.map matDef).map EntryDef.entry).map fun e => .one e.name := by
      rw [k2]
      simp [List.map_map, Function.comp_def, DefItem.item, Item.orderItem]
    have hent : c.struct.entries = (L.map matDef).map EntryDef.entry := by rw [k2]
    rw [traverseCanonicalIndex_one, hord, hent, tops_names _ fun e he => he]
    · rw [List.map_map, flatMap_map']
      simp only [Function.comp_def, matDef, Entry.dims, Entry.name, tuples]
      simp only [natKeys, List.map_cons, List.map_nil]
      exact List.flatMap_pure_eq_map _ _
    · rw [List.map_map, List.map_map]
      exact hn
  · intro e he
    obtain ⟨t, t1, t2⟩ := r2 (matDef e) (by rw [defs_ones]; exact List.mem_map.2 ⟨e, he, rfl⟩) _ _ _ (matDef_isExpr (hw e he))
    rw [toPay_mat t2] at t1
    exact t1

/-- Two names: the definition raises. -/
theorem veccat_mats_dup (L : List (String × SMat V)) (hn : ¬ (L.map Prod.fst).Nodup) :
    newVeccat ((L.map matDef).map .one) none = .error .generic := by
  have := C57_duplicate (((L.map matDef).map DefItem.one).map DefItem.item) none (by
    rw [defs_entries, defs_ones, List.map_map, List.map_map]
    exact hn)
  unfold newVeccat
  show Except.bind (CS.ofList _ _) _ = _
  rw [this]
  rfl

end CE.St
