import Verif.Struct.LemLens2
import Verif.Struct.LemPrefix

/-! # The index matrices along a traversal -/

namespace CE.St

/-- The parts below `a` are those of the struct with entries `es`. -/
def PartsAt (map : List (CIdx × IMat)) (es : List Entry) (a : CIdx) : Prop :=
  ∀ r idx, r ≠ [] → dictGet map (a ++ r) = some idx → ∃ e, IsPart es r e idx.sp

theorem WFs.same {es o} (hwf : WFs es o) {e e' : Entry} (he : e ∈ es) (he' : e' ∈ es) (hn : e'.name = e.name) : e' = e := by
  have h1 := dictEntry_of_mem hwf.nodup he
  have h2 := dictEntry_of_mem hwf.nodup he'
  rw [hn] at h2
  exact Option.some.inj (h2.symm.trans h1)

theorem IsPart.prim_sp {es o} (hwf : WFs es o) {n ds p} (he : Entry.prim n ds p ∈ es) {ks : CIdx} {e sp}
    (h : IsPart es (.str n :: ks) e sp) : sp = p.sp := by
  generalize ha : Key.str n :: ks = a at h
  cases h with
  | leaf h =>
    cases h with
    | prim he' hks' =>
      injection ha with hn ha
      injection hn with hn
      cases hwf.same he he' hn.symm
      rfl
    | nested he' hks' _ =>
      injection ha with hn ha
      injection hn with hn
      cases hwf.same he he' hn.symm
  | node h _ =>
    cases h with
    | top he' hks' =>
      injection ha with hn ha
      injection hn with hn
      cases hwf.same he he' hn.symm
    | nested he' hks' _ =>
      injection ha with hn ha
      injection hn with hn
      cases hwf.same he he' hn.symm

theorem IsPart.nested_inv {es o} (hwf : WFs es o) {n ds es' o'} (he : Entry.nested n ds es' o' ∈ es) {ks r : CIdx} (hk : ks.length = ds.length)
    (hr : r ≠ []) {e sp} (h : IsPart es (.str n :: (ks ++ r)) e sp) : IsPart es' r e sp := by
  generalize ha : Key.str n :: (ks ++ r) = a at h
  cases h with
  | leaf h =>
    cases h with
    | prim he' hks' =>
      injection ha with hn ha
      injection hn with hn
      cases hwf.same he he' hn.symm
    | nested he' hks' h =>
      injection ha with hn ha
      injection hn with hn
      cases hwf.same he he' hn.symm
      obtain ⟨-, rfl⟩ := List.append_inj ha (by rw [hk, hks'.length])
      exact .leaf h
  | node h hl =>
    cases h with
    | top he' hks' =>
      injection ha with hn ha
      injection hn with hn
      cases hwf.same he he' hn.symm
      have := congrArg List.length ha
      rw [List.length_append, hks'.length, hk] at this
      exact (hr (List.eq_nil_of_length_eq_zero (by omega))).elim
    | nested he' hks' h =>
      injection ha with hn ha
      injection hn with hn
      cases hwf.same he he' hn.symm
      obtain ⟨-, rfl⟩ := List.append_inj ha (by rw [hk, hks'.length])
      exact .node h hl

mutual
theorem okAt_of {map : List (CIdx × IMat)} : ∀ (e : Entry) {es o a}, WFs es o → e ∈ es → PartsAt map es a → ∀ ks : List ℤ,
    ks.length = e.dims.length → e.okAt map (a ++ [.str e.name] ++ ks.map .int)
  | .prim n ds p, es, o, a, hwf, he, H, ks, hk => by
    rw [Entry.okAt]
    intro i hi
    rw [List.append_assoc] at hi
    obtain ⟨e, h⟩ := H _ _ (by simp) hi
    exact h.prim_sp hwf he
  | .nested n ds es' o', es, o, a, hwf, he, H, ks, hk => by
    rw [Entry.okAt]
    refine okIn_of es' (hwf.sub n ds es' o' he) (fun e h => h) ?_
    intro r idx hr hi
    rw [List.append_assoc, List.append_assoc] at hi
    obtain ⟨e, h⟩ := H _ _ (by simp) hi
    exact ⟨e, h.nested_inv hwf he (by rw [List.length_map]; exact hk) hr⟩
theorem okIn_of {map : List (CIdx × IMat)} : ∀ (l : List Entry) {es o a}, WFs es o → (∀ e ∈ l, e ∈ es) → PartsAt map es a → okIn map l a
  | [], _, _, _, _, _, _ => trivial
  | e :: l, es, o, a, hwf, hl, H => by
    rw [okIn]
    exact ⟨okAt_of e hwf (hl e List.mem_cons_self) H, okIn_of l hwf (fun e he => hl e (List.mem_cons_of_mem _ he)) H⟩
end

theorem Built.okIn {c : CS} {ls} (hb : Built c ls) (hwf : WFs c.struct.entries c.struct.order) : okIn c.map c.struct.entries [] := by
  refine okIn_of _ hwf (fun _ h => h) ?_
  intro r idx _ hi
  rw [List.nil_append] at hi
  obtain ⟨e, sp, h⟩ := hb.get_part hwf hi
  obtain ⟨m', h1, -, -, -, h2⟩ := hb.part hwf h
  rw [hi] at h1
  cases h1
  exact ⟨e, h2 ▸ h⟩

end CE.St
