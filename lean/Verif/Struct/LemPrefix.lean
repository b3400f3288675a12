import Verif.Struct.LemShift

/-! # The part of an object below a nested struct is an object of the nested struct -/

namespace CE.St

/-- The canonical index of a node below a node. -/
theorem IsNode.node_inv {es o a es' o'} (hwf : WFs es o) (h : IsNode es a es' o') :
    ∀ {d es'' o''}, d ≠ [] → IsNode es (a ++ d) es'' o'' → IsNode es' d es'' o'' := by
  induction h generalizing o with
  | @top es n dims es' o' ks he hks =>
    intro d es'' o'' hd h2
    generalize hx : (Key.str n :: ks) ++ d = x at h2
    cases h2 with
    | @top _ n' dims' _ _ ks' he' hks' =>
      have hn : n = n' := Key.str.inj (List.cons.inj hx).1
      cases eq_of_name hwf.nodup he he' hn
      have e2 : ks ++ d = ks' := (List.cons.inj hx).2
      have := congrArg List.length e2
      rw [List.length_append, hks.length, hks'.length] at this
      exact absurd (List.length_eq_zero_iff.1 (by omega)) hd
    | @nested _ n' dims' _ _ ks' c' _ _ he' hks' hc' =>
      have hn : n = n' := Key.str.inj (List.cons.inj hx).1
      cases eq_of_name hwf.nodup he he' hn
      have e2 : ks ++ d = ks' ++ c' := (List.cons.inj hx).2
      obtain ⟨rfl, rfl⟩ := List.append_inj e2 (by rw [hks.length, hks'.length])
      exact hc'
  | @nested es n dims es' o' ks c es1 o1 he hks hc ih =>
    intro d es'' o'' hd h2
    generalize hx : (Key.str n :: (ks ++ c)) ++ d = x at h2
    cases h2 with
    | @top _ n' dims' _ _ ks' he' hks' =>
      have hn : n = n' := Key.str.inj (List.cons.inj hx).1
      cases eq_of_name hwf.nodup he he' hn
      have e2 : ks ++ c ++ d = ks' := (List.cons.inj hx).2
      have := congrArg List.length e2
      rw [List.length_append, List.length_append, hks.length, hks'.length] at this
      exact absurd (List.length_eq_zero_iff.1 (by omega)) hd
    | @nested _ n' dims' _ _ ks' c' _ _ he' hks' hc' =>
      have hn : n = n' := Key.str.inj (List.cons.inj hx).1
      cases eq_of_name hwf.nodup he he' hn
      have e2 : ks ++ (c ++ d) = ks' ++ c' := by
        have := (List.cons.inj hx).2
        rwa [List.append_eq, List.append_assoc] at this
      obtain ⟨rfl, rfl⟩ := List.append_inj e2 (by rw [hks.length, hks'.length])
      exact ih (hwf.sub _ _ _ _ he) hd hc'

/-- Exactly the parts are in the map. -/
theorem Built.get_part {c : CS} {ls} (hb : Built c ls) (hwf : WFs c.struct.entries c.struct.order) {a : CIdx} {m : IMat}
    (h : dictGet c.map a = some m) : ∃ e sp, IsPart c.struct.entries a e sp := by
  rw [hb.get] at h
  split at h
  · obtain ⟨pre, sp, post, e, _⟩ := mem_layoutOf (mem_of_dictGet h)
    obtain ⟨p, hp, _⟩ := hb.leaf (a, sp) (by rw [e]; simp)
    exact ⟨_, _, .leaf hp⟩
  · rename_i hne
    obtain ⟨x, hx⟩ := List.exists_mem_of_ne_nil _ hne
    rw [below, List.mem_filterMap] at hx
    obtain ⟨y, hy, e⟩ := hx
    split at e
    · rename_i ha
      obtain ⟨pre, sp, post, e', _⟩ := mem_layoutOf hy
      obtain ⟨p, hp, _⟩ := hb.leaf (y.1, sp) (by rw [e']; simp)
      obtain ⟨_, _, d, h1, h2, _⟩ := (mem_ancestors_tail hwf hp a).1 ha
      exact ⟨_, _, .node h1 h2⟩
    · cases e

theorem block_mapData (off k n : ℕ) : (block k n).map (off + ·) = block (off + k) n := by
  simp [block, Nat.add_assoc]

theorem wsum_prefix {es : List Entry} {o a es' o'} (hwf : WFs es o) (h : IsNode es a es' o') {A : List CIdx}
    (hA : ∀ x ∈ A, x ∈ leafList es' o') : wsum es (A.map (a ++ ·)) = wsum es' A := by
  rw [wsum, wsum, List.map_map]
  congr 1
  apply List.map_congr_left
  intro x hx
  obtain ⟨q, hq⟩ := (mem_leafList (h.wf hwf)).1 (hA x hx)
  rw [Function.comp, (h.leaf hq).wt hwf, hq.wt (h.wf hwf)]

/-- The index matrices below a nested struct are those of the nested struct, moved; there are no others. -/
theorem Built.get_shift {c : CS} {ls} (hb : Built c ls) (hwf : WFs c.struct.entries c.struct.order) {a es' o'}
    (h : IsNode c.struct.entries a es' o') {c' : CS} {ls'} (hb' : Built c' ls') (hs : c'.struct = ⟨es', o'⟩) {A B : List CIdx}
    (hAB : leafList c.struct.entries c.struct.order = A ++ (leafList es' o').map (a ++ ·) ++ B) (d : CIdx) (hd : d ≠ []) :
    dictGet c.map (a ++ d) = (dictGet c'.map d).map (SMat.mapData (wsum c.struct.entries A + ·)) := by
  have hw' := h.wf hwf
  have hwc' : WFs c'.struct.entries c'.struct.order := by rw [hs]; exact hw'
  have hpart : ∀ e sp, IsPart es' d e sp → dictGet c.map (a ++ d) = (dictGet c'.map d).map (SMat.mapData (wsum c.struct.entries A + ·)) := by
    intro e sp hp
    cases hp with
    | @leaf p hp =>
      have hd' : IsLeaf c'.struct.entries d p := by rw [hs]; exact hp
      obtain ⟨A', B', hs'⟩ := List.append_of_mem ((mem_leafList hw').2 ⟨p, hp⟩)
      rw [hb'.leaf_pos hwc' hd' (A := A') (B := B') (by rw [hs, hs']),
        hb.leaf_pos hwf (h.leaf hp) (A := A ++ A'.map (a ++ ·)) (B := B'.map (a ++ ·) ++ B) (by rw [hAB, hs']; simp),
        Option.map_some, SMat.mapData, block_mapData, wsum_append, wsum_prefix hwf h (by rw [hs']; simp; tauto), hs]
    | @node es'' o'' d' p hn hd' =>
      have hn' : IsNode c'.struct.entries d es'' o'' := by rw [hs]; exact hn
      obtain ⟨A', B', hs'⟩ := hn.infix hw'
      have hne : leafList es'' o'' ≠ [] := fun hnil => (leafList_nil_iff (hn.wf hw')).1 hnil _ _ hd'
      rw [hb'.node_pos hwc' hn' (A := A') (B := B') (by rw [hs, hs']),
        hb.node_pos hwf (h.sub hn) (A := A ++ A'.map (a ++ ·)) (B := B'.map (a ++ ·) ++ B) (by rw [hAB, ← hs']; simp [Function.comp_def]),
        if_neg hne, if_neg hne, Option.map_some, SMat.mapData, SMat.col, SMat.col]
      rw [block_mapData, wsum_append, wsum_prefix hwf h (by rw [← hs']; simp; tauto), hs]
      simp [block]
  cases h1 : dictGet c'.map d with
  | some m =>
    obtain ⟨e, sp, hp⟩ := hb'.get_part hwc' h1
    rw [hs] at hp
    rw [hpart e sp hp, h1]
  | none =>
    cases h2 : dictGet c.map (a ++ d) with
    | none => rfl
    | some m =>
      obtain ⟨e, sp, hp⟩ := hb.get_part hwf h2
      rw [← h2]
      generalize hx : a ++ d = x at hp
      cases hp with
      | leaf hp =>
        subst hx
        rw [← h1]; exact hpart _ _ (.leaf (h.leaf_inv hwf hp))
      | node hn hd' =>
        subst hx
        rw [← h1]; exact hpart _ _ (.node (h.node_inv hwf hd hn) hd')

/-- The positions in the map are those of elements. -/
theorem Built.get_lt {c : CS} {ls} (hb : Built c ls) (hwf : WFs c.struct.entries c.struct.order) {d : CIdx} {m : IMat}
    (h : dictGet c.map d = some m) : ∀ k ∈ m.data, k < c.size := by
  obtain ⟨e, sp, hp⟩ := hb.get_part hwf h
  obtain ⟨m', h1, h2, h3, h4, h5⟩ := hb.part hwf hp
  rw [h] at h1
  cases h1
  exact h4

end CE.St
