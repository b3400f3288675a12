import Verif.Struct.LemPos
import Verif.Struct.LemSp

/-! # Layout of structs: C38-C41 -/

namespace CE.St

/-- The number of elements selected by a leaf, its pattern and positions. -/
theorem i_leaf_block {V : Type} {c : CS} {ls} (hb : Built c ls) (hwf : WFs c.struct.entries c.struct.order) {ci p}
    (h : IsLeaf c.struct.entries ci p) :
    ∃ pre post, ls = pre ++ (ci, p.sp) :: post ∧
      c.i (V := V) (ci.map .ofKey) = .ok (.leaf ⟨p.sp, block (sizeOf' pre) p.sp.nnz⟩) := by
  obtain ⟨pre, post, e, hg⟩ := hb.leaf_get hwf h
  refine ⟨pre, post, e, ?_⟩
  rw [c.i_leaf hwf h, hg]

theorem block_get {k n j v : ℕ} : (block k n)[j]? = some v ↔ j < n ∧ v = k + j := by
  rw [block, List.getElem?_map]
  by_cases h : j < n
  · rw [List.getElem?_range h]; simp [h, eq_comm]
  · rw [List.getElem?_eq_none (by simpa using h)]; simp [h]

/-- Which element a position belongs to. -/
theorem exists_elem {ls : List (CIdx × Sparsity)} {k : ℕ} (h : k < sizeOf' ls) :
    ∃ pre x post j, ls = pre ++ x :: post ∧ j < x.2.nnz ∧ k = sizeOf' pre + j := by
  induction ls generalizing k with
  | nil => simp [sizeOf'] at h
  | cons x ls ih =>
    by_cases hk : k < x.2.nnz
    · exact ⟨[], x, ls, k, rfl, hk, by simp [sizeOf']⟩
    · obtain ⟨pre, y, post, j, e, hj, hk'⟩ := ih (k := k - x.2.nnz) (by
        simp only [sizeOf', List.map_cons, List.sum_cons] at h ⊢; omega)
      refine ⟨x :: pre, y, post, j, by rw [e]; rfl, hj, ?_⟩
      simp only [sizeOf', List.map_cons, List.sum_cons] at hk' ⊢; omega

theorem elem_unique {ls : List (CIdx × Sparsity)} {pre x post pre' x' post' j j'}
    (e : ls = pre ++ x :: post) (e' : ls = pre' ++ x' :: post') (hj : j < x.2.nnz) (hj' : j' < x'.2.nnz)
    (h : sizeOf' pre + j = sizeOf' pre' + j') : x = x' ∧ j = j' ∧ pre = pre' := by
  subst e
  induction pre generalizing pre' with
  | nil =>
    cases pre' with
    | nil => obtain ⟨rfl, _⟩ := List.cons.inj e'; simp [sizeOf'] at h; exact ⟨rfl, h, rfl⟩
    | cons y pre' =>
      obtain ⟨rfl, _⟩ := List.cons.inj e'
      simp [sizeOf'] at h; omega
  | cons y pre ih =>
    cases pre' with
    | nil =>
      obtain ⟨rfl, _⟩ := List.cons.inj e'
      simp [sizeOf'] at h; omega
    | cons z pre' =>
      obtain ⟨rfl, e2⟩ := List.cons.inj e'
      obtain ⟨h1, h2, h3⟩ := ih (by simp [sizeOf'] at h ⊢; omega) e2
      exact ⟨h1, h2, by rw [h3]⟩

/-- **C38**: in a struct whose order names each entry exactly once, `s.i[...]` of every primitive element is an index matrix
with the pattern of the entry; and every position of `.cat` is one nonzero of exactly one primitive element. -/
theorem C38_partition {V : Type} (s : Struct) (hwf : WFs s.entries s.order) :
    ∃ c, CS.ofStruct s = .ok c ∧
      (∀ ci p, IsLeaf s.entries ci p → ∃ m, c.i (V := V) (ci.map .ofKey) = .ok (.leaf m) ∧ m.sp = p.sp ∧
        m.data.length = p.sp.nz.length ∧ m.data.Nodup ∧ ∀ k ∈ m.data, k < c.size) ∧
      ∀ k < c.size, ∃! x : CIdx × (ℕ × ℕ), ∃ p m, IsLeaf s.entries x.1 p ∧
        c.i (V := V) (x.1.map .ofKey) = .ok (.leaf m) ∧ m.nzAt x.2 = some k := by
  obtain ⟨c, ls, h1, rfl, hb⟩ := ofStruct_built hwf
  refine ⟨c, h1, ?_, ?_⟩
  · intro ci p h
    obtain ⟨pre, post, e, hi⟩ := i_leaf_block (V := V) hb hwf h
    refine ⟨_, hi, rfl, by rw [block_length]; rfl, block_nodup _ _, ?_⟩
    intro k hk
    have := mem_block.1 hk
    rw [hb.size, e, sizeOf'_append]
    have h2 : sizeOf' ((ci, p.sp) :: post) = p.sp.nnz + sizeOf' post := by simp [sizeOf']
    omega
  · intro k hk
    rw [hb.size] at hk
    obtain ⟨pre, x, post, j, e, hj, hkj⟩ := exists_elem hk
    obtain ⟨p, hp, hsp⟩ := hb.leaf x (by rw [e]; simp)
    obtain ⟨pre', post', e', hi⟩ := i_leaf_block (V := V) hb hwf hp
    rw [hsp] at hj
    obtain ⟨_, _, hpre⟩ := elem_unique (j := 0) (j' := 0) e e' (by rw [hsp]; omega) (by simp only; omega) (by
      -- the same element occurs once
      have hnd := hb.nodup hwf
      have hxx : x = (x.1, p.sp) := Prod.ext rfl hsp
      rw [e] at e'
      have : pre.length = pre'.length := by
        rw [e, List.map_append, List.map_cons] at hnd
        have hP : x.1 ∉ pre.map (·.1) := fun hm => (List.nodup_append.1 hnd).2.2 _ hm _ List.mem_cons_self rfl
        have hnd' := hb.nodup hwf
        rw [e, e', List.map_append, List.map_cons] at hnd'
        have hP' : x.1 ∉ pre'.map (·.1) := fun hm => (List.nodup_append.1 hnd').2.2 _ hm _ List.mem_cons_self rfl
        have i1 : ((pre ++ x :: post).map (·.1)).idxOf x.1 = pre.length := by
          rw [List.map_append, List.idxOf_append_of_notMem hP]; simp
        have i2 : ((pre' ++ (x.1, p.sp) :: post').map (·.1)).idxOf x.1 = pre'.length := by
          rw [List.map_append, List.idxOf_append_of_notMem hP']; simp
        rw [e', i2] at i1
        exact i1.symm
      rw [(List.append_inj e' this).1])
    obtain ⟨q, hq⟩ : ∃ q, p.sp.nz[j]? = some q := by
      rw [Sparsity.nnz] at hj
      exact ⟨_, List.getElem?_eq_getElem hj⟩
    refine ⟨(x.1, q), ⟨p, _, hp, hi, ?_⟩, ?_⟩
    · rw [SMat.nzAt_eq_some (hp.canon hwf)]
      exact ⟨j, hq, block_get.2 ⟨hj, by rw [hkj, hpre]⟩⟩
    · rintro ⟨ci2, q2⟩ ⟨p2, m2, hp2, hi2, hq2⟩
      obtain ⟨pre2, post2, e2, hi3⟩ := i_leaf_block (V := V) hb hwf hp2
      rw [hi3] at hi2
      cases hi2
      rw [SMat.nzAt_eq_some (hp2.canon hwf)] at hq2
      obtain ⟨j2, hj2, hk2⟩ := hq2
      obtain ⟨hlt, hk3⟩ := block_get.1 hk2
      obtain ⟨ex, ej, _⟩ := elem_unique e e2 (by rw [hsp]; exact hj) hlt (by rw [← hkj, hk3])
      subst ej
      have hc : x.1 = ci2 := by rw [ex]
      have : p = p2 := by subst hc; exact hp.unique hwf hp2
      subst this
      simp only at hj2
      rw [hq] at hj2
      rw [← hc, Option.some.inj hj2]

/-- **C39**: the size of a struct is the sum over its entries of the product of the repeat counts times the number of
nonzeros, or times the size of the nested struct. -/
theorem C39_size (s : Struct) (hwf : WFs s.entries s.order) :
    ∃ c, CS.ofStruct s = .ok c ∧ c.size = (s.entries.map Entry.count).sum ∧
      ∀ n d es o, Entry.nested n d es o ∈ s.entries →
        ∃ c', CS.ofStruct ⟨es, o⟩ = .ok c' ∧ (Entry.nested n d es o).count = d.prod * c'.size := by
  obtain ⟨c, ls, h1, rfl, hb⟩ := ofStruct_built hwf
  refine ⟨c, h1, ?_, ?_⟩
  · rw [hb.size_eq hwf, countAll_eq]
  · intro n d es o he
    obtain ⟨c', ls', h1', h2', hb'⟩ := ofStruct_built (s := ⟨es, o⟩) (hwf.sub _ _ _ _ he)
    refine ⟨c', h1', ?_⟩
    rw [hb'.size_eq (by rw [h2']; exact hwf.sub _ _ _ _ he), h2']
    rfl

/-- Split of the list of canonical indices at a repetition of an ungrouped entry. -/
theorem leafList_one {es : List Entry} {pre post : List OrderItem} {n : String}
    (hwf : WFs es (pre ++ .one n :: post)) {e : Entry} (he : e ∈ es) (hn : e.name = n) {is : List ℕ}
    (his : List.Forall₂ (· < ·) is e.dims) :
    ∃ A B, leafList es (pre ++ .one n :: post) = A ++ (e.kids.map fun c => Key.str n :: (natKeys is ++ c)) ++ B ∧
      wsum es A = ((pre.flatMap OrderItem.names).map (countName es)).sum + ravel e.dims is * e.blockSize := by
  obtain ⟨A, B, hs, hl⟩ := listindices_split his
  rw [leafList_eq, List.flatMap_append, List.flatMap_cons]
  have hd : itemCan es (.one n) = e.can := by
    rw [itemCan, ← hn, dictEntry_of_mem hwf.nodup he]; rfl
  rw [hd, Entry.can, entryCan_eq, hs, List.flatMap_append, List.flatMap_cons, hn]
  refine ⟨pre.flatMap (itemCan es) ++ A.flatMap (fun ks => e.kids.map fun c => Key.str n :: (ks ++ c)),
    B.flatMap (fun ks => e.kids.map fun c => Key.str n :: (ks ++ c)) ++ post.flatMap (itemCan es), by simp, ?_⟩
  rw [wsum_append, wsum_items hwf, wsum_flatMap]
  congr 1
  rw [← hl]
  apply sum_map_const
  intro ks hks
  rw [← hn]
  apply wsum_rep' hwf he
  apply mem_listindices.1
  rw [hs]
  exact List.mem_append_left _ hks

/-- **C40** (order of `.cat`): an ungrouped entry starts where the entries before it in `order` end; its repetitions follow
one another in row-major order; a matrix takes its nonzeros column by column. -/
theorem C40_primitive {V : Type} (es : List Entry) (pre post : List OrderItem) (n : String) (dims : List ℕ) (p : Prim)
    (hwf : WFs es (pre ++ .one n :: post)) (he : Entry.prim n dims p ∈ es) (is : List ℕ)
    (his : List.Forall₂ (· < ·) is dims) :
    ∃ c, CS.ofStruct ⟨es, pre ++ .one n :: post⟩ = .ok c ∧
      c.i (V := V) (.str n :: is.map fun i : ℕ => .int i) = .ok (.leaf ⟨p.sp,
        (List.range p.sp.nz.length).map fun j =>
          ((pre.flatMap OrderItem.names).map fun m => ((dictEntry es m).map Entry.count).getD 0).sum +
            ravel dims is * p.sp.nz.length + j⟩) := by
  obtain ⟨c, ls, h1, h2, hb⟩ := ofStruct_built (s := ⟨es, pre ++ .one n :: post⟩) hwf
  refine ⟨c, h1, ?_⟩
  have hwf' : WFs c.struct.entries c.struct.order := by rw [h2]; exact hwf
  have hks := natKeys_inDims his
  have hl : IsLeaf c.struct.entries (.str n :: natKeys is) p := by rw [h2]; exact .prim he hks
  obtain ⟨A, B, hs, hw⟩ := leafList_one hwf he rfl his
  have hi := c.i_leaf (V := V) hwf' hl
  rw [hb.leaf_pos hwf' hl (A := A) (B := B) (by rw [h2, hs]; simp [Entry.kids]), h2, hw] at hi
  have e : (Key.str n :: natKeys is).map (PIdx.ofKey (F := PyFn V)) = .str n :: is.map fun i : ℕ => .int i := by
    simp [natKeys, PIdx.ofKey]
  rw [← e, hi]
  rfl

theorem leafList_nil_iff {es : List Entry} {o : List OrderItem} (hwf : WFs es o) :
    leafList es o = [] ↔ ∀ c p, ¬ IsLeaf es c p := by
  rw [List.eq_nil_iff_forall_not_mem]
  constructor
  · intro h c p hp
    exact h c ((mem_leafList hwf).2 ⟨p, hp⟩)
  · intro h c hc
    obtain ⟨p, hp⟩ := (mem_leafList hwf).1 hc
    exact h c p hp

/-- The index matrices of a nested struct are those of the struct itself, moved. -/
theorem node_shift {V : Type} {c : CS} {ls} (hb : Built c ls) (hwf : WFs c.struct.entries c.struct.order) {a es' o'}
    (h : IsNode c.struct.entries a es' o') {c' : CS} (hc' : CS.ofStruct ⟨es', o'⟩ = .ok c') {A B : List CIdx}
    (hAB : leafList c.struct.entries c.struct.order = A ++ (leafList es' o').map (a ++ ·) ++ B) :
    ((∃ d p, IsLeaf es' d p) → c.i (V := V) (a.map .ofKey) =
      .ok (.leaf (.col ((List.range c'.size).map fun j => wsum c.struct.entries A + j)))) ∧
    ∀ d p, IsLeaf es' d p → ∃ m, c'.i (V := V) (d.map .ofKey) = .ok (.leaf m) ∧
      c.i (V := V) ((a ++ d).map .ofKey) = .ok (.leaf ⟨m.sp, m.data.map fun k => wsum c.struct.entries A + k⟩) := by
  have hw' := h.wf hwf
  obtain ⟨c2, ls2, h1', h2', hb'⟩ := ofStruct_built (s := ⟨es', o'⟩) hw'
  rw [hc'] at h1'
  cases h1'
  have hwc' : WFs c'.struct.entries c'.struct.order := by rw [h2']; exact hw'
  refine ⟨?_, ?_⟩
  · rintro ⟨d, p, hd⟩
    rw [c.i_node hwf h, hb.node_pos hwf h hAB, if_neg]
    · rw [hb'.size_eq hwc', h2']; rfl
    · intro hnil
      exact (leafList_nil_iff hw').1 hnil d p hd
  · intro d p hd
    have hd' : IsLeaf c'.struct.entries d p := by rw [h2']; exact hd
    obtain ⟨A', B', hs⟩ := List.append_of_mem ((mem_leafList hw').2 ⟨p, hd⟩)
    have hi := c'.i_leaf (V := V) hwc' hd'
    rw [hb'.leaf_pos hwc' hd' (A := A') (B := B') (by rw [h2', hs])] at hi
    refine ⟨_, hi, ?_⟩
    rw [c.i_leaf hwf (h.leaf hd), hb.leaf_pos hwf (h.leaf hd) (A := A ++ A'.map (a ++ ·)) (B := B'.map (a ++ ·) ++ B) (by
      rw [hAB, hs]; simp)]
    simp only
    rw [block_shift, h2', wsum_append]
    have : wsum c.struct.entries (A'.map (a ++ ·)) = wsum es' A' := by
      rw [wsum, wsum, List.map_map]
      congr 1
      apply List.map_congr_left
      intro x hx
      obtain ⟨q, hq⟩ := (mem_leafList hw').1 (by rw [hs]; exact List.mem_append_left _ hx : x ∈ leafList es' o')
      rw [Function.comp, (h.leaf hq).wt hwf, hq.wt hw']
    rw [this]

/-- **C40** (nested structs): every nested struct, at any depth and grouped or not, is a contiguous block with its own
layout: `s.i[a]` is the column of `size'` consecutive positions, and the positions of its elements are those within the
nested struct, moved to the start of the block. -/
theorem C40_nested {V : Type} (s : Struct) (hwf : WFs s.entries s.order) (a : CIdx) (es' : List Entry)
    (o' : List OrderItem) (ha : IsNode s.entries a es' o') :
    ∃ c c' off, CS.ofStruct s = .ok c ∧ CS.ofStruct ⟨es', o'⟩ = .ok c' ∧ off + c'.size ≤ c.size ∧
      ((∃ d p, IsLeaf es' d p) → c.i (V := V) (a.map .ofKey) =
        .ok (.leaf (.col ((List.range c'.size).map fun j => off + j)))) ∧
      ∀ d p, IsLeaf es' d p → ∃ m, c'.i (V := V) (d.map .ofKey) = .ok (.leaf m) ∧
        c.i (V := V) ((a ++ d).map .ofKey) = .ok (.leaf ⟨m.sp, m.data.map fun k => off + k⟩) := by
  obtain ⟨c, ls, h1, rfl, hb⟩ := ofStruct_built hwf
  obtain ⟨c', ls', h1', h2', hb'⟩ := ofStruct_built (s := ⟨es', o'⟩) (ha.wf hwf)
  obtain ⟨A, B, hAB⟩ := ha.infix hwf
  obtain ⟨h3, h4⟩ := node_shift (V := V) hb hwf ha h1' hAB.symm
  refine ⟨c, c', wsum c.struct.entries A, h1, h1', ?_, h3, h4⟩
  have hw' : WFs c'.struct.entries c'.struct.order := by rw [h2']; exact ha.wf hwf
  rw [hb.size_eq hwf, ← wsum_leafList hwf, ← hAB, wsum_append, wsum_append, hb'.size_eq hw', h2',
    ← wsum_leafList (ha.wf hwf)]
  have : wsum c.struct.entries ((leafList es' o').map (a ++ ·)) = wsum es' (leafList es' o') := by
    rw [wsum, wsum, List.map_map]
    congr 1
    apply List.map_congr_left
    intro x hx
    obtain ⟨q, hq⟩ := (mem_leafList (ha.wf hwf)).1 hx
    rw [Function.comp, (ha.leaf hq).wt hwf, hq.wt (ha.wf hwf)]
  rw [this]
  omega

/-- **C40** (position of nested structs): the block of a repetition of an ungrouped entry with a struct starts after the
entries before it and the repetitions before it. -/
theorem C40_nested_position {V : Type} (es : List Entry) (pre post : List OrderItem) (n : String) (dims : List ℕ)
    (es' : List Entry) (o' : List OrderItem) (hwf : WFs es (pre ++ .one n :: post))
    (he : Entry.nested n dims es' o' ∈ es) (hne : ∃ d p, IsLeaf es' d p) (is : List ℕ)
    (his : List.Forall₂ (· < ·) is dims) :
    ∃ c c', CS.ofStruct ⟨es, pre ++ .one n :: post⟩ = .ok c ∧ CS.ofStruct ⟨es', o'⟩ = .ok c' ∧
      c.i (V := V) (.str n :: is.map fun i : ℕ => .int i) = .ok (.leaf (.col ((List.range c'.size).map fun j =>
        ((pre.flatMap OrderItem.names).map fun m => ((dictEntry es m).map Entry.count).getD 0).sum +
          ravel dims is * c'.size + j))) := by
  obtain ⟨c, ls, h1, h2, hb⟩ := ofStruct_built (s := ⟨es, pre ++ .one n :: post⟩) hwf
  have hwf' : WFs c.struct.entries c.struct.order := by rw [h2]; exact hwf
  obtain ⟨c', ls', h1', h2', hb'⟩ := ofStruct_built (s := ⟨es', o'⟩) (hwf.sub _ _ _ _ he)
  refine ⟨c, c', h1, h1', ?_⟩
  have hks := natKeys_inDims his
  have hnode : IsNode c.struct.entries (.str n :: natKeys is) es' o' := by rw [h2]; exact .top he hks
  obtain ⟨A, B, hs, hw⟩ := leafList_one hwf he rfl his
  obtain ⟨h3, _⟩ := node_shift (V := V) hb hwf' hnode h1' (A := A) (B := B) (by
    rw [h2, hs, kids_nested]; simp)
  have e : (Key.str n :: natKeys is).map (PIdx.ofKey (F := PyFn V)) = .str n :: is.map fun i : ℕ => .int i := by
    simp [natKeys, PIdx.ofKey]
  rw [← e, h3 hne, h2, hw]
  have hw' : WFs c'.struct.entries c'.struct.order := by rw [h2']; exact hwf.sub _ _ _ _ he
  have : (Entry.nested n dims es' o').blockSize = c'.size := by rw [hb'.size_eq hw', h2']; rfl
  rw [this]
  rfl

end CE.St
