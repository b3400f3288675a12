import Verif.Struct.LemNode

/-! # Sizes and positions -/

namespace CE.St

/-- Number of nonzeros of the element with a given canonical index. -/
def wt (es : List Entry) (c : CIdx) : ℕ :=
  match entryByPath es (strings c) with
  | .ok e => e.sparsity.nnz
  | .error _ => 0

theorem IsLeaf.wt {es o c p} (hwf : WFs es o) (h : IsLeaf es c p) : wt es c = p.sp.nnz := by
  obtain ⟨n, d, e⟩ := h.entryByPath hwf
  rw [St.wt, e]
  rfl

/-- Total number of nonzeros. -/
def wsum (es : List Entry) (l : List CIdx) : ℕ := (l.map (wt es)).sum

theorem wsum_append (es : List Entry) (a b : List CIdx) : wsum es (a ++ b) = wsum es a + wsum es b := by
  simp [wsum]

theorem wsum_perm {es : List Entry} {a b : List CIdx} (h : a.Perm b) : wsum es a = wsum es b :=
  (h.map _).sum_eq

theorem wsum_flatMap {α : Type} (es : List Entry) (l : List α) (f : α → List CIdx) :
    wsum es (l.flatMap f) = (l.map fun a => wsum es (f a)).sum := by
  induction l with
  | nil => rfl
  | cons a l ih => rw [List.flatMap_cons, wsum_append, ih, List.map_cons, List.sum_cons]

theorem sizeOf'_eq_wsum {es : List Entry} {o : List OrderItem} (hwf : WFs es o) {ls : List (CIdx × Sparsity)}
    (h : ∀ x ∈ ls, ∃ p, IsLeaf es x.1 p ∧ x.2 = p.sp) : sizeOf' ls = wsum es (ls.map (·.1)) := by
  rw [sizeOf', wsum, List.map_map]
  congr 1
  apply List.map_congr_left
  intro x hx
  obtain ⟨p, hp, e⟩ := h x hx
  rw [Function.comp, hp.wt hwf, e]

theorem listindices_length (dims : List ℕ) : (listindices dims).length = dims.prod := by
  induction dims with
  | nil => rfl
  | cons d ds ih =>
    rw [listindices_cons, List.length_flatMap]
    simp [ih]

theorem wt_nested {es : List Entry} {o : List OrderItem} (hwf : WFs es o) {n dims es' o'}
    (he : Entry.nested n dims es' o' ∈ es) {ks c : CIdx} (hks : InDims ks dims) (hc : c ∈ leafList es' o') :
    wt es (.str n :: (ks ++ c)) = wt es' c := by
  obtain ⟨p, hp⟩ := (mem_leafList (hwf.sub _ _ _ _ he)).1 hc
  rw [(IsLeaf.nested he hks hp).wt hwf, hp.wt (hwf.sub _ _ _ _ he)]

theorem kids_nested (n dims es' o') : (Entry.nested n dims es' o').kids = leafList es' o' := by
  simp [Entry.kids, leafList]

/-- Weight of one repetition. -/
theorem wsum_rep {es : List Entry} {o : List OrderItem} (hwf : WFs es o) {e : Entry} (he : e ∈ es)
    (hsub : ∀ n d es' o', e = .nested n d es' o' → wsum es' (leafList es' o') = countAll es') {ks : CIdx}
    (hks : InDims ks e.dims) : wsum es (e.kids.map fun c => .str e.name :: (ks ++ c)) = e.blockSize := by
  cases e with
  | prim n d p =>
    have : wt es (.str n :: ks) = p.sp.nnz := (IsLeaf.prim he hks).wt hwf
    simp [Entry.kids, wsum, Entry.name, this, Entry.blockSize, Sparsity.nnz]
  | nested n d es' o' =>
    rw [kids_nested, Entry.blockSize, ← hsub n d es' o' rfl, wsum, wsum, List.map_map]
    congr 1
    apply List.map_congr_left
    intro c hc
    exact wt_nested hwf he hks hc

theorem count_eq (e : Entry) : e.count = e.dims.prod * e.blockSize := by
  cases e <;> rfl

theorem sum_map_const {α : Type} (l : List α) (f : α → ℕ) (k : ℕ) (h : ∀ a ∈ l, f a = k) : (l.map f).sum = l.length * k := by
  induction l with
  | nil => simp
  | cons a l ih =>
    rw [List.map_cons, List.sum_cons, h a List.mem_cons_self, ih fun b hb => h b (List.mem_cons_of_mem _ hb),
      List.length_cons, Nat.add_mul, Nat.one_mul, Nat.add_comm]

theorem wsum_can {es : List Entry} {o : List OrderItem} (hwf : WFs es o) {e : Entry} (he : e ∈ es)
    (hsub : ∀ n d es' o', e = .nested n d es' o' → wsum es' (leafList es' o') = countAll es') :
    wsum es e.can = e.count := by
  rw [Entry.can, entryCan_eq, wsum_flatMap, count_eq]
  rw [sum_map_const _ _ e.blockSize, listindices_length]
  intro ks hks
  exact wsum_rep hwf he hsub (mem_listindices.1 hks)

theorem countAll_eq (es : List Entry) : countAll es = (es.map Entry.count).sum := by
  induction es with
  | nil => rfl
  | cons e es ih => rw [countAll, ih, List.map_cons, List.sum_cons]

theorem wsum_leafList_aux (e : Entry) : ∀ (n : String) (d : List ℕ) (es : List Entry) (o : List OrderItem),
    e = .nested n d es o → WFs es o → wsum es (leafList es o) = countAll es := by
  induction e using Entry.induct with
  | prim n d p => intro _ _ _ _ h; cases h
  | nested n d es o ih =>
    rintro _ _ _ _ ⟨⟩ hwf
    rw [wsum_perm (leafList_perm hwf), wsum_flatMap, countAll_eq]
    congr 1
    apply List.map_congr_left
    intro e he
    apply wsum_can hwf he
    rintro n d es' o' rfl
    exact ih _ he n d es' o' rfl (hwf.sub _ _ _ _ he)

theorem wsum_leafList {es : List Entry} {o : List OrderItem} (hwf : WFs es o) :
    wsum es (leafList es o) = countAll es := wsum_leafList_aux (.nested "" [] es o) _ _ _ _ rfl hwf

theorem wsum_can' {es : List Entry} {o : List OrderItem} (hwf : WFs es o) {e : Entry} (he : e ∈ es) :
    wsum es e.can = e.count := wsum_can hwf he fun n d es' o' h => by
  subst h; exact wsum_leafList (hwf.sub _ _ _ _ he)

theorem wsum_rep' {es : List Entry} {o : List OrderItem} (hwf : WFs es o) {e : Entry} (he : e ∈ es) {ks : CIdx}
    (hks : InDims ks e.dims) : wsum es (e.kids.map fun c => .str e.name :: (ks ++ c)) = e.blockSize :=
  wsum_rep hwf he (fun n d es' o' h => by subst h; exact wsum_leafList (hwf.sub _ _ _ _ he)) hks

/-- Number of scalars of the entry of a given name. -/
def countName (es : List Entry) (n : String) : ℕ := ((dictEntry es n).map Entry.count).getD 0

theorem wsum_item {es : List Entry} {o : List OrderItem} (hwf : WFs es o) (oi : OrderItem) :
    wsum es (itemCan es oi) = (oi.names.map (countName es)).sum := by
  rw [wsum_perm (itemCan_perm es oi), wsum_flatMap]
  congr 1
  apply List.map_congr_left
  intro n _
  unfold countName
  cases h : dictEntry es n with
  | none => rfl
  | some e =>
    obtain ⟨he, _⟩ := dictEntry_some h
    exact wsum_can' hwf he

theorem wsum_items {es : List Entry} {o : List OrderItem} (hwf : WFs es o) (l : List OrderItem) :
    wsum es (l.flatMap (itemCan es)) = ((l.flatMap OrderItem.names).map (countName es)).sum := by
  induction l with
  | nil => rfl
  | cons oi l ih => rw [List.flatMap_cons, wsum_append, ih, wsum_item hwf, List.flatMap_cons, List.map_append, List.sum_append]

theorem Built.size_eq {c : CS} {ls} (hb : Built c ls) (hwf : WFs c.struct.entries c.struct.order) :
    c.size = countAll c.struct.entries := by
  rw [hb.size, sizeOf'_eq_wsum hwf hb.leaf, hb.keys, wsum_leafList hwf]

/-- The position of an element is the total size of what precedes it in the list of canonical indices. -/
theorem Built.leaf_pos {c : CS} {ls} (hb : Built c ls) (hwf : WFs c.struct.entries c.struct.order) {ci p}
    (h : IsLeaf c.struct.entries ci p) {A B : List CIdx}
    (hAB : leafList c.struct.entries c.struct.order = A ++ ci :: B) :
    dictGet c.map ci = some ⟨p.sp, block (wsum c.struct.entries A) p.sp.nnz⟩ := by
  obtain ⟨pre, post, e, hg⟩ := hb.leaf_get hwf h
  rw [hg]
  have hk := hb.keys
  rw [hAB, e, List.map_append, List.map_cons] at hk
  have hnd := leafList_nodup hwf
  rw [hAB] at hnd
  have h1 : pre.map (·.1) = A := by
    have hA : ci ∉ A := by
      intro hm
      exact (List.nodup_append.1 hnd).2.2 ci hm ci List.mem_cons_self rfl
    have hP : ci ∉ pre.map (·.1) := by
      rw [← hk] at hnd
      intro hm
      exact (List.nodup_append.1 hnd).2.2 ci hm ci List.mem_cons_self rfl
    have : ∀ (X Y B C : List CIdx), X ++ ci :: B = Y ++ ci :: C → ci ∉ X → ci ∉ Y → X = Y := by
      intro X
      induction X with
      | nil =>
        intro Y B C e _ hY
        cases Y with
        | nil => rfl
        | cons y Y =>
          exfalso; apply hY
          rw [List.nil_append, List.cons_append] at e
          rw [(List.cons.inj e).1]
          exact List.mem_cons_self
      | cons x X ih =>
        intro Y B C e hX hY
        cases Y with
        | nil =>
          exfalso; apply hX
          rw [List.nil_append, List.cons_append] at e
          rw [← (List.cons.inj e).1]
          exact List.mem_cons_self
        | cons y Y =>
          rw [List.cons_append, List.cons_append] at e
          obtain ⟨e1, e2⟩ := List.cons.inj e
          rw [e1, ih Y B C e2 (fun h => hX (List.mem_cons_of_mem _ h)) (fun h => hY (List.mem_cons_of_mem _ h))]
    exact this _ _ _ _ hk hP hA
  rw [← h1, sizeOf'_eq_wsum hwf]
  intro x hx
  exact hb.leaf x (by rw [e]; simp [hx])

/-- The position of a nested struct. -/
theorem Built.node_pos {c : CS} {ls} (hb : Built c ls) (hwf : WFs c.struct.entries c.struct.order) {a es' o'}
    (h : IsNode c.struct.entries a es' o') {A B : List CIdx}
    (hAB : leafList c.struct.entries c.struct.order = A ++ (leafList es' o').map (a ++ ·) ++ B) :
    dictGet c.map a = if leafList es' o' = [] then none
      else some (.col (block (wsum c.struct.entries A) (countAll es'))) := by
  obtain ⟨ls', hk', hl'⟩ := exists_leaves (h.wf hwf)
  obtain ⟨pre, post, e⟩ := hb.node_split hwf h hk' hl'
  rw [hb.node_get hwf h hk' hl' e]
  by_cases hnil : leafList es' o' = []
  · rw [if_pos hnil, if_pos]
    rw [hnil] at hk'
    simpa using hk'
  · have hne : ls' ≠ [] := by
      rintro rfl; exact hnil hk'.symm
    rw [if_neg hne, if_neg hnil, sizeOf'_eq_wsum (h.wf hwf) hl', hk', wsum_leafList (h.wf hwf)]
    -- compare the position of the first element
    cases hl2 : leafList es' o' with
    | nil => exact absurd hl2 hnil
    | cons d ds =>
      rw [hl2] at hAB hk'
      obtain ⟨q, hq⟩ := (mem_leafList (h.wf hwf)).1 (by rw [hl2]; exact List.mem_cons_self : d ∈ leafList es' o')
      have h1 := hb.leaf_pos hwf (h.leaf hq) (A := A) (B := ds.map (a ++ ·) ++ B) (by rw [hAB]; simp)
      have h2 := hb.leaf_pos hwf (h.leaf hq) (A := pre.map (·.1)) (B := ds.map (a ++ ·) ++ post.map (·.1)) (by
        rw [← hb.keys, e, List.map_append, List.map_append, List.map_map]
        have : ls'.map ((fun x => x.1) ∘ fun x => (a ++ x.1, x.2)) = (ls'.map (·.1)).map (a ++ ·) := by
          rw [List.map_map]; rfl
        rw [this, hk']
        simp)
      have hpre : sizeOf' pre = wsum c.struct.entries (pre.map (·.1)) := sizeOf'_eq_wsum hwf (by
        intro x hx
        exact hb.leaf x (by rw [e]; simp [hx]))
      rw [hpre]
      -- both splits are equal
      have hnd := leafList_nodup hwf
      have e1 : A ++ (a ++ d) :: (ds.map (a ++ ·) ++ B) = pre.map (·.1) ++ (a ++ d) :: (ds.map (a ++ ·) ++ post.map (·.1)) := by
        have x1 : leafList c.struct.entries c.struct.order = A ++ (a ++ d) :: (ds.map (a ++ ·) ++ B) := by rw [hAB]; simp
        rw [← x1, ← hb.keys, e, List.map_append, List.map_append, List.map_map]
        have : ls'.map ((fun x => x.1) ∘ fun x => (a ++ x.1, x.2)) = (ls'.map (·.1)).map (a ++ ·) := by
          rw [List.map_map]; rfl
        rw [this, hk']
        simp
      have x1 : leafList c.struct.entries c.struct.order = A ++ (a ++ d) :: (ds.map (a ++ ·) ++ B) := by rw [hAB]; simp
      rw [x1] at hnd
      have hA : (a ++ d) ∉ A := by
        intro hm
        exact (List.nodup_append.1 hnd).2.2 _ hm _ List.mem_cons_self rfl
      rw [e1] at hnd
      have hP : (a ++ d) ∉ pre.map (·.1) := by
        intro hm
        exact (List.nodup_append.1 hnd).2.2 _ hm _ List.mem_cons_self rfl
      have : A = pre.map (·.1) := by
        have i1 : (A ++ (a ++ d) :: (ds.map (a ++ ·) ++ B)).idxOf (a ++ d) = A.length := by
          rw [List.idxOf_append_of_notMem hA]; simp
        have i2 : (pre.map (·.1) ++ (a ++ d) :: (ds.map (a ++ ·) ++ post.map (·.1))).idxOf (a ++ d) = (pre.map (·.1)).length := by
          rw [List.idxOf_append_of_notMem hP]; simp
        rw [e1, i2] at i1
        exact (List.append_inj e1 i1.symm).1
      rw [this]

/-! ## Reading index matrices -/

theorem CS.i_leaf {V : Type} (c : CS) (hwf : WFs c.struct.entries c.struct.order) {ci p}
    (h : IsLeaf c.struct.entries ci p) :
    c.i (V := V) (ci.map .ofKey) = match dictGet c.map ci with
      | some m => .ok (.leaf m)
      | none => .error .generic := by
  have := goStruct_leaf (imDisp (V := V) c.map) hwf h c.struct.keys [] false [] .none
  rw [List.append_nil, List.nil_append] at this
  rw [CS.i, Struct.traverse, this, callLeaf]
  simp only [List.isEmpty_nil, if_true, imDisp, imCall, ex, M.lift, M.bind, M.pure]
  cases dictGet c.map ci <;> rfl

theorem CS.i_node {V : Type} (c : CS) (hwf : WFs c.struct.entries c.struct.order) {ci es' o'}
    (h : IsNode c.struct.entries ci es' o') :
    c.i (V := V) (ci.map .ofKey) = match dictGet c.map ci with
      | some m => .ok (.leaf m)
      | none => .error .generic := by
  have := goStruct_node (imDisp (V := V) c.map) hwf h c.struct.keys [] false [] .none
  rw [List.append_nil, List.nil_append] at this
  rw [CS.i, Struct.traverse, this, goStruct]
  simp only [imDisp, imCall, ex, M.lift, M.bind, M.pure]
  cases dictGet c.map ci <;> rfl

theorem natKeys_inDims {is dims : List ℕ} (h : List.Forall₂ (· < ·) is dims) : InDims (natKeys is) dims := by
  induction h with
  | nil => exact .nil
  | cons a _ ih => exact .cons ⟨_, a, rfl⟩ ih

/-- `listindices` counts in row-major order. -/
theorem listindices_split {is dims : List ℕ} (h : List.Forall₂ (· < ·) is dims) :
    ∃ A B, listindices dims = A ++ natKeys is :: B ∧ A.length = ravel dims is := by
  induction h with
  | nil => exact ⟨[], [], rfl, rfl⟩
  | @cons i d is ds a _ ih =>
    obtain ⟨A, B, e, hl⟩ := ih
    rw [listindices_cons]
    have hr : List.range d = List.range i ++ i :: (List.range (d - i - 1)).map (fun x => i + 1 + x) := by
      have : d = i + 1 + (d - i - 1) := by omega
      conv_lhs => rw [this, List.range_add, List.range_succ]
      simp
    rw [hr, List.flatMap_append, List.flatMap_cons, e]
    refine ⟨(List.range i).flatMap (fun j : ℕ => (A ++ natKeys is :: B).map fun ks => Key.int j :: ks) ++ A.map fun ks => Key.int i :: ks,
      (B.map fun ks => Key.int i :: ks) ++ ((List.range (d - i - 1)).map (fun x => i + 1 + x)).flatMap
        (fun j : ℕ => (A ++ natKeys is :: B).map fun ks => Key.int j :: ks), ?_, ?_⟩
    · simp [natKeys]
    · have h2 : (A ++ natKeys is :: B).length = ds.prod := by rw [← e, listindices_length]
      rw [List.length_append, List.length_map, List.length_flatMap, hl, ravel]
      congr 1
      rw [sum_map_const _ _ ds.prod]
      · simp
      · intro j _
        rw [List.length_map, h2]

end CE.St
