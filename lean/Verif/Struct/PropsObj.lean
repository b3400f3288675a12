import Verif.Struct.Objs
import Verif.Struct.LemWrite
import Mathlib.Tactic.IntervalCases

/-! # Structs made from dicts, data and matrices: C47, C48, C49 -/

namespace CE.St

variable {V : Type}

theorem perm_map_exists {α β : Type} (f : α → β) {l l' : List β} (h : l.Perm l') :
    ∀ es : List α, l' = es.map f → ∃ E : List α, E.Perm es ∧ E.map f = l := by
  induction h with
  | nil =>
    intro es h
    exact ⟨[], by rw [List.map_eq_nil_iff.1 h.symm], rfl⟩
  | cons x _ ih =>
    intro es h
    cases es with
    | nil => cases h
    | cons e es =>
      injection h with h1 h2
      obtain ⟨E, hE, hm⟩ := ih es h2
      exact ⟨e :: E, hE.cons e, by rw [List.map_cons, hm, h1]⟩
  | swap x y l =>
    intro es h
    match es, h with
    | a :: b :: es, h =>
      injection h with h1 h2
      injection h2 with h2 h3
      exact ⟨b :: a :: es, .swap _ _ _, by simp [h1, h2, h3]⟩
  | trans _ _ ih1 ih2 =>
    intro es h
    obtain ⟨E, hE, hm⟩ := ih2 es h
    obtain ⟨E', hE', hm'⟩ := ih1 E hm.symm
    exact ⟨E', hE'.trans hE, hm'⟩

section
variable [Zero V]

theorem assignKeys_eq (items : List (String × Pay V)) (ks : List String) (pay : String → Pay V)
    (h : ∀ k ∈ ks, dictGet items k = some (pay k)) (o : Obj V) :
    assignKeys items ks o = match o.setAll (ks.map fun k => ([.str k], pay k)) with
      | (.ok _, o') => .ok o'
      | (.error e, _) => .error e := by
  induction ks generalizing o with
  | nil => rfl
  | cons k ks ih =>
    rw [assignKeys, h k List.mem_cons_self, List.map_cons, Obj.setAll]
    simp only
    rcases o.setitem [.str k] (pay k) with ⟨_ | _, o'⟩
    · rfl
    · exact ih (fun k hk => h k (List.mem_cons_of_mem _ hk)) o'

theorem natKeys_inj {a b : List ℕ} (h : natKeys a = natKeys b) : a = b := by
  unfold natKeys at h
  exact List.map_injective_iff.2 (fun a b h => by injection h with h; exact Int.ofNat.inj h) h

theorem tuples_nodup (ds : List ℕ) : (tuples ds).Nodup := by
  have := listindices_nodup ds
  rw [listindices_tuples] at this
  exact List.Nodup.of_map _ this

theorem prefix_eq_of_length {α : Type} {a b : List α} (h : a <+: b) (hl : a.length = b.length) : a = b :=
  h.eq_of_length hl

theorem tuples_length {ds is : List ℕ} (h : is ∈ tuples ds) : is.length = ds.length := (mem_tuples.1 h).length_eq

/-- Whether an entry has type 'symm'. -/
def symmOf : Option Prim → Bool
  | none => false
  | some p => p.symm

/-- What reading a part yields, given what is stored for it. -/
theorem getitem_stored [Add V] [Sub V] {c : CS} {ls} (hb : Built c ls) (hwf : WFs c.struct.entries c.struct.order)
    {master : List V} (hlen : master.length = c.size) {a e sp} (ha : IsPart c.struct.entries a e sp) :
    (⟨c, master, []⟩ : Obj V).getitem (a.map .ofKey) =
      (gen (if symmOf e = true then triu2symm ⟨sp, stored c master a⟩ else .ok ⟨sp, stored c master a⟩)).map .leaf := by
  obtain ⟨i, hg, hw, hnd, hin, rfl⟩ := hb.part hwf ha
  have h := Obj.getitem_part (⟨c, master, []⟩ : Obj V) hwf ha [] (fun _ => rfl)
  rw [List.append_nil] at h
  rw [h, stored, hg]
  simp only
  unfold getCall
  simp only [hg, Option.getD_some, performExtraIndex]
  show Except.map Tree.leaf (gen (Except.bind (gather master i) _)) = _
  rw [gather_ok (by rw [hlen]; exact hin)]
  cases e <;> rfl

end

/-- The pattern of one repetition of an entry, as it is read (for an entry of type 'symm': as it is stored). -/
def Entry.readSp : Entry → Sparsity
  | .prim _ _ p => p.sp
  | .nested _ _ es _ => .dense (countAll es) 1

/-- What a primitive entry carries. -/
def Entry.primOf : Entry → Option Prim
  | .prim _ _ p => some p
  | .nested .. => none

section
variable [Zero V]

/-- The values in the dict fit the struct: for every entry there is a value, with nested lists that are long enough for the
repetitions of the entry, and for every repetition the part of the value for it is accepted and stored as `vals`. -/
def DictFits (s : Struct) (items : List (String × Pay V)) (vals : CIdx → List V) : Prop :=
  ∀ e ∈ s.entries, ∃ pay, dictGet items e.name = some pay ∧ pay.Covers e.dims ∧
    ∀ is, List.Forall₂ (· < ·) is e.dims → ∃ q sp f, pay.at is = some q ∧
      Accepts s.entries (.str e.name :: natKeys is) q sp f ∧ vals (.str e.name :: natKeys is) = sp.nz.map f

/-- Assignment of the values of a dict to the keys, whatever the contents are before. -/
theorem assignKeys_cat (m0 : List V) (s : Struct) (hwf : WFs s.entries s.order) (c : CS) (hc : CS.ofStruct s = .ok c)
    (hm0 : m0.length = c.size) (items : List (String × Pay V)) (vals : CIdx → List V) (hf : DictFits s items vals) :
    ∃ master, assignKeys items c.struct.keys ⟨c, m0, []⟩ = .ok ⟨c, master, []⟩ ∧ master.length = c.size ∧
      master = (s.traverseCanonicalIndex 1).flatMap vals ∧
      ∀ e ∈ s.entries, ∀ is, List.Forall₂ (· < ·) is e.dims →
        stored c master (.str e.name :: natKeys is) = vals (.str e.name :: natKeys is) := by
  obtain ⟨c', ls, hc', rfl, hb⟩ := ofStruct_built hwf
  rw [hc] at hc'
  cases hc'
  have hkeys : ∀ k, k ∈ c.struct.keys ↔ ∃ e ∈ c.struct.entries, e.name = k := by
    intro k
    rw [Struct.keys, hwf.perm.mem_iff, List.mem_map]
  obtain ⟨E, hE, hEk⟩ := perm_map_exists Entry.name hwf.perm c.struct.entries rfl
  haveI : Inhabited Sparsity := ⟨.dense 0⟩
  haveI : Inhabited (Pay V) := ⟨.none⟩
  choose! pay hpay hcov hacc using hf
  choose! q sp f hq ha hv using hacc
  let ws : List (CIdx × Pay V × Sparsity × (ℕ × ℕ → V)) := E.flatMap fun e => (tuples e.dims).map fun is =>
    (.str e.name :: natKeys is, q e is, sp e is, f e is)
  have hws : ∀ w ∈ ws, ∃ e ∈ c.struct.entries, ∃ is, is ∈ tuples e.dims ∧
      w = (.str e.name :: natKeys is, q e is, sp e is, f e is) := by
    intro w hw
    obtain ⟨e, he, hw⟩ := List.mem_flatMap.1 hw
    obtain ⟨is, his, rfl⟩ := List.mem_map.1 hw
    exact ⟨e, hE.mem_iff.1 he, is, his, rfl⟩
  have hpw : ws.Pairwise fun v w => ¬ v.1 <+: w.1 ∧ ¬ w.1 <+: v.1 := by
    rw [List.pairwise_flatMap]
    constructor
    · intro e he
      rw [List.pairwise_map]
      refine (tuples_nodup e.dims).imp_of_mem ?_
      intro a b ha hb hne
      simp only [List.cons_prefix_cons, true_and]
      have hl : (natKeys a).length = (natKeys b).length := by
        simp only [natKeys, List.length_map, tuples_length ha, tuples_length hb]
      exact ⟨fun h => hne (natKeys_inj (h.eq_of_length hl)), fun h => hne (natKeys_inj (h.eq_of_length hl.symm)).symm⟩
    · have hn : (E.map Entry.name).Nodup := (hE.map _).nodup_iff.2 hwf.nodup
      rw [List.Nodup, List.pairwise_map] at hn
      refine hn.imp ?_
      intro e e' hne v hv w hw
      obtain ⟨a, _, rfl⟩ := List.mem_map.1 hv
      obtain ⟨b, _, rfl⟩ := List.mem_map.1 hw
      simp only [List.cons_prefix_cons, Key.str.injEq]
      exact ⟨fun h => hne h.1, fun h => hne h.1.symm⟩
  obtain ⟨master, h1, h2, h3, _⟩ := setAll_accepts hb hwf (prio := []) ws (by
    intro w hw
    obtain ⟨e, he, is, his, rfl⟩ := hws w hw
    exact ha e he is (mem_tuples.1 his)) hpw m0 hm0
  have h4 : ∀ e ∈ c.struct.entries, ∀ is, List.Forall₂ (· < ·) is e.dims →
      stored c master (.str e.name :: natKeys is) = vals (.str e.name :: natKeys is) := by
    intro e he is his
    rw [h3 (.str e.name :: natKeys is, q e is, sp e is, f e is) (List.mem_flatMap.2 ⟨e, hE.mem_iff.2 he,
      List.mem_map.2 ⟨is, mem_tuples.2 his, rfl⟩⟩), hv e he is his]
  refine ⟨master, ?_, h2, ?_, h4⟩
  · rw [assignKeys_eq items c.struct.keys (fun k => (dictGet items k).getD .none)]
    · have hkeys' : c.struct.keys = E.map Entry.name := hEk.symm
      rw [hkeys', List.map_map, Obj.setAll_flatMap E _ (fun e => (tuples e.dims).map fun is =>
        ((([] ++ .str e.name :: ([] ++ natKeys is) : CIdx)).map .ofKey, ((pay e).at is).getD .none)) c ?_ _ rfl]
      · have : (E.flatMap fun e => (tuples e.dims).map fun is =>
            ((([] ++ .str e.name :: ([] ++ natKeys is) : CIdx)).map (PIdx.ofKey (F := PyFn V)), ((pay e).at is).getD .none)) =
            ws.map fun w => (w.1.map .ofKey, w.2.1) := by
          rw [List.map_flatMap]
          apply List.flatMap_congr
          intro e he
          rw [List.map_map]
          apply List.map_congr_left
          intro is his
          simp only [Function.comp, hq e (hE.mem_iff.1 he) is (mem_tuples.1 his), Option.getD_some, List.nil_append]
        rw [this, h1]
      · intro e he o ho
        have he := hE.mem_iff.1 he
        simp only [Function.comp, hpay e he, Option.getD_some]
        exact setitem_dist c hwf .root he [] [] rfl .nil (pay e) (hcov e he) o ho
    · intro k hk'
      obtain ⟨e, he, rfl⟩ := (hkeys k).1 hk'
      rw [hpay e he]; rfl
  · rw [traverseCanonicalIndex_one]
    refine (hb.master_tops hwf h2).trans ?_
    apply List.flatMap_congr
    intro t ht
    obtain ⟨e, he, ks, hks, rfl⟩ := (mem_tops hwf).1 ht
    have hks := mem_listindices.2 hks
    rw [listindices_tuples] at hks
    obtain ⟨is, his, rfl⟩ := List.mem_map.1 hks
    exact h4 e he is (mem_tuples.1 his)

/-- **C47** (concatenation): for a dict with exactly the keys of the struct and values that fit, `struct(d)` succeeds and
`.cat` is the concatenation of the values of all repetitions, in the order of the layout. -/
theorem C47_cat (nan : V) (s : Struct) (hwf : WFs s.entries s.order) (c : CS) (hc : CS.ofStruct s = .ok c)
    (items : List (String × Pay V)) (hk : ∀ k, k ∈ items.map Prod.fst ↔ ∃ e ∈ s.entries, e.name = k) (vals : CIdx → List V)
    (hf : DictFits s items vals) :
    ∃ master, callDM nan c (.dict items) = .ok ⟨c, master, []⟩ ∧ master.length = c.size ∧
      master = (s.traverseCanonicalIndex 1).flatMap vals ∧
      ∀ e ∈ s.entries, ∀ is, List.Forall₂ (· < ·) is e.dims →
        stored c master (.str e.name :: natKeys is) = vals (.str e.name :: natKeys is) := by
  obtain ⟨c', ls, hc', rfl, hb⟩ := ofStruct_built hwf
  rw [hc] at hc'
  cases hc'
  obtain ⟨master, h1, h2⟩ := assignKeys_cat (List.replicate c.size nan) c.struct hwf c hc (by simp) items vals hf
  refine ⟨master, ?_, h2⟩
  have hkeys : ∀ k, k ∈ c.struct.keys ↔ ∃ e ∈ c.struct.entries, e.name = k := by
    intro k
    rw [Struct.keys, hwf.perm.mem_iff, List.mem_map]
  rw [callDM, if_pos]
  · exact h1
  · simp only [Bool.and_eq_true, List.all_eq_true, decide_eq_true_eq]
    exact ⟨fun k h => (hkeys k).2 ((hk k).1 h), fun k h => (hk k).2 ((hkeys k).1 h)⟩

end

section
variable [Zero V] [Add V] [Sub V]

theorem top_part {es : List Entry} {o : List OrderItem} (hwf : WFs es o) {e : Entry} (he : e ∈ es) {ks : CIdx}
    (hks : InDims ks e.dims) {e' sp} (h : IsPart es (.str e.name :: ks) e' sp) :
    IsPart es (.str e.name :: ks) e.primOf e.readSp := by
  cases e with
  | prim n d p => exact .leaf (.prim he hks)
  | nested n d es' o' =>
    have hn : IsNode es (.str n :: ks) es' o' := .top he hks
    simp only [Entry.name] at h
    generalize hx : (Key.str n :: ks : CIdx) = x at h hn
    cases h with
    | leaf h => exact absurd h (hn.not_leaf hwf)
    | node h1 h2 =>
      obtain ⟨rfl, rfl⟩ := h1.unique hwf hn
      simp only [Entry.name, hx]
      exact .node h1 h2

/-- **C47** (values): under the same conditions, the struct reads under every key the value of the dict, as nested lists over
the repetitions.  (For entries of type 'symm' see `C47_symm`.) -/
theorem C47_read (nan : V) (s : Struct) (hwf : WFs s.entries s.order) (c : CS) (hc : CS.ofStruct s = .ok c)
    (items : List (String × Pay V)) (hk : ∀ k, k ∈ items.map Prod.fst ↔ ∃ e ∈ s.entries, e.name = k) (vals : CIdx → List V)
    (hf : DictFits s items vals) :
    ∃ obj, callDM nan c (.dict items) = .ok obj ∧ ∀ e ∈ s.entries, (∀ n d p, e = .prim n d p → p.symm = false) →
      obj.getitem [.str e.name] = .ok (nest e.dims fun is => ⟨e.readSp, vals (.str e.name :: natKeys is)⟩) := by
  obtain ⟨master, h1, h2, _, h3⟩ := C47_cat nan s hwf c hc items hk vals hf
  obtain ⟨c', ls, hc', rfl, hb⟩ := ofStruct_built hwf
  rw [hc] at hc'
  cases hc'
  refine ⟨_, h1, ?_⟩
  intro e he hs
  obtain ⟨pay, _, _, hacc⟩ := hf e he
  refine getitem_nest (⟨c, master, []⟩ : Obj V) hwf (a := []) .root he [] [] rfl .nil _ ?_
  intro is his
  obtain ⟨q, sp, f, _, ha, _⟩ := hacc is his
  obtain ⟨e', hp⟩ := ha.part
  have hp := top_part hwf he (natKeys_inDims his) hp
  have := getitem_stored hb hwf h2 hp
  simp only [List.nil_append]
  rw [this, h3 e he is his, if_neg]
  · rfl
  · cases e with
    | prim n d p => simp [symmOf, Entry.primOf, hs n d p rfl]
    | nested n d es' o' => simp [symmOf, Entry.primOf]

/-- **C47** (values of entries of type 'symm'): a matrix with the declared pattern, or a scalar; the upper triangle is read in
both triangles, so a symmetric matrix is read unchanged. -/
theorem C47_symm (hv : ∀ x : V, x + x - x = x) (nan : V) (s : Struct) (hwf : WFs s.entries s.order) (c : CS)
    (hc : CS.ofStruct s = .ok c)
    (items : List (String × Pay V)) (hk : ∀ k, k ∈ items.map Prod.fst ↔ ∃ e ∈ s.entries, e.name = k) (vals : CIdx → List V)
    (hf : DictFits s items vals) :
    ∃ obj, callDM nan c (.dict items) = .ok obj ∧ ∀ n d p, Entry.prim n d p ∈ s.entries → ∀ osp, IsSymm p osp →
      ∀ pay, dictGet items n = some pay → ∀ is, List.Forall₂ (· < ·) is d → ∀ q m f, pay.at is = some q → IsValue q m → m.WF →
        (m.sp = osp ∧ f = m.at') ∨ (m.sp.rows = 1 ∧ m.sp.cols = 1 ∧ f = fun _ => m.at' (0, 0)) →
        ∃ r, obj.getitem (.str n :: (natKeys is).map .ofKey) = .ok (.leaf r) ∧ r.WF ∧ r.sp = IsSymm.pattern osp ∧
          (∀ i j, (i, j) ∈ r.sp.nz → i ≤ j → r.at' (i, j) = f (i, j) ∧ r.at' (j, i) = f (i, j)) ∧
          (m.sp = osp → (∀ i j, m.at' (i, j) = m.at' (j, i)) → ∀ q, r.at' q = m.at' q) := by
  obtain ⟨master, h1, h2, _, h3⟩ := C47_cat nan s hwf c hc items hk vals hf
  refine ⟨_, h1, ?_⟩
  intro n d p he osp hs pay hpay is his q m f hq hval hm hmf
  obtain ⟨pay', hpay', _, hacc⟩ := hf _ he
  rw [show (Entry.prim n d p).name = n from rfl, hpay] at hpay'
  cases hpay'
  obtain ⟨q', sp, f', hq', ha, hvals⟩ := hacc is his
  rw [hq] at hq'
  cases hq'
  have hl : IsLeaf s.entries (.str n :: natKeys is) p := .prim he (natKeys_inDims his)
  obtain ⟨m', r, g1, g2, g3, g4, g5, g6, g7, _⟩ := C55_write_read_partial hv s hwf c hc master h2 _ p osp hl hs q m hval hm f hmf
  obtain ⟨c', ls, hc', rfl, hb⟩ := ofStruct_built hwf
  rw [hc] at hc'
  cases hc'
  have ha' : Accepts c.struct.entries (.str n :: natKeys is) q p.sp f := .symm hl hs hval hm hmf
  obtain ⟨i, m2, k1, k2, k3, k4, k5, k6, _⟩ := accepts_write hb hwf h2 (prio := []) ha'
  rw [g1] at k4
  cases k4
  refine ⟨r, ?_, g4, g5, g6, g7⟩
  have e1 := getitem_stored hb hwf h2 (.leaf hl)
  have e2 := getitem_stored hb hwf (k5.trans h2) (.leaf hl)
  have e3 : stored c m' (.str n :: natKeys is) = stored c master (.str n :: natKeys is) := by
    have h3 := h3 _ he is his
    simp only [Entry.name] at h3 hvals ha
    rw [h3, hvals, (ha.unique hb hwf ha').2, ← k6]
    simp only [stored, k1]
  rw [e3, ← e1] at e2
  exact e2.symm.trans g3

/-- **C47** (keys): a dict without one of the keys, or with another key, raises. -/
theorem C47_keys (nan : V) (s : Struct) (hwf : WFs s.entries s.order) (c : CS) (hc : CS.ofStruct s = .ok c)
    (items : List (String × Pay V)) (h : ¬ ∀ k, k ∈ items.map Prod.fst ↔ ∃ e ∈ s.entries, e.name = k) :
    callDM nan c (.dict items) = .error .generic := by
  have hcs := ofStruct_struct hc
  subst hcs
  rw [callDM, if_neg]
  simp only [Bool.and_eq_true, List.all_eq_true, decide_eq_true_eq]
  intro h'
  apply h
  intro k
  have hkeys : k ∈ c.struct.keys ↔ ∃ e ∈ c.struct.entries, e.name = k := by
    rw [Struct.keys, hwf.perm.mem_iff, List.mem_map]
  rw [← hkeys]
  exact ⟨h'.1 k, h'.2 k⟩

/-! ## C48 -/

theorem IsValue.not_dict {pay : Pay V} {m : SMat V} (h : IsValue pay m) (items : List (String × Pay V)) : pay ≠ .dict items := by
  cases h <;> simp

theorem callDM_value (nan : V) (c : CS) {pay : Pay V} {m : SMat V} (h : IsValue pay m) :
    callDM nan c pay = if m.sp.rows = 1 ∧ m.sp.cols = 1 ∧ c.size ≠ 1 then
        newMatrixStruct c ⟨.dense c.size 1, List.replicate c.size (m.at' (0, 0))⟩
      else newMatrixStruct c m := by
  have hm := h.toMat
  unfold callDM
  split
  · exact absurd rfl (h.not_dict _)
  · rw [hm]

theorem SMat.column_at' {l : List V} {n : ℕ} (h : l.length = n) {i : ℕ} (hi : i < n) :
    (⟨.dense n 1, l⟩ : SMat V).at' (i, 0) = l.getD i 0 := by
  have hp : Sparsity.positions n 1 = (List.range n).map fun i => (i, 0) := by simp [Sparsity.positions]
  have hl : l = (List.range n).map fun i => l.getD i 0 := by
    apply List.ext_getElem
    · simp [h]
    · intro k h1 h2
      simp [List.getD_eq_getElem?_getD, h1]
  have : (⟨.dense n 1, l⟩ : SMat V) = SMat.fill (.dense n 1) fun p => l.getD p.1 0 := by
    rw [SMat.fill]
    congr 1
    show l = (Sparsity.positions n 1).map _
    rw [hp, List.map_map]
    exact hl
  rw [this, SMat.fill_at' (Sparsity.dense_canon _ _), if_pos]
  show (i, 0) ∈ Sparsity.positions n 1
  rw [hp]
  simp [hi]

theorem SMat.toColumn_dense {l : List V} {n : ℕ} (h : l.length = n) : (⟨.dense n 1, l⟩ : SMat V).toColumn = l := by
  apply List.ext_getElem
  · simp [SMat.toColumn, Sparsity.dense, h]
  · intro k h1 h2
    simp only [SMat.toColumn, List.getElem_map, List.getElem_range]
    rw [SMat.column_at' h (by omega), List.getD_eq_getElem?_getD, List.getElem?_eq_getElem h2]
    rfl

/-- **C48** (scalars): a number or 1x1 matrix fills every element. -/
theorem C48_scalar_partial (nan : V) (c : CS) (pay : Pay V) (m : SMat V) (h : IsValue pay m) (h1 : m.sp.rows = 1) (h2 : m.sp.cols = 1) :
    callDM nan c pay = .ok ⟨c, List.replicate c.size (m.at' (0, 0)), []⟩ := by
  rw [callDM_value nan c h]
  by_cases hs : c.size = 1
  · rw [if_neg (by simp [hs]), newMatrixStruct, if_neg (by simp [h1, hs]), if_neg (by simp [h2]), hs]
    simp [SMat.toColumn, h1]
  · rw [if_pos ⟨h1, h2, hs⟩, newMatrixStruct, if_neg (by simp [Sparsity.dense]), if_neg (by simp [Sparsity.dense]),
      SMat.toColumn_dense (by simp)]

/-- **C48** (columns): a dense column (also given as a list of numbers) with as many elements as the struct is taken over; in
particular `struct(s.cat)` has the contents of `s`. -/
theorem C48_column (nan : V) (c : CS) (data : List V) (h : data.length = c.size) :
    callDM nan c (.mat ⟨.dense c.size 1, data⟩) = .ok ⟨c, data, []⟩ ∧ callDM nan c (.list (data.map .num)) = .ok ⟨c, data, []⟩ ∧
      callSX c ⟨.dense c.size 1, data⟩ = .ok ⟨c, data, []⟩ := by
  have key : newMatrixStruct c ⟨.dense c.size 1, data⟩ = .ok ⟨c, data, []⟩ := by
    rw [newMatrixStruct, if_neg (by simp [Sparsity.dense]), if_neg (by simp [Sparsity.dense]), SMat.toColumn_dense h]
  refine ⟨?_, ?_, key⟩
  · rw [callDM_value nan c (.mat _), if_neg (by simp [Sparsity.dense]), key]
  · rw [callDM_value nan c (.list data), h, if_neg (by simp [Sparsity.dense]), key]

/-- **C48** (wrong sizes): anything that is neither 1x1 nor has as many rows as the struct raises, and so does a matrix with
several columns. -/
theorem C48_wrong (nan : V) (c : CS) (pay : Pay V) (m : SMat V) (h : IsValue pay m) (h1 : ¬ (m.sp.rows = 1 ∧ m.sp.cols = 1))
    (h2 : m.sp.rows ≠ c.size ∨ (m.sp.cols ≠ 1 ∧ m.sp.rows > 0)) : callDM nan c pay = .error .generic := by
  rw [callDM_value nan c h, if_neg (by tauto), newMatrixStruct]
  split
  · rfl
  · rw [if_pos (by tauto)]

/-- **C48** (other arguments): what is neither a dict nor denotes a matrix raises Exception. -/
theorem C48_not_a_value (nan : V) (c : CS) (pay : Pay V) (h : ∀ m, ¬ IsValue pay m) (hd : ∀ items, pay ≠ .dict items) :
    callDM nan c pay = .error .generic := by
  unfold callDM
  split
  · exact absurd rfl (hd _)
  · cases hm : pay.toMat with
    | error e => rfl
    | ok m => exact absurd (toMat_iff.1 hm) (h m)

/-- **C48** (empty structs): a matrix without rows (and any number of columns) is accepted by a struct without elements. -/
theorem C48_empty (nan : V) (c : CS) (hc : c.size = 0) (m : SMat V) (h : m.sp.rows = 0) :
    callDM nan c (.mat m) = .ok ⟨c, [], []⟩ ∧ callSX c m = .ok ⟨c, [], []⟩ := by
  have key : newMatrixStruct c m = .ok ⟨c, [], []⟩ := by
    rw [newMatrixStruct, if_neg (by simp [h, hc]), if_neg (by simp [h]), SMat.toColumn, h]
    rfl
  exact ⟨by rw [callDM_value nan c (.mat _), if_neg (by simp [h]), key], key⟩

/-- **C48 fails for symbolic scalars**: `struct(a)` for a scalar `SX` or `MX` raises unless the struct has exactly one
element. -/
theorem C48_refuted (c : CS) (hc : c.size ≠ 1) (x : V) : callSX c (.scalar x) = .error .generic := by
  rw [callSX, newMatrixStruct, if_pos]
  simp only [SMat.scalar, Sparsity.dense]
  exact fun h => hc h.symm

/-! ## C49 -/

theorem intersperse_single {α : Type} (l : List α) : intersperse (l.map fun x => [x]) = l := by
  rw [intersperse_rr, rr, rr_nil_of]
  · rw [List.append_nil, List.filterMap_map]
    induction l with
    | nil => rfl
    | cons a l ih =>
      rw [List.filterMap_cons]
      exact congrArg (a :: ·) ih
  · intro x hx
    simp only [List.mem_map] at hx
    obtain ⟨_, ⟨_, _, rfl⟩, rfl⟩ := hx
    rfl

theorem tops_flat {es : List Entry} {o : List OrderItem} (hwf : WFs es o) (hd : ∀ e ∈ es, e.dims = []) :
    tops es o = (o.flatMap OrderItem.names).map fun n => [.str n] := by
  have hdict : ∀ n ∈ o.flatMap OrderItem.names, ∃ e, dictEntry es n = some e ∧ e.name = n ∧ e.dims = [] := by
    intro n hn
    obtain ⟨e, he, rfl⟩ := List.mem_map.1 (hwf.perm.mem_iff.1 hn)
    exact ⟨e, dictEntry_of_mem hwf.nodup he, rfl, hd e he⟩
  rw [tops_eq, List.map_flatMap]
  apply List.flatMap_congr
  intro oi hoi
  have hn : ∀ n ∈ oi.names, ∃ e, dictEntry es n = some e ∧ e.name = n ∧ e.dims = [] := fun n hn =>
    hdict n (List.mem_flatMap.2 ⟨oi, hoi, hn⟩)
  cases oi with
  | one n =>
    obtain ⟨e, h1, h2, h3⟩ := hn n (by simp [OrderItem.names])
    simp [itemTop, h1, h2, h3, listindices, OrderItem.names]
  | tup ns =>
    simp only [OrderItem.names] at hn ⊢
    rw [itemTop]
    have : (ns.map fun n => ((dictEntry es n).map fun e =>
        (listindicesNest e.dims).map fun l => l.map fun ks => Key.str e.name :: ks).getD []) =
        (ns.map fun n => [[Key.str n]]).map fun x => [x] := by
      rw [List.map_map]
      apply List.map_congr_left
      intro n hn'
      obtain ⟨e, h1, h2, h3⟩ := hn n hn'
      simp [h1, h2, h3, listindicesNest]
    rw [this, intersperse_single]
    clear this hn hoi
    induction ns with
    | nil => rfl
    | cons n ns ih => rw [List.map_cons, List.flatten_cons, ih]; rfl

theorem nzBeside_columns (i : ℕ) (ms : List (SMat V)) (h : ∀ m ∈ ms, m.sp.cols = 1) (j : ℕ) :
    nzBeside i ms j = ms[j]?.bind fun m => m.nzAt (i, 0) := by
  induction ms generalizing j with
  | nil => rfl
  | cons m ms ih =>
    rw [nzBeside, h m List.mem_cons_self]
    cases j with
    | zero => rfl
    | succ j =>
      rw [if_neg (by omega)]
      exact ih (fun x hx => h x (List.mem_cons_of_mem _ hx)) j

theorem SMat.column_nzAt {l : List V} {n : ℕ} (h : l.length = n) {i : ℕ} (hi : i < n) :
    (⟨.dense n 1, l⟩ : SMat V).nzAt (i, 0) = some (l.getD i 0) := by
  have hw : (⟨.dense n 1, l⟩ : SMat V).WF := ⟨Sparsity.dense_canon _ _, by simp [Sparsity.dense, Sparsity.positions, h]⟩
  have h1 := SMat.column_at' h hi
  cases hx : (⟨.dense n 1, l⟩ : SMat V).nzAt (i, 0) with
  | none =>
    rw [SMat.nzAt_eq_none hw] at hx
    exact absurd (by simp [Sparsity.dense, Sparsity.positions, hi]) hx
  | some v =>
    rw [SMat.at', hx] at h1
    rw [← h1]
    rfl

theorem filterMap_const {α β : Type} (l : List α) (f : α → Option β) (g : α → β) (h : ∀ a ∈ l, f a = some (g a)) :
    l.filterMap f = l.map g := by
  induction l with
  | nil => rfl
  | cons a l ih =>
    rw [List.filterMap_cons_some (h a List.mem_cons_self), ih fun b hb => h b (List.mem_cons_of_mem _ hb)]
    rfl

/-- Columns side by side. -/
theorem horzcat_columns (r n : ℕ) (hn : 0 < n) (g : ℕ → ℕ → V) :
    horzcat ((List.range n).map fun j => (⟨.dense r 1, (List.range r).map fun i => g i j⟩ : SMat V)) =
      .ok (SMat.fill (.dense r n) fun p => g p.1 p.2) := by
  obtain ⟨k, rfl⟩ : ∃ k, n = k + 1 := ⟨n - 1, by omega⟩
  have hnz : ∀ p ∈ Sparsity.positions r (k + 1), nzBeside p.1 ((List.range (k + 1)).map fun j =>
      (⟨.dense r 1, (List.range r).map fun i => g i j⟩ : SMat V)) p.2 = some (g p.1 p.2) := by
    rintro ⟨i, j⟩ hp
    obtain ⟨hi, hj⟩ := Sparsity.mem_positions.1 hp
    simp only at hi hj ⊢
    rw [nzBeside_columns _ _ (by
      intro m hm
      obtain ⟨j, _, rfl⟩ := List.mem_map.1 hm
      rfl), List.getElem?_map, List.getElem?_range hj]
    simp only [Option.map_some, Option.bind_some]
    rw [SMat.column_nzAt (by simp) hi, List.getD_eq_getElem?_getD, List.getElem?_map, List.getElem?_range hi]
    rfl
  have hsum : ((List.range (k + 1)).map fun _ : ℕ => 1).sum = k + 1 := by simp
  have hcons : ((List.range (k + 1)).map fun j => (⟨.dense r 1, (List.range r).map fun i => g i j⟩ : SMat V)) =
      ⟨.dense r 1, (List.range r).map fun i => g i 0⟩ ::
        (((List.range k).map Nat.succ).map fun j => (⟨.dense r 1, (List.range r).map fun i => g i j⟩ : SMat V)) := by
    rw [List.range_succ_eq_map, List.map_cons]
  rw [hcons, horzcat, if_pos]
  · rw [← hcons, List.map_map]
    have h1 : ((fun x : SMat V => x.sp.cols) ∘ fun j => (⟨.dense r 1, (List.range r).map fun i => g i j⟩ : SMat V)) = fun _ => 1 := rfl
    rw [h1, hsum]
    have h2 : (Sparsity.positions r (k + 1)).filterMap (fun p => (nzBeside p.1 ((List.range (k + 1)).map fun j =>
        (⟨.dense r 1, (List.range r).map fun i => g i j⟩ : SMat V)) p.2).map fun v => (p, v)) =
        (Sparsity.positions r (k + 1)).map fun p => (p, g p.1 p.2) :=
      filterMap_const _ _ _ fun p hp => by rw [hnz p hp]; rfl
    have h3 : (⟨.dense r 1, (List.range r).map fun i => g i 0⟩ : SMat V).sp.rows = r := rfl
    rw [h3]
    show Except.ok (⟨⟨r, k + 1, _⟩, _⟩ : SMat V) = _
    rw [h2]
    simp only [List.map_map, Function.comp_def, List.map_id']
    rfl
  · simp [List.all_eq_true, Sparsity.dense]

theorem parse_core [Add V] [Sub V] (nan : V) (s : Struct) (hwf : WFs s.entries s.order) (c : CS) (hc : CS.ofStruct s = .ok c)
    (hd : ∀ e ∈ s.entries, e.dims = [])
    (hcol : ∀ n d p, Entry.prim n d p ∈ s.entries → p.sp = .dense p.sp.rows 1 ∧ p.symm = false)
    (hne : ∀ n d es' o', Entry.nested n d es' o' ∈ s.entries → ∃ d p, IsLeaf es' d p)
    (data : SMat V) (hn : 0 < data.sp.cols) (g : ℕ → ℕ → V)
    (hcolumn : ∀ j, callDM nan c (.mat (data.column j)) = .ok ⟨c, (List.range c.size).map fun i => g i j, []⟩) :
    ∃ res, parseMatrix nan c data = .ok res ∧ res.map Prod.fst = s.keys ∧
      ∀ A e B, (∀ x ∈ A ++ e :: B, x ∈ s.entries) → (A ++ e :: B).map Entry.name = s.keys →
        res[A.length]? = some (e.name, SMat.fill (.dense e.blockSize data.sp.cols) fun p =>
          g ((A.map Entry.blockSize).sum + p.1) p.2) := by
  obtain ⟨c', ls, hc', rfl, hb⟩ := ofStruct_built hwf
  rw [hc] at hc'
  cases hc'
  have htops := tops_flat hwf hd
  obtain ⟨E, hE, hEk⟩ := perm_map_exists Entry.name hwf.perm c.struct.entries rfl
  -- what is read for one key
  have hread : ∀ A e B, (∀ x ∈ A ++ e :: B, x ∈ c.struct.entries) → (A ++ e :: B).map Entry.name = c.struct.keys → ∀ j,
      (⟨c, (List.range c.size).map fun i => g i j, []⟩ : Obj V).getitem [.str e.name] =
        .ok (.leaf ⟨.dense e.blockSize 1, (List.range e.blockSize).map fun i => g ((A.map Entry.blockSize).sum + i) j⟩) := by
    intro A e B hmem hnames j
    have he := hmem e (by simp)
    have hAB : tops c.struct.entries c.struct.order =
        (A.map fun x => [Key.str x.name]) ++ [.str e.name] :: (B.map fun x => [Key.str x.name]) := by
      rw [htops]
      show c.struct.keys.map _ = _
      rw [← hnames]
      simp [Function.comp_def]
    have hlen : ((List.range c.size).map fun i => g i j).length = c.size := by simp
    have hsizes : (A.map fun x => [Key.str x.name]).map (topSize c.struct.entries) = A.map Entry.blockSize := by
      rw [List.map_map]
      apply List.map_congr_left
      intro x hx
      exact topSize_eq hwf.nodup (hmem x (by simp [hx])) []
    have hst := hb.stored_top hwf hAB hlen
    rw [hsizes, topSize_eq hwf.nodup he] at hst
    have hks : InDims [] e.dims := by rw [hd e he]; exact .nil
    have hpart : IsPart c.struct.entries [.str e.name] e.primOf (.dense e.blockSize 1) := by
      cases e with
      | prim n d p =>
        have h1 := (hcol n d p he).1
        have h2 : IsPart c.struct.entries [.str n] (some p) p.sp := .leaf (.prim he hks)
        have h3 : p.sp = .dense (Entry.blockSize (.prim n d p)) 1 := by
          have : p.sp.nz.length = p.sp.rows := by
            rw [h1]; simp [Sparsity.dense, Sparsity.positions]
          rw [Entry.blockSize, this, ← h1]
        rw [← h3]
        exact h2
      | nested n d es' o' =>
        obtain ⟨d', p, hl⟩ := hne n d es' o' he
        exact .node (.top he hks) hl
    have hle : (A.map Entry.blockSize).sum + e.blockSize ≤ c.size := by
      rw [hb.size_eq hwf, ← sum_tops hwf, hAB]
      simp only [List.map_append, List.map_cons, List.sum_append, List.sum_cons]
      rw [hsizes, topSize_eq hwf.nodup he]
      omega
    have := getitem_stored hb hwf hlen hpart
    refine this.trans ?_
    rw [if_neg, hst]
    · show Except.ok (Tree.leaf (⟨_, _⟩ : SMat V)) = _
      congr 3
      apply List.ext_getElem
      · simp; omega
      · intro k h1 h2
        simp [List.getElem_take, List.getElem_drop]
    · cases e with
      | prim n d p => simp [symmOf, Entry.primOf, (hcol n d p he).2]
      | nested n d es' o' => simp [symmOf, Entry.primOf]
  have hmemE : ∀ x ∈ E, x ∈ c.struct.entries := fun x hx => hE.mem_iff.1 hx
  -- one key of the result
  have hkey : ∀ A e B, (∀ x ∈ A ++ e :: B, x ∈ c.struct.entries) → (A ++ e :: B).map Entry.name = c.struct.keys →
      (do
        let ms ← (List.range data.sp.cols).mapM fun j => do
          let o ← callDM nan c (.mat (data.column j))
          let t ← o.getitem [.str e.name]
          t.toLeaf
        let m ← horzcat ms
        pure (e.name, m) : Except PyErr (String × SMat V)) = .ok (e.name, SMat.fill (.dense e.blockSize data.sp.cols) fun p =>
          g ((A.map Entry.blockSize).sum + p.1) p.2) := by
    intro A e B hmem hnames
    rw [except_mapM_ok _ _ (fun j => (⟨.dense e.blockSize 1, (List.range e.blockSize).map fun i =>
      g ((A.map Entry.blockSize).sum + i) j⟩ : SMat V))]
    · show Except.bind (horzcat _) _ = _
      rw [horzcat_columns e.blockSize data.sp.cols hn fun i j => g ((A.map Entry.blockSize).sum + i) j]
      rfl
    · intro j _
      rw [hcolumn]
      show Except.bind (Obj.getitem _ _) _ = _
      rw [hread A e B hmem hnames j]
      rfl
  -- all keys
  have hall : ∀ B A, A ++ B = E → ∃ rs, (B.map Entry.name).mapM (fun k => (do
        let ms ← (List.range data.sp.cols).mapM fun j => do
          let o ← callDM nan c (.mat (data.column j))
          let t ← o.getitem [.str k]
          t.toLeaf
        let m ← horzcat ms
        pure (k, m) : Except PyErr (String × SMat V))) = .ok rs ∧ rs.map Prod.fst = B.map Entry.name ∧
        ∀ C e D, C ++ e :: D = B → rs[C.length]? = some (e.name, SMat.fill (.dense e.blockSize data.sp.cols) fun p =>
          g (((A ++ C).map Entry.blockSize).sum + p.1) p.2) := by
    intro B
    induction B with
    | nil => exact fun A _ => ⟨[], rfl, rfl, fun C e D h => by simp at h⟩
    | cons e B ih =>
      intro A hA
      obtain ⟨rs, h1, h2, h3⟩ := ih (A ++ [e]) (by rw [← hA]; simp)
      have h0 := hkey A e B (by rw [hA]; exact hmemE) (by rw [hA]; exact hEk)
      refine ⟨(e.name, SMat.fill (.dense e.blockSize data.sp.cols) fun p =>
          g ((A.map Entry.blockSize).sum + p.1) p.2) :: rs, ?_, ?_, ?_⟩
      · rw [List.map_cons, List.mapM_cons, h0]
        show Except.bind (List.mapM _ _) _ = _
        rw [h1]
        rfl
      · rw [List.map_cons, h2]; rfl
      · intro C x D hx
        cases C with
        | nil =>
          injection hx with hx1 hx2
          subst hx1
          simp
        | cons y C =>
          injection hx with hx1 hx2
          subst hx1
          have := h3 C x D hx2
          simp only [List.length_cons, List.getElem?_cons_succ]
          rw [this]
          simp
  obtain ⟨rs, h1, h2, h3⟩ := hall E [] rfl
  refine ⟨rs, ?_, h2.trans hEk, ?_⟩
  · rw [parseMatrix, show c.struct.keys = E.map Entry.name from hEk.symm]
    exact h1
  · intro A e B hmem hnames
    have hEE : A ++ e :: B = E := by
      have hl : (A ++ e :: B).map Entry.name = E.map Entry.name := hnames.trans hEk.symm
      apply List.ext_getElem?
      intro k
      have hk := congrArg (fun l => l[k]?) hl
      simp only [List.getElem?_map] at hk
      cases h4 : (A ++ e :: B)[k]? with
      | none =>
        rw [h4] at hk
        cases h5 : E[k]? with
        | none => rfl
        | some y => rw [h5] at hk; cases hk
      | some x =>
        rw [h4] at hk
        cases h5 : E[k]? with
        | none => rw [h5] at hk; cases hk
        | some y =>
          rw [h5] at hk
          have hx := hmem x (List.mem_of_getElem? h4)
          have hy := hmemE y (List.mem_of_getElem? h5)
          have := Option.some.inj hk
          have e1 := dictEntry_of_mem hwf.nodup hx
          have e2 := dictEntry_of_mem hwf.nodup hy
          rw [this] at e1
          rw [e1] at e2
          exact e2
    have := h3 A e B hEE
    simpa using this

/-- **C49**: for a struct of unrepeated entries, each a dense column or a struct with at least one element, and data with as
many rows as the struct has elements (and at least one column), `parseMatrix` returns for every key, in order, the rows of the
data that belong to this key: the first `n₁` rows for the first key, the next `n₂` for the second, and so on. -/
theorem C49_rows (nan : V) (s : Struct) (hwf : WFs s.entries s.order) (c : CS) (hc : CS.ofStruct s = .ok c)
    (hd : ∀ e ∈ s.entries, e.dims = [])
    (hcol : ∀ n d p, Entry.prim n d p ∈ s.entries → p.sp = .dense p.sp.rows 1 ∧ p.symm = false)
    (hne : ∀ n d es' o', Entry.nested n d es' o' ∈ s.entries → ∃ d p, IsLeaf es' d p)
    (data : SMat V) (hr : data.sp.rows = c.size) (hn : 0 < data.sp.cols) :
    ∃ res, parseMatrix nan c data = .ok res ∧ res.map Prod.fst = s.keys ∧
      ∀ A e B, (∀ x ∈ A ++ e :: B, x ∈ s.entries) → (A ++ e :: B).map Entry.name = s.keys →
        res[A.length]? = some (e.name, SMat.fill (.dense e.blockSize data.sp.cols) fun p =>
          data.at' ((A.map Entry.blockSize).sum + p.1, p.2)) := by
  apply parse_core nan s hwf c hc hd hcol hne data hn fun i j => data.at' (i, j)
  intro j
  rw [SMat.column, hr]
  exact (C48_column nan c _ (by simp)).1

/-- **C49** (stacking): the rows of the results, one key after the other, are the rows of the data. -/
theorem C49_stack (nan : V) (s : Struct) (hwf : WFs s.entries s.order) (c : CS) (hc : CS.ofStruct s = .ok c)
    (hd : ∀ e ∈ s.entries, e.dims = [])
    (hcol : ∀ n d p, Entry.prim n d p ∈ s.entries → p.sp = .dense p.sp.rows 1 ∧ p.symm = false)
    (hne : ∀ n d es' o', Entry.nested n d es' o' ∈ s.entries → ∃ d p, IsLeaf es' d p)
    (data : SMat V) (hr : data.sp.rows = c.size) (hn : 0 < data.sp.cols) :
    ∃ res, parseMatrix nan c data = .ok res ∧ res.map Prod.fst = s.keys ∧
      (res.flatMap fun km => (List.range km.2.sp.rows).map fun i => (List.range data.sp.cols).map fun j => km.2.at' (i, j)) =
        (List.range data.sp.rows).map fun i => (List.range data.sp.cols).map fun j => data.at' (i, j) := by
  obtain ⟨res, h1, h2, h3⟩ := C49_rows nan s hwf c hc hd hcol hne data hr hn
  refine ⟨res, h1, h2, ?_⟩
  obtain ⟨E, hE, hEk⟩ := perm_map_exists Entry.name hwf.perm s.entries rfl
  have hmemE : ∀ x ∈ E, x ∈ s.entries := fun x hx => hE.mem_iff.1 hx
  have hsize : c.size = (E.map Entry.blockSize).sum := by
    obtain ⟨c', ls, hc', rfl, hb⟩ := ofStruct_built hwf
    rw [hc] at hc'
    cases hc'
    rw [hb.size_eq hwf, ← sum_tops hwf, tops_flat hwf hd, ← hEk, List.map_map, List.map_map]
    congr 1
    apply List.map_congr_left
    intro x hx
    exact topSize_eq hwf.nodup (hmemE x hx) []
  have hat : ∀ (r n : ℕ) (f : ℕ × ℕ → V) i j, i < r → j < n → (SMat.fill (.dense r n) f).at' (i, j) = f (i, j) := by
    intro r n f i j hi hj
    rw [SMat.fill_at' (Sparsity.dense_canon _ _), if_pos]
    exact Sparsity.mem_positions.2 ⟨hi, hj⟩
  rw [hr, hsize]
  have key : ∀ B A rs, A ++ B = E → rs = res.drop A.length →
      (rs.flatMap fun km => (List.range km.2.sp.rows).map fun i => (List.range data.sp.cols).map fun j => km.2.at' (i, j)) =
        (List.range (B.map Entry.blockSize).sum).map fun i => (List.range data.sp.cols).map fun j =>
          data.at' ((A.map Entry.blockSize).sum + i, j) := by
    intro B
    induction B with
    | nil =>
      intro A rs hA hrs
      have : res.length ≤ A.length := by
        have := congrArg List.length h2
        rw [List.length_map, show s.keys = E.map Entry.name from hEk.symm, List.length_map, ← hA] at this
        simp at this
        omega
      rw [hrs, List.drop_of_length_le this]
      rfl
    | cons e B ih =>
      intro A rs hA hrs
      have h4 := h3 A e B (by rw [hA]; exact hmemE) (by rw [hA]; exact hEk)
      have h5 := ih (A ++ [e]) (res.drop (A.length + 1)) (by rw [← hA]; simp) (by simp)
      obtain ⟨hlt, h6⟩ := List.getElem?_eq_some_iff.1 h4
      rw [hrs, List.drop_eq_getElem_cons hlt, h6, List.flatMap_cons, h5, List.map_cons, List.sum_cons, List.range_add]
      conv_rhs => rw [List.map_append, List.map_map]
      congr 1
      · apply List.map_congr_left
        intro i hi
        apply List.map_congr_left
        intro j hj
        exact hat _ _ _ i j (List.mem_range.1 hi) (List.mem_range.1 hj)
      · apply List.map_congr_left
        intro i hi
        apply List.map_congr_left
        intro j hj
        simp [Nat.add_assoc]
  have := key E [] res rfl rfl
  simpa using this

/-- **C49**, data with a single row: for a struct with more elements (or none) the row is repeated for every element, without
an error. -/
theorem C49_one_row (nan : V) (s : Struct) (hwf : WFs s.entries s.order) (c : CS) (hc : CS.ofStruct s = .ok c)
    (hd : ∀ e ∈ s.entries, e.dims = [])
    (hcol : ∀ n d p, Entry.prim n d p ∈ s.entries → p.sp = .dense p.sp.rows 1 ∧ p.symm = false)
    (hne : ∀ n d es' o', Entry.nested n d es' o' ∈ s.entries → ∃ d p, IsLeaf es' d p)
    (data : SMat V) (hr : data.sp.rows = 1) (hs : c.size ≠ 1) (hn : 0 < data.sp.cols) :
    ∃ res, parseMatrix nan c data = .ok res ∧ res.map Prod.fst = s.keys ∧
      ∀ A e B, (∀ x ∈ A ++ e :: B, x ∈ s.entries) → (A ++ e :: B).map Entry.name = s.keys →
        res[A.length]? = some (e.name, SMat.fill (.dense e.blockSize data.sp.cols) fun p => data.at' (0, p.2)) := by
  apply parse_core nan s hwf c hc hd hcol hne data hn fun _ j => data.at' (0, j)
  intro j
  rw [C48_scalar_partial nan c _ (data.column j) (.mat _) (by simpa [SMat.column, Sparsity.dense] using hr) rfl]
  have : (data.column j).at' (0, 0) = data.at' (0, j) := by
    rw [SMat.column, SMat.column_at' (by simp) (by omega)]
    simp [List.getD_eq_getElem?_getD, hr]
  rw [this]
  congr 2
  simp

/-- **C49**, other numbers of rows: data with neither one row nor the number of elements of the struct raise. -/
theorem C49_wrong (nan : V) (c : CS) (hk : c.struct.keys ≠ []) (data : SMat V) (hn : 0 < data.sp.cols)
    (h1 : data.sp.rows ≠ 1) (h2 : data.sp.rows ≠ c.size) : parseMatrix nan c data = .error .generic := by
  have hcall : ∀ j, callDM nan c (.mat (data.column j)) = .error .generic := fun j =>
    C48_wrong nan c _ _ (.mat _) (by simp [SMat.column, Sparsity.dense, h1]) (.inl (by simpa [SMat.column, Sparsity.dense] using h2))
  obtain ⟨k, ks, hks⟩ := List.exists_cons_of_ne_nil hk
  obtain ⟨n, hn'⟩ : ∃ n, data.sp.cols = n + 1 := ⟨data.sp.cols - 1, by omega⟩
  rw [parseMatrix, hks, List.mapM_cons, hn', List.range_succ_eq_map, List.mapM_cons, hcall]
  rfl

/-! ## Examples -/

/-- `struct_symSX([entry('b', shape=2), entry('a', repeat=2)])` with the order `a`, `b`. -/
def ex47 : Struct :=
  ⟨[.prim "b" [] ⟨.dense 2 1, false, none, none⟩, .prim "a" [2] ⟨.dense 1 1, false, none, none⟩], [.one "a", .one "b"]⟩

theorem ex47_wf : WFs ex47.entries ex47.order := by
  refine .mk (by decide) (by decide) ?_ ?_
  · intro n d p h
    simp only [ex47, List.mem_cons, List.not_mem_nil, or_false, Entry.prim.injEq] at h
    rcases h with ⟨_, _, rfl⟩ | ⟨_, _, rfl⟩ <;> exact Sparsity.dense_canon _ _
  · intro n d es o h
    simp [ex47] at h

/-- The dict of the examples fits `ex47`. -/
theorem ex47_fits : DictFits (V := ℤ) ex47 [("b", .mat ⟨.dense 2 1, [7, 8]⟩), ("a", .list [.num 5, .num 6])]
    (fun a => if a = [.str "b"] then [7, 8] else if a = [.str "a", .int 0] then [5] else [6]) := by
  have hb : Entry.prim "b" [] ⟨.dense 2 1, false, none, none⟩ ∈ ex47.entries := by simp [ex47]
  have ha : Entry.prim "a" [2] ⟨.dense 1 1, false, none, none⟩ ∈ ex47.entries := by simp [ex47]
  intro e he
  simp only [ex47, List.mem_cons, List.not_mem_nil, or_false] at he
  rcases he with rfl | rfl
  · refine ⟨_, rfl, trivial, ?_⟩
    intro is his
    cases his
    exact ⟨_, _, _, rfl, .plain (.leaf (.prim hb .nil)) (by rintro p ⟨⟩; rfl) (.mat _)
      ⟨Sparsity.dense_canon _ _, rfl⟩ (.same rfl rfl), by decide⟩
  · refine ⟨_, rfl, ?_, ?_⟩
    · intro i hi
      interval_cases i
      · exact ⟨_, rfl, trivial⟩
      · exact ⟨_, rfl, trivial⟩
    · intro is his
      obtain ⟨i, _, hi, hn, rfl⟩ := List.forall₂_cons_right_iff.1 his
      cases hn
      have hdims : InDims (natKeys [i]) [2] := .cons ⟨i, hi, rfl⟩ .nil
      interval_cases i
      · exact ⟨_, _, _, rfl, .plain (.leaf (.prim ha hdims)) (by rintro p ⟨⟩; rfl) (.num _)
          ⟨Sparsity.dense_canon _ _, rfl⟩ (.same rfl rfl), by decide⟩
      · exact ⟨_, _, _, rfl, .plain (.leaf (.prim ha hdims)) (by rintro p ⟨⟩; rfl) (.num _)
          ⟨Sparsity.dense_canon _ _, rfl⟩ (.same rfl rfl), by decide⟩

/-- `struct({'b': DM([7, 8]), 'a': [5, 6]}).cat` is `[5, 6, 7, 8]`. -/
example : ∃ c, CS.ofStruct ex47 = .ok c ∧
    callDM (V := ℤ) 0 c (.dict [("b", .mat ⟨.dense 2 1, [7, 8]⟩), ("a", .list [.num 5, .num 6])]) = .ok ⟨c, [5, 6, 7, 8], []⟩ := by
  obtain ⟨c, hc, _⟩ := C39_size ex47 ex47_wf
  refine ⟨c, hc, ?_⟩
  obtain ⟨m, h1, _, h2, _⟩ := C47_cat (V := ℤ) 0 ex47 ex47_wf c hc
    [("b", .mat ⟨.dense 2 1, [7, 8]⟩), ("a", .list [.num 5, .num 6])] (by
      intro k
      simp [ex47, Entry.name, eq_comm])
    (fun a => if a = [.str "b"] then [7, 8] else if a = [.str "a", .int 0] then [5] else [6]) ex47_fits
  rw [h1, h2]
  have h3 : ex47.traverseCanonicalIndex 1 = [[.str "a", .int 0], [.str "a", .int 1], [.str "b"]] := by decide
  rw [h3]
  rfl

/-- A missing key raises. -/
example : ∃ c, CS.ofStruct ex47 = .ok c ∧ callDM (V := ℤ) 0 c (.dict [("b", .num 1)]) = .error .generic := by
  obtain ⟨c, hc, _⟩ := C39_size ex47 ex47_wf
  refine ⟨c, hc, C47_keys 0 ex47 ex47_wf c hc _ fun h => ?_⟩
  have := (h "a").2 ⟨.prim "a" [2] ⟨.dense 1 1, false, none, none⟩, by simp [ex47], rfl⟩
  simp at this

/-- `struct(3)`, `struct([1, 2, 3, 4])` and `struct([1, 2])`. -/
example : ∃ c, CS.ofStruct ex47 = .ok c ∧ callDM (V := ℤ) 0 c (.num 3) = .ok ⟨c, [3, 3, 3, 3], []⟩ ∧
    callDM (V := ℤ) 0 c (.list [.num 1, .num 2, .num 3, .num 4]) = .ok ⟨c, [1, 2, 3, 4], []⟩ ∧
    callDM (V := ℤ) 0 c (.list [.num 1, .num 2]) = .error .generic ∧ callSX (V := ℤ) c (.scalar 3) = .error .generic := by
  obtain ⟨c, hc, hs, _⟩ := C39_size ex47 ex47_wf
  have hs : c.size = 4 := by rw [hs]; rfl
  refine ⟨c, hc, ?_, (C48_column 0 c [1, 2, 3, 4] (by rw [hs]; rfl)).2.1, ?_, C48_refuted c (by omega) 3⟩
  · rw [C48_scalar_partial 0 c _ _ (.num 3) rfl rfl, hs]
    rfl
  · exact C48_wrong 0 c _ _ (.list [1, 2]) (by decide) (.inl (by rw [hs]; decide))

/-- `struct_symSX([entry('b', shape=2), entry('a')])` with the order `a`, `b`. -/
def ex49 : Struct :=
  ⟨[.prim "b" [] ⟨.dense 2 1, false, none, none⟩, .prim "a" [] ⟨.dense 1 1, false, none, none⟩], [.one "a", .one "b"]⟩

theorem ex49_wf : WFs ex49.entries ex49.order := by
  refine .mk (by decide) (by decide) ?_ ?_
  · intro n d p h
    simp only [ex49, List.mem_cons, List.not_mem_nil, or_false, Entry.prim.injEq] at h
    rcases h with ⟨_, _, rfl⟩ | ⟨_, _, rfl⟩ <;> exact Sparsity.dense_canon _ _
  · intro n d es o h
    simp [ex49] at h

/-- `parseMatrix([[1, 4], [2, 5], [3, 6]])` is `{'a': [[1, 4]], 'b': [[2, 5], [3, 6]]}`. -/
example : ∃ c, CS.ofStruct ex49 = .ok c ∧ ∃ res, parseMatrix (V := ℤ) 0 c ⟨.dense 3 2, [1, 2, 3, 4, 5, 6]⟩ = .ok res ∧
    res[0]? = some ("a", ⟨.dense 1 2, [1, 4]⟩) ∧ res[1]? = some ("b", ⟨.dense 2 2, [2, 3, 5, 6]⟩) := by
  obtain ⟨c, hc, hs, _⟩ := C39_size ex49 ex49_wf
  refine ⟨c, hc, ?_⟩
  obtain ⟨res, h1, h2, h3⟩ := C49_rows (V := ℤ) 0 ex49 ex49_wf c hc (by simp [ex49, Entry.dims]) (by
      intro n d p h
      simp only [ex49, List.mem_cons, List.not_mem_nil, or_false, Entry.prim.injEq] at h
      rcases h with ⟨_, _, rfl⟩ | ⟨_, _, rfl⟩ <;> exact ⟨rfl, rfl⟩) (by simp [ex49]) ⟨.dense 3 2, [1, 2, 3, 4, 5, 6]⟩
      (by rw [hs]; rfl) (by decide)
  refine ⟨res, h1, ?_, ?_⟩
  · exact (h3 [] (.prim "a" [] ⟨.dense 1 1, false, none, none⟩) [.prim "b" [] ⟨.dense 2 1, false, none, none⟩]
      (by simp [ex49]) rfl).trans (by decide)
  · exact (h3 [.prim "a" [] ⟨.dense 1 1, false, none, none⟩] (.prim "b" [] ⟨.dense 2 1, false, none, none⟩) []
      (by simp [ex49]) rfl).trans (by decide)

end

/-- `struct({'b': DM([7, 8]), 'a': [5, 6]})['a']` is `[5, 6]` and `['b']` is `[7, 8]`. -/
example : ∃ c obj, CS.ofStruct ex47 = .ok c ∧
    callDM (V := ℤ) 0 c (.dict [("b", .mat ⟨.dense 2 1, [7, 8]⟩), ("a", .list [.num 5, .num 6])]) = .ok obj ∧
    obj.getitem [.str "a"] = .ok (.list [.leaf (.scalar 5), .leaf (.scalar 6)]) ∧
    obj.getitem [.str "b"] = .ok (.leaf ⟨.dense 2 1, [7, 8]⟩) := by
  obtain ⟨c, hc, _⟩ := C39_size ex47 ex47_wf
  have hb : Entry.prim "b" [] ⟨.dense 2 1, false, none, none⟩ ∈ ex47.entries := by simp [ex47]
  have ha : Entry.prim "a" [2] ⟨.dense 1 1, false, none, none⟩ ∈ ex47.entries := by simp [ex47]
  obtain ⟨obj, h1, h2⟩ := C47_read (V := ℤ) 0 ex47 ex47_wf c hc
    [("b", .mat ⟨.dense 2 1, [7, 8]⟩), ("a", .list [.num 5, .num 6])] (by
      intro k
      simp [ex47, Entry.name, eq_comm])
    (fun a => if a = [.str "b"] then [7, 8] else if a = [.str "a", .int 0] then [5] else [6]) ex47_fits
  exact ⟨c, obj, hc, h1, h2 _ ha (by rintro n d p ⟨⟩; rfl), h2 _ hb (by rintro n d p ⟨⟩; rfl)⟩

/-- A string is not a value; `struct(rows of different lengths)` raises. -/
example (c : CS) : callDM (V := ℤ) 0 c (.list [.list [.num 1, .num 2], .list [.num 4]]) = .error .generic :=
  C48_not_a_value 0 c _ (by
    intro m h
    have := toMat_iff.2 h
    cases this) (by rintro items ⟨⟩)

/-- A struct without entries accepts a 0x1 matrix. -/
example : ∃ c, CS.ofStruct ⟨[], []⟩ = .ok c ∧ callDM (V := ℤ) 0 c (.mat ⟨.dense 0 1, []⟩) = .ok ⟨c, [], []⟩ := by
  obtain ⟨c, hc, hs, _⟩ := C39_size ⟨[], []⟩ (.mk (by decide) (by decide) (by simp) (by simp))
  exact ⟨c, hc, (C48_empty 0 c (by rw [hs]; rfl) _ rfl).1⟩

/-- `parseMatrix` of `ex49`: a single row is repeated, stacking the results gives the data, two rows raise. -/
example : ∃ c, CS.ofStruct ex49 = .ok c ∧
    (∃ res, parseMatrix (V := ℤ) 0 c ⟨.dense 1 2, [1, 4]⟩ = .ok res ∧ res[1]? = some ("b", ⟨.dense 2 2, [1, 1, 4, 4]⟩)) ∧
    (∃ res, parseMatrix (V := ℤ) 0 c ⟨.dense 3 2, [1, 2, 3, 4, 5, 6]⟩ = .ok res ∧
      (res.flatMap fun km => (List.range km.2.sp.rows).map fun i => (List.range 2).map fun j => km.2.at' (i, j)) =
        [[1, 4], [2, 5], [3, 6]]) ∧
    parseMatrix (V := ℤ) 0 c ⟨.dense 2 2, [1, 2, 3, 4]⟩ = .error .generic := by
  obtain ⟨c, hc, hs, _⟩ := C39_size ex49 ex49_wf
  have hs3 : c.size = 3 := by rw [hs]; rfl
  have hcol : ∀ n d p, Entry.prim n d p ∈ ex49.entries → p.sp = .dense p.sp.rows 1 ∧ p.symm = false := by
    intro n d p h
    simp only [ex49, List.mem_cons, List.not_mem_nil, or_false, Entry.prim.injEq] at h
    rcases h with ⟨_, _, rfl⟩ | ⟨_, _, rfl⟩ <;> exact ⟨rfl, rfl⟩
  obtain ⟨r1, h1, -, h2⟩ := C49_one_row (V := ℤ) 0 ex49 ex49_wf c hc (by simp [ex49, Entry.dims]) hcol (by simp [ex49])
    ⟨.dense 1 2, [1, 4]⟩ rfl (by omega) (by decide)
  obtain ⟨r2, h3, -, h4⟩ := C49_stack (V := ℤ) 0 ex49 ex49_wf c hc (by simp [ex49, Entry.dims]) hcol (by simp [ex49])
    ⟨.dense 3 2, [1, 2, 3, 4, 5, 6]⟩ (by rw [hs3]; rfl) (by decide)
  refine ⟨c, hc, ⟨r1, h1, ?_⟩, ⟨r2, h3, h4.trans (by decide)⟩, C49_wrong 0 c ?_ _ (by decide) (by decide) (by rw [hs3]; decide)⟩
  · exact (h2 [.prim "a" [] ⟨.dense 1 1, false, none, none⟩] (.prim "b" [] ⟨.dense 2 1, false, none, none⟩) []
      (by simp [ex49]) rfl).trans (by decide)
  · rw [ofStruct_struct hc]; decide

end CE.St
