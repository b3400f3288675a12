import Verif.Struct.LemTrav2
import Verif.Struct.PropsAccess

/-! # Repeat indices: C45, C46, C60 -/

namespace CE.St

variable {V : Type}

/-! ## Python slices -/

theorem mem_progression (a c : ℤ) (n : ℕ) (i : ℤ) :
    i ∈ (List.range n).map (fun k : ℕ => a + c * k) ↔ ∃ k : ℕ, k < n ∧ i = a + c * k := by
  simp only [List.mem_map, List.mem_range]
  constructor
  · rintro ⟨k, h, e⟩; exact ⟨k, h, e.symm⟩
  · rintro ⟨k, h, e⟩; exact ⟨k, h, e.symm⟩

/-- **C45**, the indices of a slice with positive step: with the bounds counted from the end if negative and clamped to
`0..n`, the indices are every `c`-th one from `start` up to but excluding `stop`, in increasing order. -/
theorem C45_slice_positive (start stop : Option ℤ) (c : ℤ) (hc : 0 < c) (n : ℕ) :
    ∃ is, sliceList start stop (some c) n = .ok is ∧ is.Pairwise (· < ·) ∧
      ∀ i, i ∈ is ↔
        (let lo := match start with
          | none => 0
          | some v => max 0 (min (n : ℤ) (if v < 0 then v + n else v))
        let hi := match stop with
          | none => (n : ℤ)
          | some v => max 0 (min (n : ℤ) (if v < 0 then v + n else v))
        lo ≤ i ∧ i < hi ∧ c ∣ i - lo) := by
  have h0 : ¬ c = 0 := by omega
  have h1 : ¬ c < 0 := by omega
  have key : ∀ a b : ℤ, ((List.range (if a < b then (b - a - 1) / c + 1 else 0).toNat).map fun k : ℕ => a + c * k).Pairwise
      (· < ·) ∧ ∀ i, i ∈ ((List.range (if a < b then (b - a - 1) / c + 1 else 0).toNat).map fun k : ℕ => a + c * k) ↔
        a ≤ i ∧ i < b ∧ c ∣ i - a := by
    intro a b
    constructor
    · rw [List.pairwise_map]
      apply List.Pairwise.imp _ List.pairwise_lt_range
      intro x y hxy
      have := mul_lt_mul_of_pos_left (Int.ofNat_lt.2 hxy) hc
      omega
    · intro i
      rw [mem_progression]
      constructor
      · rintro ⟨k, hk, rfl⟩
        split at hk
        · have h2 : (k : ℤ) ≤ (b - a - 1) / c := by omega
          have h3 : (k : ℤ) * c ≤ b - a - 1 := by
            calc (k : ℤ) * c ≤ ((b - a - 1) / c) * c := mul_le_mul_of_nonneg_right h2 hc.le
              _ ≤ b - a - 1 := Int.ediv_mul_le _ h0
          have h4 : 0 ≤ (k : ℤ) * c := mul_nonneg (by omega) hc.le
          rw [mul_comm] at h3 h4
          exact ⟨by omega, by omega, ⟨k, by omega⟩⟩
        · simp at hk
      · rintro ⟨h2, h3, k, hk⟩
        have h4 : 0 ≤ k := by
          by_contra hneg
          have : c * k < 0 := mul_neg_of_pos_of_neg hc (by omega)
          omega
        refine ⟨k.toNat, ?_, ?_⟩
        · rw [if_pos (by omega)]
          have : k ≤ (b - a - 1) / c := by
            rw [Int.le_ediv_iff_mul_le hc, mul_comm]
            omega
          omega
        · rw [Int.toNat_of_nonneg h4]; omega
  have e : ∀ v : ℤ, (if v < 0 then max (v + n) 0 else min v n) = max 0 (min (n : ℤ) (if v < 0 then v + n else v)) := by
    intro v
    split <;> omega
  unfold sliceList
  simp only [Option.getD_some, h0, h1, if_false, e]
  refine ⟨_, rfl, ?_⟩
  cases start <;> cases stop <;> exact key _ _

/-- **C45**, the indices of a slice with negative step. -/
theorem C45_slice_negative (start stop : Option ℤ) (c : ℤ) (hc : c < 0) (n : ℕ) :
    ∃ is, sliceList start stop (some c) n = .ok is ∧ is.Pairwise (· > ·) ∧
      ∀ i, i ∈ is ↔
        (let hi := match start with
          | none => (n : ℤ) - 1
          | some v => max (-1) (min ((n : ℤ) - 1) (if v < 0 then v + n else v))
        let lo := match stop with
          | none => -1
          | some v => max (-1) (min ((n : ℤ) - 1) (if v < 0 then v + n else v))
        lo < i ∧ i ≤ hi ∧ c ∣ hi - i) := by
  have h0 : ¬ c = 0 := by omega
  have key : ∀ a b : ℤ, ((List.range (if b < a then (a - b - 1) / (-c) + 1 else 0).toNat).map fun k : ℕ => a + c * k).Pairwise
      (· > ·) ∧ ∀ i, i ∈ ((List.range (if b < a then (a - b - 1) / (-c) + 1 else 0).toNat).map fun k : ℕ => a + c * k) ↔
        b < i ∧ i ≤ a ∧ c ∣ a - i := by
    intro a b
    constructor
    · rw [List.pairwise_map]
      apply List.Pairwise.imp _ List.pairwise_lt_range
      intro x y hxy
      have := mul_lt_mul_of_neg_left (Int.ofNat_lt.2 hxy) hc
      omega
    · intro i
      rw [mem_progression]
      have hc' : 0 < -c := by omega
      constructor
      · rintro ⟨k, hk, rfl⟩
        split at hk
        · have h2 : (k : ℤ) ≤ (a - b - 1) / (-c) := by omega
          have h3 : (k : ℤ) * (-c) ≤ a - b - 1 := by
            calc (k : ℤ) * (-c) ≤ ((a - b - 1) / (-c)) * (-c) := mul_le_mul_of_nonneg_right h2 hc'.le
              _ ≤ a - b - 1 := Int.ediv_mul_le _ (by omega)
          have h4 : 0 ≤ (k : ℤ) * (-c) := mul_nonneg (by omega) hc'.le
          have h5 : (k : ℤ) * (-c) = -(c * k) := by rw [mul_neg, mul_comm]
          exact ⟨by omega, by omega, ⟨-k, by rw [mul_neg]; omega⟩⟩
        · simp at hk
      · rintro ⟨h2, h3, k, hk⟩
        have h4 : k ≤ 0 := by
          by_contra hneg
          have : c * k < 0 := mul_neg_of_neg_of_pos hc (by omega)
          omega
        have h5 : c * k = (-k) * (-c) := by rw [neg_mul_neg, mul_comm]
        refine ⟨(-k).toNat, ?_, ?_⟩
        · rw [if_pos (by omega)]
          have : -k ≤ (a - b - 1) / (-c) := by
            rw [Int.le_ediv_iff_mul_le hc']
            omega
          omega
        · rw [Int.toNat_of_nonneg (by omega), mul_neg]; omega
  have e : ∀ v : ℤ, (if v < 0 then max (v + n) (-1) else min v (n - 1)) =
      max (-1) (min ((n : ℤ) - 1) (if v < 0 then v + n else v)) := by
    intro v
    split <;> omega
  unfold sliceList
  simp only [Option.getD_some, h0, hc, if_false, if_true, e]
  refine ⟨_, rfl, ?_⟩
  cases start <;> cases stop <;> exact key _ _

/-! ## Reading -/

section
variable [Zero V] [Add V] [Sub V]

theorem Obj.getitem_eq (o : Obj V) (pi : List (PIdx (PyFn V))) :
    o.getitem pi = gen (goStruct (getDisp o.cs.map o.prio o.master) o.cs.struct.keys
      (travTable (getDisp o.cs.map o.prio o.master) o.cs.struct.entries) pi false [] .none ()).1 := by
  rw [Obj.getitem, Struct.traverse_fst]

theorem Obj.getitem_at (o : Obj V) (hwf : WFs o.cs.struct.entries o.cs.struct.order) {a es' o'}
    (h : IsAt o.cs.struct.entries o.cs.struct.order a es' o') {e : Entry} (he : e ∈ es') {ks : CIdx} {ds1 ds2 : List ℕ}
    (hds : e.dims = ds1 ++ ds2) (hks : InDims ks ds1) (rest : List (PIdx (PyFn V))) :
    o.getitem ((a ++ .str e.name :: ks).map .ofKey ++ rest) =
      gen (goEntry (getDisp o.cs.map o.prio o.master) (Entry.leafTrav (getDisp o.cs.map o.prio o.master) e) ds2 rest false
        (a ++ .str e.name :: ks) .none ()).1 := by
  rw [Obj.getitem_eq, Struct.keys, goStruct_at_entry _ hwf h he hds hks]
  rfl

/-- A loop over repeat indices while reading. -/
theorem getLoop {R : Type} (is : List ℤ) (g : ℤ → M Unit (Tree R)) :
    gen (M.bind (M.forEach is fun i => M.bind (ex (payloadUnpack (V := V) .none (.int i))) fun _ => g i)
      (fun r => M.pure (Tree.list r)) ()).1 = (is.mapM fun i => gen (g i ()).1).map .list := by
  have h1 : (M.forEach is fun i => M.bind (ex (payloadUnpack (V := V) .none (.int i))) fun _ => g i) = M.forEach is g :=
    M.forEach_congr _ _ _ fun i _ => rfl
  rw [h1, ← M.forEach_unit, M.bind]
  rcases M.forEach is g () with ⟨r, u⟩
  cases r <;> rfl

/-- **C45** (negative integers): `s[..., 'x', ..., -k, ...]` is `s[..., 'x', ..., d-k, ...]` for `1 ≤ k ≤ d`, at any depth and
whatever follows. -/
theorem C45_negative (o : Obj V) (hwf : WFs o.cs.struct.entries o.cs.struct.order) (a : CIdx) (es' : List Entry)
    (o' : List OrderItem) (h : IsAt o.cs.struct.entries o.cs.struct.order a es' o') (e : Entry) (he : e ∈ es') (ks : CIdx)
    (ds1 ds2 : List ℕ) (d : ℕ) (hds : e.dims = ds1 ++ d :: ds2) (hks : InDims ks ds1) (rest : List (PIdx (PyFn V)))
    (k : ℕ) (h1 : 1 ≤ k) (h2 : k ≤ d) :
    o.getitem ((a ++ .str e.name :: ks).map .ofKey ++ .int (-k) :: rest) =
      o.getitem ((a ++ .str e.name :: ks).map .ofKey ++ .int (d - k : ℕ) :: rest) := by
  rw [o.getitem_at hwf h he hds hks, o.getitem_at hwf h he hds hks, goEntry_int, goEntry_int]
  have : canonical (-(k : ℤ)) d = canonical ((d - k : ℕ) : ℤ) d := by
    unfold canonical
    rw [if_pos (by omega), if_neg (by omega)]
    omega
  rw [this]

/-- **C45** (slices): `s[..., 'x', ..., a:b:c, ...]` is the list of `s[..., 'x', ..., i, ...]` over the indices of Python's
slice. -/
theorem C45_slice (o : Obj V) (hwf : WFs o.cs.struct.entries o.cs.struct.order) (a : CIdx) (es' : List Entry)
    (o' : List OrderItem) (h : IsAt o.cs.struct.entries o.cs.struct.order a es' o') (e : Entry) (he : e ∈ es') (ks : CIdx)
    (ds1 ds2 : List ℕ) (d : ℕ) (hds : e.dims = ds1 ++ d :: ds2) (hks : InDims ks ds1) (rest : List (PIdx (PyFn V)))
    (start stop step : Option ℤ) (is : List ℤ) (his : sliceList start stop step d = .ok is) :
    o.getitem ((a ++ .str e.name :: ks).map .ofKey ++ .slice start stop step :: rest) =
      (is.mapM fun i => o.getitem ((a ++ .str e.name :: ks).map .ofKey ++ .int i :: rest)).map .list := by
  simp only [o.getitem_at hwf h he hds hks]
  rw [goEntry_slice, his]
  exact getLoop (V := V) is _

/-- **C45** (lists of integers): `s[..., 'x', ..., [i, j], ...]` is the list of `s[..., 'x', ..., i, ...]`, ... -/
theorem C45_list (o : Obj V) (hwf : WFs o.cs.struct.entries o.cs.struct.order) (a : CIdx) (es' : List Entry)
    (o' : List OrderItem) (h : IsAt o.cs.struct.entries o.cs.struct.order a es' o') (e : Entry) (he : e ∈ es') (ks : CIdx)
    (ds1 ds2 : List ℕ) (d : ℕ) (hds : e.dims = ds1 ++ d :: ds2) (hks : InDims ks ds1) (rest : List (PIdx (PyFn V)))
    (is : List ℤ) :
    o.getitem ((a ++ .str e.name :: ks).map .ofKey ++ .list (is.map .int) :: rest) =
      (is.mapM fun i => o.getitem ((a ++ .str e.name :: ks).map .ofKey ++ .int i :: rest)).map .list := by
  simp only [o.getitem_at hwf h he hds hks]
  rw [goEntry_list]
  exact getLoop (V := V) is _

/-- **C45** (no index): `s[..., 'x', ...]` with repeat indices left over is the list over all repetitions; applied
repeatedly it is the nested list. -/
theorem C45_all (o : Obj V) (hwf : WFs o.cs.struct.entries o.cs.struct.order) (a : CIdx) (es' : List Entry)
    (o' : List OrderItem) (h : IsAt o.cs.struct.entries o.cs.struct.order a es' o') (e : Entry) (he : e ∈ es') (ks : CIdx)
    (ds1 ds2 : List ℕ) (d : ℕ) (hds : e.dims = ds1 ++ d :: ds2) (hks : InDims ks ds1) :
    o.getitem ((a ++ .str e.name :: ks).map .ofKey) =
      (((List.range d).map fun i : ℕ => (i : ℤ)).mapM fun i =>
        o.getitem ((a ++ .str e.name :: ks).map .ofKey ++ [.int i])).map .list := by
  have := o.getitem_at hwf h he hds hks []
  rw [List.append_nil] at this
  rw [this]
  simp only [o.getitem_at hwf h he hds hks]
  rw [goEntry_pending]
  exact getLoop (V := V) _ _

theorem goEntry_allints {σ F R : Type} (d : Disp σ V F R) (leaf : Trav σ V F R) (is : List ℤ) (dims : List ℕ)
    (hl : is.length = dims.length) (rest : List (PIdx F)) (inner : Bool) (c : CIdx) (pay : Pay V) :
    goEntry d leaf dims (is.map .int ++ rest) inner c pay =
      leaf rest inner (c ++ (is.zip dims).map fun x => .int (canonical x.1 x.2)) pay := by
  induction dims generalizing is c with
  | nil =>
    cases is with
    | nil => simp [goEntry_nil]
    | cons => cases hl
  | cons d' dims ih =>
    cases is with
    | nil => cases hl
    | cons i is =>
      rw [List.map_cons, List.cons_append, goEntry_int, ih is (by simpa using hl)]
      simp

theorem inDims_canonical {is : List ℤ} {dims : List ℕ} (hl : is.length = dims.length)
    (h : InDims ((is.zip dims).map fun x => .int (canonical x.1 x.2)) dims) :
    List.Forall₂ (fun (i : ℤ) (d : ℕ) => -(d : ℤ) ≤ i ∧ i < d) is dims := by
  induction dims generalizing is with
  | nil => cases is with
    | nil => exact .nil
    | cons => cases hl
  | cons d dims ih => cases is with
    | nil => cases hl
    | cons i is =>
      rw [List.zip_cons_cons, List.map_cons] at h
      cases h with
      | cons a b =>
        obtain ⟨j, hj, e⟩ := a
        have e := Key.int.inj e
        refine .cons ?_ (ih (by simpa using hl) b)
        unfold canonical at e
        split at e <;> simp only at e <;> omega

/-- **C45** (out of range): an integer outside `-d..d-1` raises, both while reading and while writing: for a primitive
entry whatever follows the repeat indices, for an entry with a struct if nothing follows. -/
theorem C45_out_of_range (c : CS) (hc : CS.ofStruct c.struct = .ok c) (hwf : WFs c.struct.entries c.struct.order)
    (master : List V) (prio : List (CIdx × SMat V)) (a : CIdx) (es' : List Entry)
    (o' : List OrderItem) (h : IsAt c.struct.entries c.struct.order a es' o') (e : Entry) (he : e ∈ es') (is : List ℤ)
    (hl : is.length = e.dims.length) (hout : ¬ List.Forall₂ (fun (i : ℤ) (d : ℕ) => -(d : ℤ) ≤ i ∧ i < d) is e.dims)
    (rest : List (PIdx (PyFn V))) (hr : (∃ n d p, e = .prim n d p) ∨ rest = []) :
    (⟨c, master, prio⟩ : Obj V).getitem (a.map .ofKey ++ .str e.name :: (is.map .int ++ rest)) = .error .generic ∧
      ∀ pay : Pay V, (⟨c, master, prio⟩ : Obj V).setitem (a.map .ofKey ++ .str e.name :: (is.map .int ++ rest)) pay =
        (.error .generic, ⟨c, master, prio⟩) := by
  obtain ⟨c', ls, hc', hs', hb⟩ := ofStruct_built hwf
  rw [hc] at hc'
  cases hc'
  have hg : dictGet c.map (a ++ .str e.name :: (is.zip e.dims).map fun x => .int (canonical x.1 x.2)) = none :=
    hb.get_out hwf h he (by simp [hl]) fun hin => hout (inDims_canonical hl hin)
  have key : ∀ {σ R : Type} (d : Disp σ V (PyFn V) R) (pay : Pay V), ∃ x p,
      goStruct d c.struct.keys (travTable d c.struct.entries) (a.map .ofKey ++ .str e.name :: (is.map .int ++ rest)) false []
        pay = M.bind (d.call false pay (a ++ .str e.name :: (is.zip e.dims).map fun x => .int (canonical x.1 x.2)) x p)
          fun r => M.pure (.leaf r) := by
    intro σ R d pay
    rw [Struct.keys, goStruct_at d hwf h, goStruct_entry d _ (h.wf hwf).nodup he, goEntry_allints d _ _ _ hl]
    rw [List.nil_append, List.append_assoc, List.singleton_append]
    cases e with
    | prim n dd p => rw [Entry.leafTrav]; exact ⟨_, _, rfl⟩
    | nested n dd es2 o2 =>
      rcases hr with ⟨_, _, _, h⟩ | h
      · cases h
      · rw [h, Entry.leafTrav]
        exact ⟨_, _, rfl⟩
  constructor
  · rw [Obj.getitem_eq]
    obtain ⟨x, p, hk⟩ := key (getDisp c.map prio master) .none
    simp only
    rw [hk]
    simp only [getDisp, getCall, hg, ex, M.lift, M.bind, gen]
  · intro pay
    rw [Obj.setitem]
    obtain ⟨x, p, hk⟩ := key (setDisp c.map) pay
    simp only
    rw [Struct.traverse_fst, hk]
    simp only [setDisp, Bool.false_eq_true, if_false]
    have : setCall c.map pay (a ++ .str e.name :: (is.zip e.dims).map fun x => .int (canonical x.1 x.2)) x p master =
        (.error (match pay.toMat with
          | .error e => e
          | .ok _ => .generic), master) := by
      unfold setCall
      rw [hg]
      cases pay.toMat <;> rfl
    rw [M.bind, M.bind, this]
    rfl

end

/-! ## Writing -/

section
variable [Zero V]

theorem Obj.setitem_eq (o : Obj V) (pi : List (PIdx (PyFn V))) (pay : Pay V) :
    o.setitem pi pay =
      (let r := goStruct (setDisp o.cs.map) o.cs.struct.keys (travTable (setDisp o.cs.map) o.cs.struct.entries) pi false [] pay
        o.master
      (gen (r.1.map fun _ => ()), { o with master := r.2 })) := by
  rw [Obj.setitem, Struct.traverse_fst]
  simp only
  rcases goStruct (setDisp o.cs.map) o.cs.struct.keys (travTable (setDisp o.cs.map) o.cs.struct.entries) pi false [] pay
    o.master with ⟨r, m⟩
  cases r <;> rfl

theorem Obj.setitem_at (o : Obj V) (hwf : WFs o.cs.struct.entries o.cs.struct.order) {a es' o'}
    (h : IsAt o.cs.struct.entries o.cs.struct.order a es' o') {e : Entry} (he : e ∈ es') {ks : CIdx} {ds1 ds2 : List ℕ}
    (hds : e.dims = ds1 ++ ds2) (hks : InDims ks ds1) (rest : List (PIdx (PyFn V))) (pay : Pay V) :
    o.setitem ((a ++ .str e.name :: ks).map .ofKey ++ rest) pay =
      (let r := goEntry (setDisp o.cs.map) (Entry.leafTrav (setDisp o.cs.map) e) ds2 rest false
        (a ++ .str e.name :: ks) pay o.master
      (gen (r.1.map fun _ => ()), { o with master := r.2 })) := by
  rw [Obj.setitem_eq, Struct.keys, goStruct_at_entry _ hwf h he hds hks]
  rfl

/-- A loop of writes. -/
theorem setLoop {α R : Type} (o : Obj V) (l : List α) (g : α → M (List V) R) (pi : α → List (PIdx (PyFn V))) (pay : α → Pay V)
    (h : ∀ a ∈ l, ∀ m, ({ o with master := m } : Obj V).setitem (pi a) (pay a) =
      (gen ((g a m).1.map fun _ => ()), { o with master := (g a m).2 })) (m : List V) :
    (gen ((M.forEach l g m).1.map fun _ => ()), ({ o with master := (M.forEach l g m).2 } : Obj V)) =
      ({ o with master := m } : Obj V).setAll (l.map fun a => (pi a, pay a)) := by
  induction l generalizing m with
  | nil => rfl
  | cons a l ih =>
    rw [List.map_cons, Obj.setAll, h a List.mem_cons_self, M.forEach, M.bind]
    rcases hg : g a m with ⟨r, m1⟩
    cases r with
    | error e => rfl
    | ok b =>
      simp only [Except.map, gen]
      rw [← ih (fun a ha => h a (List.mem_cons_of_mem _ ha)) m1, M.bind]
      rcases M.forEach l g m1 with ⟨r', m2⟩
      cases r' <;> rfl

/-- The selected repetitions of a slice or list of integers. -/
inductive Selects : PIdx (PyFn V) → ℕ → List ℤ → Prop
  | slice {a b c d is} : sliceList a b c d = .ok is → Selects (.slice a b c) d is
  | list {d is} : Selects (.list (is.map .int)) d is

theorem goEntry_selects {σ R : Type} (d : Disp σ V (PyFn V) R) (leaf : Trav σ V (PyFn V) R) (s : ℕ) (ds : List ℕ)
    {sel : PIdx (PyFn V)} {is : List ℤ} (h : Selects sel s is)
    (rest : List (PIdx (PyFn V))) (inner : Bool) (c : CIdx) (pay : Pay V) :
    goEntry d leaf (s :: ds) (sel :: rest) inner c pay =
      M.bind (M.forEach is fun i =>
        M.bind (ex (payloadUnpack pay (.int i))) fun pay' =>
          goEntry d leaf (s :: ds) (.int i :: rest) inner c pay') fun r => M.pure (.list r) := by
  cases h with
  | slice h => rw [goEntry_slice, h]; rfl
  | list => rw [goEntry_list]

theorem bind_pure_run {σ α β : Type} (x : M σ α) (f : α → β) (m : σ) :
    M.bind x (fun r => M.pure (f r)) m = ((x m).1.map f, (x m).2) := by
  rw [M.bind]
  rcases x m with ⟨r, m'⟩
  cases r <;> rfl

/-- Writing to selected repetitions when the payload of each is known. -/
theorem setitem_selects (o : Obj V) (hwf : WFs o.cs.struct.entries o.cs.struct.order) {a es' o'}
    (h : IsAt o.cs.struct.entries o.cs.struct.order a es' o') {e : Entry} (he : e ∈ es') {ks : CIdx}
    {ds1 ds2 : List ℕ} {d : ℕ} (hds : e.dims = ds1 ++ d :: ds2) (hks : InDims ks ds1) (rest : List (PIdx (PyFn V)))
    {sel : PIdx (PyFn V)} {is : List ℤ} (hsel : Selects sel d is) (pay : Pay V) (v : ℤ → Pay V)
    (hv : ∀ i ∈ is, payloadUnpack pay (.int i) = .ok (v i)) :
    o.setitem ((a ++ .str e.name :: ks).map .ofKey ++ sel :: rest) pay =
      o.setAll (is.map fun i => ((a ++ .str e.name :: ks).map .ofKey ++ .int i :: rest, v i)) := by
  rw [o.setitem_at hwf h he hds hks, goEntry_selects _ _ _ _ hsel]
  simp only
  rw [bind_pure_run]
  have e1 : (M.forEach is fun i => M.bind (ex (payloadUnpack pay (.int i))) fun pay' =>
      goEntry (setDisp o.cs.map) (Entry.leafTrav (setDisp o.cs.map) e) (d :: ds2) (.int i :: rest) false
        (a ++ .str e.name :: ks) pay') = M.forEach is fun i =>
      goEntry (setDisp o.cs.map) (Entry.leafTrav (setDisp o.cs.map) e) (d :: ds2) (.int i :: rest) false
        (a ++ .str e.name :: ks) (v i) := by
    apply M.forEach_congr
    intro i hi
    rw [hv i hi]
    rfl
  rw [e1]
  have := setLoop o is (fun i => goEntry (setDisp o.cs.map) (Entry.leafTrav (setDisp o.cs.map) e) (d :: ds2) (.int i :: rest)
    false (a ++ .str e.name :: ks) (v i)) (fun i => (a ++ .str e.name :: ks).map .ofKey ++ .int i :: rest) v
    (fun i _ m => ({ o with master := m } : Obj V).setitem_at hwf h he hds hks _ _) o.master
  rw [← this]
  rcases M.forEach is (fun i => goEntry (setDisp o.cs.map) (Entry.leafTrav (setDisp o.cs.map) e) (d :: ds2)
    (.int i :: rest) false (a ++ .str e.name :: ks) (v i)) o.master with ⟨r, m⟩
  cases r <;> rfl

/-- **C46** (list payload): `s[..., 'x', ..., sel, ...] = L` performs `s[..., 'x', ..., i, ...] = L[i]` for the selected `i`
one after another, `L` being indexed by the repeat index `i` (Python's `L[i]` for negative `i` in a list selection). -/
theorem C46_list (o : Obj V) (hwf : WFs o.cs.struct.entries o.cs.struct.order) (a : CIdx) (es' : List Entry)
    (o' : List OrderItem) (h : IsAt o.cs.struct.entries o.cs.struct.order a es' o') (e : Entry) (he : e ∈ es') (ks : CIdx)
    (ds1 ds2 : List ℕ) (d : ℕ) (hds : e.dims = ds1 ++ d :: ds2) (hks : InDims ks ds1) (rest : List (PIdx (PyFn V)))
    (sel : PIdx (PyFn V)) (is : List ℤ) (hsel : Selects sel d is) (L : List (Pay V)) (v : ℤ → Pay V)
    (hv : ∀ i ∈ is, (0 ≤ i ∧ L[i.toNat]? = some (v i)) ∨ (i < 0 ∧ 0 ≤ i + L.length ∧ L[(i + L.length).toNat]? = some (v i))) :
    o.setitem ((a ++ .str e.name :: ks).map .ofKey ++ sel :: rest) (.list L) =
      o.setAll (is.map fun i => ((a ++ .str e.name :: ks).map .ofKey ++ .int i :: rest, v i)) := by
  apply setitem_selects o hwf h he hds hks rest hsel
  intro i hi
  rcases hv i hi with ⟨h1, h2⟩ | ⟨h1, h2, h3⟩
  · have hlt := (List.getElem?_eq_some_iff.1 h2).1
    rw [payloadUnpack, if_neg (by omega), pyIndex]
    simp only [if_neg (show ¬ i < 0 by omega), h2]
  · rw [payloadUnpack, if_neg (by omega), pyIndex]
    simp only [if_pos h1, if_neg (show ¬ (i + (L.length : ℤ)) < 0 by omega), h3]

/-- **C46** (list too short): if some selected repeat index is not below the length of the list, the assignment raises. -/
theorem C46_short (o : Obj V) (hwf : WFs o.cs.struct.entries o.cs.struct.order) (a : CIdx) (es' : List Entry)
    (o' : List OrderItem) (h : IsAt o.cs.struct.entries o.cs.struct.order a es' o') (e : Entry) (he : e ∈ es') (ks : CIdx)
    (ds1 ds2 : List ℕ) (d : ℕ) (hds : e.dims = ds1 ++ d :: ds2) (hks : InDims ks ds1) (rest : List (PIdx (PyFn V)))
    (sel : PIdx (PyFn V)) (is : List ℤ) (hsel : Selects sel d is) (L : List (Pay V)) (i : ℤ) (hi : i ∈ is)
    (hL : i ≥ L.length) :
    (o.setitem ((a ++ .str e.name :: ks).map .ofKey ++ sel :: rest) (.list L)).1 = .error .generic := by
  have key : ∀ (l : List ℤ) (g : ℤ → Pay V → M (List V) (Tree (Option IMat))), i ∈ l → ∀ m, ∃ er,
      (M.forEach l (fun i => M.bind (ex (payloadUnpack (.list L) (.int i))) fun pay' => g i pay') m).1 = .error er := by
    intro l g
    induction l with
    | nil => intro h; cases h
    | cons j l ih =>
      intro hmem m
      rw [M.forEach, M.bind]
      by_cases hj : j ≥ L.length
      · refine ⟨.generic, ?_⟩
        have : payloadUnpack (.list L) (.int j) = .error .generic := by rw [payloadUnpack, if_pos hj]
        rw [this]
        rfl
      · have hmem' : i ∈ l := by
          rcases List.mem_cons.1 hmem with rfl | h
          · exact absurd hL hj
          · exact h
        rcases hx : M.bind (ex (payloadUnpack (.list L) (.int j))) (fun pay' => g j pay') m with ⟨r, m1⟩
        cases r with
        | error e => exact ⟨e, rfl⟩
        | ok b =>
          obtain ⟨er, her⟩ := ih hmem' m1
          refine ⟨er, ?_⟩
          simp only
          rw [M.bind]
          rcases hy : M.forEach l (fun i => M.bind (ex (payloadUnpack (.list L) (.int i))) fun pay' => g i pay') m1 with ⟨r', m2⟩
          rw [hy] at her
          simp only at her
          subst her
          rfl
  rw [o.setitem_at hwf h he hds hks, goEntry_selects _ _ _ _ hsel]
  simp only
  rw [bind_pure_run]
  obtain ⟨er, her⟩ := key is (fun i pay' => goEntry (setDisp o.cs.map) (Entry.leafTrav (setDisp o.cs.map) e) (d :: ds2)
    (.int i :: rest) false (a ++ .str e.name :: ks) pay') hi o.master
  rw [her]
  rfl

/-- **C46** (other payloads): a number or matrix, or `v` for `repeated(v)`, is written to every selected repetition. -/
theorem C46_value (o : Obj V) (hwf : WFs o.cs.struct.entries o.cs.struct.order) (a : CIdx) (es' : List Entry)
    (o' : List OrderItem) (h : IsAt o.cs.struct.entries o.cs.struct.order a es' o') (e : Entry) (he : e ∈ es') (ks : CIdx)
    (ds1 ds2 : List ℕ) (d : ℕ) (hds : e.dims = ds1 ++ d :: ds2) (hks : InDims ks ds1) (rest : List (PIdx (PyFn V)))
    (sel : PIdx (PyFn V)) (is : List ℤ) (hsel : Selects sel d is) (pay v : Pay V)
    (hp : pay = .rep v ∨ (pay = v ∧ ((∃ x, v = .num x) ∨ ∃ m, v = .mat m))) :
    o.setitem ((a ++ .str e.name :: ks).map .ofKey ++ sel :: rest) pay =
      o.setAll (is.map fun i => ((a ++ .str e.name :: ks).map .ofKey ++ .int i :: rest, v)) := by
  apply setitem_selects o hwf h he hds hks rest hsel pay fun _ => v
  intro i _
  rcases hp with rfl | ⟨rfl, ⟨x, rfl⟩ | ⟨m, rfl⟩⟩ <;> rfl

/-- **C46** (no index): `s[..., 'x', ...] = v` with repeat indices left over is `s[..., 'x', ..., :] = v`. -/
theorem C46_all (o : Obj V) (hwf : WFs o.cs.struct.entries o.cs.struct.order) (a : CIdx) (es' : List Entry)
    (o' : List OrderItem) (h : IsAt o.cs.struct.entries o.cs.struct.order a es' o') (e : Entry) (he : e ∈ es') (ks : CIdx)
    (ds1 ds2 : List ℕ) (d : ℕ) (hds : e.dims = ds1 ++ d :: ds2) (hks : InDims ks ds1) (pay : Pay V) :
    o.setitem ((a ++ .str e.name :: ks).map .ofKey) pay = o.setitem ((a ++ .str e.name :: ks).map .ofKey ++ [.all]) pay := by
  have := o.setitem_at hwf h he hds hks [] pay
  rw [List.append_nil] at this
  rw [this, o.setitem_at hwf h he hds hks, goEntry_pending]
  rw [show (PIdx.all : PIdx (PyFn V)) = .slice none none none from rfl, goEntry_slice, sliceList_all]
  rfl

/-- Selecting all repetitions. -/
theorem selects_all (d : ℕ) : Selects (V := V) .all d ((List.range d).map fun i : ℕ => (i : ℤ)) := .slice (sliceList_all d)

end

section
variable [Zero V] [Add V] [Sub V]

/-- **C46** (effect): if the elements of the list fit, then after `s[..., 'x', ..., sel] = L` with distinct selected
repetitions of a primitive entry, every selected repetition `i` reads `L[i]` and the other repetitions and all other parts
of the struct read as before. -/
theorem C46_effect (s : Struct) (hwf : WFs s.entries s.order) (c : CS) (hc : CS.ofStruct s = .ok c) (master : List V)
    (hlen : master.length = c.size) (a : CIdx) (es' : List Entry)
    (o' : List OrderItem) (h : IsAt s.entries s.order a es' o') (n : String) (ks : CIdx)
    (ds1 : List ℕ) (d : ℕ) (p : Prim) (he : Entry.prim n (ds1 ++ [d]) p ∈ es') (hsy : p.symm = false) (hks : InDims ks ds1)
    (sel : PIdx (PyFn V)) (is : List ℕ) (hnd : is.Nodup) (hd : ∀ i ∈ is, i < d)
    (hsel : Selects sel d (is.map fun i : ℕ => (i : ℤ))) (L : List (Pay V))
    (m : ℕ → SMat V) (f : ℕ → ℕ × ℕ → V)
    (hL : ∀ i ∈ is, ∃ v, L[i]? = some v ∧ IsValue v (m i) ∧ (m i).WF ∧ Fits p.sp (m i) (f i)) :
    ∃ master', (⟨c, master, []⟩ : Obj V).setitem ((a ++ .str n :: ks).map .ofKey ++ [sel]) (.list L) =
        (.ok (), ⟨c, master', []⟩) ∧ master'.length = c.size ∧
      (∀ i ∈ is, (⟨c, master', []⟩ : Obj V).getitem ((a ++ Key.str n :: (ks ++ [Key.int i])).map .ofKey) =
        .ok (.leaf ⟨p.sp, p.sp.nz.map (f i)⟩)) ∧
      ∀ b e' sp', IsPart s.entries b e' sp' → (∀ i ∈ is, ¬ (a ++ .str n :: (ks ++ [.int i])) <+: b ∧
          ¬ b <+: (a ++ .str n :: (ks ++ [.int i]))) →
        (⟨c, master', []⟩ : Obj V).getitem (b.map .ofKey) = (⟨c, master, []⟩ : Obj V).getitem (b.map .ofKey) := by
  have hin : ∀ i ∈ is, InDims (ks ++ [.int i]) (ds1 ++ [d]) := fun i hi =>
    List.rel_append (R := fun (k : Key) (d : ℕ) => ∃ i : ℕ, i < d ∧ k = .int i) hks (.cons ⟨i, hd i hi, rfl⟩ .nil)
  let v : ℤ → Pay V := fun i => (L[i.toNat]?).getD .none
  have hv : ∀ i ∈ is, L[i]? = some (v i) := by
    intro i hi
    obtain ⟨w, hw, _⟩ := hL i hi
    show L[i]? = some ((L[(i : ℤ).toNat]?).getD .none)
    rw [Int.toNat_natCast, hw]
    rfl
  obtain ⟨c0, ls, hc', hs', hb⟩ := ofStruct_built hwf
  rw [hc] at hc'
  cases hc'
  subst hs'
  have h1 := C46_list (⟨c, master, []⟩ : Obj V) hwf a es' o' h (.prim n (ds1 ++ [d]) p) he ks ds1 [] d rfl hks [] sel _ hsel L v
    (by
      intro i hi
      obtain ⟨j, hj, rfl⟩ := List.mem_map.1 hi
      exact .inl ⟨by omega, by rw [Int.toNat_natCast]; exact hv j hj⟩)
  obtain ⟨master', g1, g2, g3, g4⟩ := setAll_parts hwf hc
    (is.map fun i : ℕ => (a ++ Key.str n :: (ks ++ [Key.int i]), v i, p.sp, f i)) (by
      intro w hw
      obtain ⟨i, hi, rfl⟩ := List.mem_map.1 hw
      obtain ⟨w, hw, h2, h3, h4⟩ := hL i hi
      have hvi : v i = w := by
        have := hv i hi
        rw [hw] at this
        exact (Option.some.inj this).symm
      exact .mk (.leaf (h.leaf (.prim he (hin i hi)))) (fun q hq => by cases hq; exact hsy) (by
        simp only [hvi]; exact h2) h3 h4) (by
      rw [List.pairwise_map]
      apply List.Pairwise.imp_of_mem (R := (· ≠ ·)) ?_ hnd
      intro i j _ _ hij
      have aux : ∀ i j : ℕ, i ≠ j → ¬ (a ++ Key.str n :: (ks ++ [Key.int i])) <+: (a ++ Key.str n :: (ks ++ [Key.int j])) := by
        intro i j hij hp
        rw [List.prefix_append_right_inj, List.cons_prefix_cons] at hp
        have := hp.2
        rw [List.prefix_append_right_inj, List.cons_prefix_cons] at this
        have := Key.int.inj this.1
        omega
      exact ⟨aux i j hij, aux j i (Ne.symm hij)⟩) master hlen
  refine ⟨master', ?_, g2, ?_, ?_⟩
  · rw [Entry.name] at h1
    rw [h1, ← g1]
    congr 1
    rw [List.map_map, List.map_map]
    apply List.map_congr_left
    intro i _
    simp only [Function.comp, Prod.mk.injEq, and_true]
    simp [PIdx.ofKey]
  · intro i hi
    exact g3 _ (List.mem_map.2 ⟨i, hi, rfl⟩)
  · intro b e' sp' hb' hd'
    apply g4 b e' sp' hb'
    intro w hw
    obtain ⟨i, hi, rfl⟩ := List.mem_map.1 hw
    exact hd' i hi

/-! ## Failed assignments -/

/-- **C60** (the part that holds): an assignment to a single part of the struct, without additional index, that raises
leaves the struct unchanged.
Missing: assignments to several parts at once, for which the claim is false (`C60_refuted`); by `C46_list` the parts before
the failing one have been written. -/
theorem C60_partial (s : Struct) (hwf : WFs s.entries s.order) (c : CS) (hc : CS.ofStruct s = .ok c) (master : List V)
    (hlen : master.length = c.size) (a : CIdx) (e : Option Prim) (sp : Sparsity) (ha : IsPart s.entries a e sp)
    (hsq : ∀ p, e = some p → p.symm = true → p.sp.rows = p.sp.cols) (pay : Pay V) (er : PyErr) (o' : Obj V)
    (h : (⟨c, master, []⟩ : Obj V).setitem (a.map .ofKey) pay = (.error er, o')) : o' = ⟨c, master, []⟩ := by
  obtain ⟨c', ls, hc', rfl, hb⟩ := ofStruct_built hwf
  rw [hc] at hc'
  cases hc'
  obtain ⟨i, hg, hw, hnd, hin, rfl⟩ := hb.part hwf ha
  have hcall := imCall_part (V := V) e hg
  have h3 := Obj.setitem_part (⟨c, master, []⟩ : Obj V) hwf ha [] (fun _ => rfl) pay
  rw [List.append_nil] at h3
  rw [h3] at h
  simp only [Prod.mk.injEq] at h
  obtain ⟨h4, rfl⟩ := h
  have key : ∀ er', (setCall c.map pay a (some []) e master).1 = .error er' → (setCall c.map pay a (some []) e master).2 = master := by
    intro er' he
    cases hp : pay.toMat with
    | error e1 =>
      unfold setCall
      rw [hp]
    | ok m =>
      by_cases hs : ∀ p, e = some p → p.symm = false
      · rw [setCall_plain _ _ _ _ _ hs hp hcall] at he ⊢
        cases hx : assign master i m with
        | error e1 => rfl
        | ok m1 => rw [hx] at he; cases he
      · obtain ⟨p, rfl, hpt⟩ : ∃ p, e = some p ∧ p.symm = true := by
          by_contra hcon
          apply hs
          intro p hp'
          cases hps : p.symm with
          | false => rfl
          | true => exact absurd ⟨p, hp', hps⟩ hcon
        have hsp : i.sp = p.sp := by
          generalize i.sp = q at ha
          cases ha
          rfl
        have hsq := hsq p rfl hpt
        obtain ⟨psp, sy, og, ss⟩ := p
        simp only at hpt hsp hsq
        subst hpt
        have has : ∀ (ms : List V) (x : SMat V), ms.length = c.size →
            (x.isScalar = true ∨ (x.sp.rows = i.sp.rows ∧ x.sp.cols = i.sp.cols)) →
            ∃ ms', assign ms i x = .ok ms' ∧ ms'.length = c.size := by
          intro ms x hms hx
          have : ∃ vs, written i x = some vs := by
            unfold written
            rcases hx with hx | ⟨h1, h2⟩
            · split
              · exact ⟨_, rfl⟩
              · exact ⟨_, rfl⟩
            · rw [if_pos ⟨h1.symm, h2.symm⟩]; exact ⟨_, rfl⟩
          obtain ⟨vs, hvs⟩ := this
          obtain ⟨ms', g1, g2, _⟩ := assign_spec hw.2 hnd (by rw [hms]; exact hin) hvs
          exact ⟨ms', g1, g2.trans hms⟩
        unfold setCall at he ⊢
        simp only [hp, hg, Option.getD_some, performExtraIndex] at he ⊢
        by_cases hsc : m.isScalar = true
        · obtain ⟨m1, g1, g2⟩ := has master m hlen (.inl hsc)
          obtain ⟨m2, g3, g4⟩ := has m1 m g2 (.inl hsc)
          simp only [hsc, if_true, g1, g3] at he
          cases he
        · simp only [hsc, Bool.false_eq_true, if_false] at he ⊢
          cases og with
          | none => rfl
          | some osp =>
            simp only at he ⊢
            split
            · rfl
            · rename_i h5
              rw [if_neg h5] at he
              split
              · rfl
              · rename_i h6
                rw [if_neg h6] at he
                obtain ⟨m1, g1, g2⟩ := has master (m.T.project i.sp) hlen (.inr ⟨rfl, rfl⟩)
                obtain ⟨m2, g3, g4⟩ := has m1 (m.project i.sp) g2 (.inr ⟨rfl, rfl⟩)
                rw [g1] at he
                simp only at he
                have h7 : ¬ (i.sp.rows ≠ m.sp.rows ∨ i.sp.cols ≠ m.sp.cols) := by
                  rw [hsp] at h6 ⊢
                  omega
                rw [if_neg h7, g3] at he
                cases he
  cases hx : (setCall c.map pay a (some []) e master).1 with
  | ok u =>
    rw [hx] at h4
    cases h4
  | error e1 => rw [key e1 hx]

/-- **C60 fails**: an assignment of a list raises at the second element and has changed the first one. -/
theorem C60_refuted : ∃ (s : Struct) (c : CS) (m m' : List ℚ) (pay : Pay ℚ) (er : PyErr), WFs s.entries s.order ∧
    CS.ofStruct s = .ok c ∧ m.length = c.size ∧
    (⟨c, m, []⟩ : Obj ℚ).setitem [.str "b"] pay = (.error er, ⟨c, m', []⟩) ∧ m' ≠ m := by
  obtain ⟨c, h, hsize, _⟩ := C39_size exStruct exStruct_wf
  have he : Entry.prim "b" [2] ⟨.dense 2 1, false, none, none⟩ ∈ exStruct.entries := by simp [exStruct]
  have hl : ∀ i : ℕ, i < 2 → IsPart exStruct.entries [.str "b", .int i] _ _ := fun i hi =>
    .leaf (.prim he (.cons ⟨i, hi, rfl⟩ .nil))
  let m : List ℚ := (List.range c.size).map fun _ => 0
  obtain ⟨i, _, _, h1⟩ := C43_write_read exStruct exStruct_wf c h m (by simp [m]) _ _ _ (hl 0 (by decide)) (by simp)
  obtain ⟨m', h2, h3, h4, _⟩ := h1 _ _ (.mat ⟨.dense 2 1, [7, 8]⟩) ⟨Sparsity.dense_canon _ _, rfl⟩ _ (.same rfl rfl)
  have h5 := C44_shape exStruct exStruct_wf c h m' _ _ _ (hl 1 (by decide)) (by simp) _ _ (.list [7, 8, 9]) (by
    intro f hf
    cases hf with
    | same h1 h2 => cases h1
    | scalar h1 h2 => cases h1
    | trans h1 h2 h3 => cases h1)
  obtain ⟨c', ls, hc', hs', hb⟩ := ofStruct_built exStruct_wf
  rw [h] at hc'
  cases hc'
  have h6 := C46_list (⟨c, m, []⟩ : Obj ℚ) (by rw [hs']; exact exStruct_wf) [] _ _ (by rw [hs']; exact .root) _ he [] [] [] 2 rfl .nil []
    .all _ (selects_all 2) [.mat ⟨.dense 2 1, [7, 8]⟩, .list ([7, 8, 9].map .num)]
    (fun i => if i = 0 then .mat ⟨.dense 2 1, [7, 8]⟩ else .list ([7, 8, 9].map .num)) (by
      intro i hi
      have : i = 0 ∨ i = 1 := by simpa [List.range_succ] using hi
      rcases this with rfl | rfl
      · exact .inl ⟨by decide, rfl⟩
      · exact .inl ⟨by decide, rfl⟩)
  refine ⟨exStruct, c, m, m', .list [.mat ⟨.dense 2 1, [7, 8]⟩, .list ([7, 8, 9].map .num)], .generic, exStruct_wf, h,
    by simp [m], ?_, ?_⟩
  · have h7 : (⟨c, m, []⟩ : Obj ℚ).setitem [.str "b"] (.list [.mat ⟨.dense 2 1, [7, 8]⟩, .list ([7, 8, 9].map .num)]) =
        (⟨c, m, []⟩ : Obj ℚ).setitem [.str "b", .all] (.list [.mat ⟨.dense 2 1, [7, 8]⟩, .list ([7, 8, 9].map .num)]) := by
      exact C46_all (⟨c, m, []⟩ : Obj ℚ) (by rw [hs']; exact exStruct_wf) [] _ _ (by rw [hs']; exact .root) _ he [] [] [] 2 rfl .nil _
    rw [h7]
    refine h6.trans ?_
    show (⟨c, m, []⟩ : Obj ℚ).setAll [([.str "b", .int 0], .mat ⟨.dense 2 1, [7, 8]⟩), ([.str "b", .int 1], .list ([7, 8, 9].map .num))] = _
    rw [Obj.setAll]
    have h2' : (⟨c, m, []⟩ : Obj ℚ).setitem [.str "b", .int 0] (.mat ⟨.dense 2 1, [7, 8]⟩) = (.ok (), ⟨c, m', []⟩) := h2
    rw [h2']
    simp only
    rw [Obj.setAll]
    have h5' : (⟨c, m', []⟩ : Obj ℚ).setitem [.str "b", .int 1] (.list ([7, 8, 9].map .num)) = (.error .generic, ⟨c, m', []⟩) := h5
    rw [h5']
  · intro hm
    have hwf' : WFs c.struct.entries c.struct.order := by rw [hs']; exact exStruct_wf
    obtain ⟨i, _, _, hil, _, hik, hi⟩ := getitem_plain hb hwf' (master := m') (by rw [h3]; simp [m])
      (by rw [hs']; exact hl 0 (by decide)) (by simp)
    have h8 := Except.ok.inj (hi.symm.trans h4)
    have h9 : i.data.map (fun k => m'.getD k 0) = [7, 8] := by
      injection h8 with h8
      exact congrArg SMat.data h8
    have h10 : (7 : ℚ) ∈ i.data.map (fun k => m'.getD k 0) := by rw [h9]; simp
    obtain ⟨k, hk, e⟩ := List.mem_map.1 h10
    rw [hm] at e
    have : k < c.size := hik k hk
    simp only [m, List.getD_eq_getElem?_getD, List.getElem?_map, List.getElem?_range this] at e
    norm_num at e

end

/-! ## Instances -/

theorem ofStruct_struct {s : Struct} {c : CS} (h : CS.ofStruct s = .ok c) : c.struct = s := by
  unfold CS.ofStruct at h
  split at h
  · cases h
  · cases h; rfl

/-- `s['b', -1]`, `s['b', ::-1]`, `s['b', [1, 0]]` and `s['b']` of the struct of the examples, for arbitrary contents. -/
example (c : CS) (h : CS.ofStruct exStruct = .ok c) (m : List ℚ) (x y : Tree (SMat ℚ))
    (hx : (⟨c, m, []⟩ : Obj ℚ).getitem [.str "b", .int 0] = .ok x) (hy : (⟨c, m, []⟩ : Obj ℚ).getitem [.str "b", .int 1] = .ok y) :
    (⟨c, m, []⟩ : Obj ℚ).getitem [.str "b", .int (-1)] = .ok y ∧
      (⟨c, m, []⟩ : Obj ℚ).getitem [.str "b", .slice none none (some (-1))] = .ok (.list [y, x]) ∧
      (⟨c, m, []⟩ : Obj ℚ).getitem [.str "b", .list [.int 1, .int 0]] = .ok (.list [y, x]) ∧
      (⟨c, m, []⟩ : Obj ℚ).getitem [.str "b"] = .ok (.list [x, y]) := by
  have hs := ofStruct_struct h
  have he : Entry.prim "b" [2] ⟨.dense 2 1, false, none, none⟩ ∈ exStruct.entries := by simp [exStruct]
  have hwf : WFs c.struct.entries c.struct.order := by rw [hs]; exact exStruct_wf
  have hr : IsAt c.struct.entries c.struct.order [] exStruct.entries exStruct.order := by rw [hs]; exact .root
  refine ⟨?_, ?_, ?_, ?_⟩
  · exact (C45_negative (⟨c, m, []⟩ : Obj ℚ) hwf [] _ _ hr _ he [] [] [] 2 rfl .nil [] 1 (by decide) (by decide)).trans hy
  · have h1 := C45_slice (⟨c, m, []⟩ : Obj ℚ) hwf [] _ _ hr _ he [] [] [] 2 rfl .nil [] none none (some (-1)) [1, 0] rfl
    refine h1.trans ?_
    show Except.map Tree.list (Except.bind ((⟨c, m, []⟩ : Obj ℚ).getitem [.str "b", .int 1]) _) = _
    rw [hy]
    show Except.map Tree.list (Except.bind ((⟨c, m, []⟩ : Obj ℚ).getitem [.str "b", .int 0]) _) = _
    rw [hx]
    rfl
  · have h1 := C45_list (⟨c, m, []⟩ : Obj ℚ) hwf [] _ _ hr _ he [] [] [] 2 rfl .nil [] [1, 0]
    refine h1.trans ?_
    show Except.map Tree.list (Except.bind ((⟨c, m, []⟩ : Obj ℚ).getitem [.str "b", .int 1]) _) = _
    rw [hy]
    show Except.map Tree.list (Except.bind ((⟨c, m, []⟩ : Obj ℚ).getitem [.str "b", .int 0]) _) = _
    rw [hx]
    rfl
  · have h1 := C45_all (⟨c, m, []⟩ : Obj ℚ) hwf [] _ _ hr _ he [] [] [] 2 rfl .nil
    refine h1.trans ?_
    show Except.map Tree.list (Except.bind ((⟨c, m, []⟩ : Obj ℚ).getitem [.str "b", .int 0]) _) = _
    rw [hx]
    show Except.map Tree.list (Except.bind ((⟨c, m, []⟩ : Obj ℚ).getitem [.str "b", .int 1]) _) = _
    rw [hy]
    rfl

/-- The slice `-2:9` of 3 repetitions and `5::-2` of 5. -/
example : sliceList (some (-2)) (some 9) none 3 = .ok [1, 2] ∧ sliceList (some 5) none (some (-2)) 5 = .ok [4, 2, 0] := by
  decide

/-- `s['b', 2]` of an entry with 2 repetitions raises. -/
example (c : CS) (h : CS.ofStruct exStruct = .ok c) (m : List ℚ) :
    (⟨c, m, []⟩ : Obj ℚ).getitem [.str "b", .int 2] = .error .generic := by
  have hs := ofStruct_struct h
  have he : Entry.prim "b" [2] ⟨.dense 2 1, false, none, none⟩ ∈ exStruct.entries := by simp [exStruct]
  exact (C45_out_of_range c (by rw [hs]; exact h) (by rw [hs]; exact exStruct_wf) m [] [] _ _ (by rw [hs]; exact .root) _ he [2] rfl
    (by intro h; cases h; omega) [] (.inr rfl)).1

/-- `s['a', [2, 0]] = [5, 6, 7]` writes 7 to repetition 2 and 5 to repetition 0. -/
example : ∃ c, CS.ofStruct exStruct = .ok c ∧ ∀ m : List ℚ, m.length = c.size → ∃ m',
    (⟨c, m, []⟩ : Obj ℚ).setitem [.str "a", .list [.int 2, .int 0]] (.list [.num 5, .num 6, .num 7]) = (.ok (), ⟨c, m', []⟩) ∧
      (⟨c, m', []⟩ : Obj ℚ).getitem [.str "a", .int 2] = .ok (.leaf (.scalar 7)) ∧
      (⟨c, m', []⟩ : Obj ℚ).getitem [.str "a", .int 0] = .ok (.leaf (.scalar 5)) ∧
      (⟨c, m', []⟩ : Obj ℚ).getitem [.str "a", .int 1] = (⟨c, m, []⟩ : Obj ℚ).getitem [.str "a", .int 1] := by
  obtain ⟨c, h, _⟩ := C39_size exStruct exStruct_wf
  refine ⟨c, h, fun m hm => ?_⟩
  have he : Entry.prim "a" ([] ++ [3]) ⟨.dense 1 1, false, none, none⟩ ∈ exStruct.entries := by simp [exStruct]
  obtain ⟨m', h1, _, h2, h3⟩ := C46_effect exStruct exStruct_wf c h m hm [] _ _ .root "a" [] [] 3 _ he rfl .nil
    (.list [.int 2, .int 0]) [2, 0] (by decide) (by decide) (.list (is := [2, 0])) [.num 5, .num 6, .num 7]
    (fun i => .scalar (5 + i)) (fun i _ => 5 + i) (by
      intro i hi
      have hi : i = 2 ∨ i = 0 := by simpa using hi
      have hf : ∀ v : ℚ, Fits (.dense 1 1) (SMat.scalar v) (fun _ => v) := fun v => .scalar (m := SMat.scalar v) rfl rfl
      rcases hi with rfl | rfl
      · refine ⟨.num 7, rfl, ?_, ⟨Sparsity.dense_canon _ _, rfl⟩, hf _⟩
        have : IsValue (.num (7 : ℚ)) _ := .num 7
        norm_num [SMat.scalar]
        exact this
      · refine ⟨.num 5, rfl, ?_, ⟨Sparsity.dense_canon _ _, rfl⟩, hf _⟩
        have : IsValue (.num (5 : ℚ)) _ := .num 5
        norm_num [SMat.scalar]
        exact this)
  refine ⟨m', h1, ?_, ?_, ?_⟩
  · have := h2 2 (by simp)
    norm_num at this
    exact this
  · have := h2 0 (by simp)
    norm_num at this
    exact this
  · exact h3 [.str "a", .int 1] _ _ (.leaf (.prim he (.cons ⟨1, by decide, rfl⟩ .nil))) (by
      intro i hi
      have hi : i = 2 ∨ i = 0 := by simpa using hi
      rcases hi with rfl | rfl <;> decide)

/-- `s['b', 1:] = [5, 6]` is `s['b', 1] = 6`; `s['b', :] = repeated(5)` and `s['b'] = repeated(5)` write 5 to both repetitions;
`s['b', :] = [5]` raises. -/
example (c : CS) (h : CS.ofStruct exStruct = .ok c) (m : List ℚ) :
    (⟨c, m, []⟩ : Obj ℚ).setitem [.str "b", .slice (some 1) none none] (.list [.num 5, .num 6]) =
      (⟨c, m, []⟩ : Obj ℚ).setAll [([.str "b", .int 1], .num 6)] ∧
    (⟨c, m, []⟩ : Obj ℚ).setitem [.str "b", .all] (.rep (.num 5)) =
      (⟨c, m, []⟩ : Obj ℚ).setAll [([.str "b", .int 0], .num 5), ([.str "b", .int 1], .num 5)] ∧
    (⟨c, m, []⟩ : Obj ℚ).setitem [.str "b"] (.rep (.num 5)) =
      (⟨c, m, []⟩ : Obj ℚ).setAll [([.str "b", .int 0], .num 5), ([.str "b", .int 1], .num 5)] ∧
    ((⟨c, m, []⟩ : Obj ℚ).setitem [.str "b", .all] (.list [.num 5])).1 = .error .generic := by
  have hs := ofStruct_struct h
  have he : Entry.prim "b" [2] ⟨.dense 2 1, false, none, none⟩ ∈ exStruct.entries := by simp [exStruct]
  have hwf : WFs c.struct.entries c.struct.order := by rw [hs]; exact exStruct_wf
  have hr : IsAt c.struct.entries c.struct.order [] exStruct.entries exStruct.order := by rw [hs]; exact .root
  have h2 := C46_value (⟨c, m, []⟩ : Obj ℚ) hwf [] _ _ hr _ he [] [] [] 2 rfl .nil [] .all [0, 1] (.slice (by decide)) (.rep (.num 5))
    (.num 5) (.inl rfl)
  refine ⟨?_, h2, (C46_all (⟨c, m, []⟩ : Obj ℚ) hwf [] _ _ hr _ he [] [] [] 2 rfl .nil (.rep (.num 5))).trans h2, ?_⟩
  · exact C46_list (⟨c, m, []⟩ : Obj ℚ) hwf [] _ _ hr _ he [] [] [] 2 rfl .nil [] (.slice (some 1) none none) [1] (.slice (by decide))
      [.num 5, .num 6] (fun _ => .num 6) (by
        intro i hi
        rw [List.mem_singleton.1 hi]
        exact .inl ⟨by decide, rfl⟩)
  · exact C46_short (⟨c, m, []⟩ : Obj ℚ) hwf [] _ _ hr _ he [] [] [] 2 rfl .nil [] .all [0, 1] (.slice (by decide)) [.num 5] 1
      (by simp) (by decide)

/-- The slices `-5:-1:2` of 6 and `-1:1:-3` of 9 repetitions. -/
example : (∃ is, sliceList (some (-5)) (some (-1)) (some 2) 6 = .ok is ∧ ∀ i, i ∈ is ↔ 1 ≤ i ∧ i < 5 ∧ 2 ∣ i - 1) ∧
    ∃ is, sliceList (some (-1)) (some 1) (some (-3)) 9 = .ok is ∧ ∀ i, i ∈ is ↔ 1 < i ∧ i ≤ 8 ∧ -3 ∣ 8 - i := by
  obtain ⟨l1, h1, -, h2⟩ := C45_slice_positive (some (-5)) (some (-1)) 2 (by decide) 6
  obtain ⟨l2, h3, -, h4⟩ := C45_slice_negative (some (-1)) (some 1) (-3) (by decide) 9
  exact ⟨⟨l1, h1, h2⟩, l2, h3, h4⟩

/-- C60: an assignment of three numbers to `b[1]`, a 2x1 matrix, raises and changes nothing. -/
example (c : CS) (h : CS.ofStruct exStruct = .ok c) (m : List ℚ) (hm : m.length = c.size) (er : PyErr) (o' : Obj ℚ)
    (hset : (⟨c, m, []⟩ : Obj ℚ).setitem [.str "b", .int 1] (.list [.num 1, .num 2, .num 3]) = (.error er, o')) :
    o' = ⟨c, m, []⟩ :=
  C60_partial exStruct exStruct_wf c h m hm [.str "b", .int 1] _ _
    (.leaf (.prim (dims := [2]) (p := ⟨.dense 2 1, false, none, none⟩) (by simp [exStruct]) (.cons ⟨1, by decide, rfl⟩ .nil)))
    (by rintro p ⟨⟩ ⟨⟩) _ er o' hset

end CE.St
