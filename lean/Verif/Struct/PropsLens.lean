import Verif.Struct.LemLens
import Verif.Struct.PropsLast

/-! # C104: reading and writing are inverse to each other -/

namespace CE.St

variable {V : Type} [Zero V]

/-- What is written when the value has the nesting and the patterns of what is read. -/
theorem setitem_match (s : Struct) (hwf : WFs s.entries s.order) (hs : Prims (fun p => p.symm = false) s.entries) (c : CS)
    (hc : CS.ofStruct s = .ok c) (master : List V) (prio : List (CIdx × SMat V)) (pi : List (PIdx (PyFn V)))
    (hf : ∀ f, .fn f ∉ pi) (hp : straightIn (straightTable s.entries) pi) {ti : Tree IMat} (hi : c.i pi = .ok ti)
    {tv : Tree (SMat V)} {ws : List (ℕ × V)} (hm : Match ti tv ws) (hlt : ∀ w ∈ ws, w.1 < master.length) :
    (⟨c, master, prio⟩ : Obj V).setitem pi tv.toPay = (.ok (), ⟨c, writeAll master ws, prio⟩) := by
  obtain ⟨c', ls, hc', rfl, hb⟩ := ofStruct_built hwf
  rw [hc] at hc'
  cases hc'
  have h := goStruct_write hwf.nodup c.struct.keys (travTable_write (V := V) c.map c.struct.entries hs
    fun n ds es' o he => hwf.sub n ds es' o he) (fun d tv => call_write d _ _ (by rintro _ ⟨⟩) tv) pi [] tv hp hf
  rw [CS.i, Struct.traverse_fst] at hi
  rw [Obj.setitem_on, setitemOn_eq, Struct.traverse_fst]
  rcases hx : goStruct (imDisp (V := V) c.map) c.struct.keys (travTable (imDisp c.map) c.struct.entries) pi false []
    .none () with ⟨r, u⟩
  rw [hx] at hi
  cases r with
  | error e => cases hi
  | ok t =>
    cases hi
    obtain ⟨r, hr⟩ := h _ (by rw [hx]) ws hm master hlt
    rw [hr]
    rfl

omit [Zero V] in
/-- The last of several writes that agree. -/
theorem lastWrite_agree {n : ℕ} {ws : List (ℕ × V)} (h : ∀ w ∈ ws, ∀ w' ∈ ws, w.1 = w'.1 → w.2 = w'.2) {w : ℕ × V} (hw : w ∈ ws)
    (hn : w.1 < n) : lastWrite n ws w.1 = some w.2 := by
  have some_mem : ∀ {l : List (ℕ × V)} {j x}, lastWrite n l j = some x → (j, x) ∈ l := by
    intro l j x
    induction l with
    | nil => rintro ⟨⟩
    | cons y l ih =>
      intro hl
      rw [lastWrite, Option.or_eq_some_iff] at hl
      rcases hl with hl | ⟨-, hl⟩
      · exact List.mem_cons_of_mem _ (ih hl)
      · split at hl
        · rename_i hy
          cases hl
          rw [← hy.1]
          exact List.mem_cons_self
        · cases hl
  have h1 := (lastWrite_isSome n ws hn).2 (List.mem_map_of_mem hw)
  obtain ⟨x, hx⟩ := Option.isSome_iff_exists.1 h1
  rw [hx]
  exact congrArg some (h _ (some_mem hx) w hw rfl)

theorem writeAll_getD {m : List V} {ws : List (ℕ × V)} {w : ℕ × V} (h : lastWrite m.length ws w.1 = some w.2) :
    (writeAll m ws).getD w.1 0 = w.2 := by
  rw [List.getD_eq_getElem?_getD, writeAll_lastWrite, h]
  rfl

variable [Add V] [Sub V]

/-- **C104** (write, then read; partial) Let `v` have the nesting and the patterns of what `s.i[pi]` reads, let `ws` be the values of
`v` with their positions, and let `pi` select repetitions from the first one without gaps. Then `s[pi] = v` succeeds, writes exactly
`ws`, and afterwards `s[pi]` reads `v`, unless two values for the same position differ. For every such power index of strings,
integers, slices, lists, dicts and sets, in a struct without entries of type 'symm'. -/
theorem C104_write_read_partial (s : Struct) (hwf : WFs s.entries s.order) (hs : Prims (fun p => p.symm = false) s.entries) (c : CS)
    (hc : CS.ofStruct s = .ok c) (master : List V) (hlen : master.length = c.size) (pi : List (PIdx (PyFn V)))
    (hf : ∀ f, .fn f ∉ pi) (hp : straightIn (straightTable s.entries) pi) (ti : Tree IMat) (hi : c.i pi = .ok ti)
    (tv : Tree (SMat V)) (ws : List (ℕ × V)) (hm : Match ti tv ws) :
    (⟨c, master, []⟩ : Obj V).setitem pi tv.toPay = (.ok (), ⟨c, writeAll master ws, []⟩) ∧
    ((⟨c, writeAll master ws, []⟩ : Obj V).getitem pi = .ok tv ↔ ∀ w ∈ ws, ∀ w' ∈ ws, w.1 = w'.1 → w.2 = w'.2) := by
  have hlt := (C100_read s hwf hs c hc master hlen pi fun f h => (hf f h).elim).2 ti hi
  have hws : ∀ w ∈ ws, w.1 < master.length := by rw [hlen]; exact hm.lt hlt
  refine ⟨setitem_match s hwf hs c hc master [] pi hf hp hi hm hws, ?_⟩
  rw [(C100_read s hwf hs c hc (writeAll master ws) (by rw [writeAll_length, hlen]) pi fun f h => (hf f h).elim).1, hi]
  constructor
  · intro h w hw w' hw' e
    have h1 := hm.read_inv (g := fun k => (writeAll master ws).getD k 0) (Except.ok.inj h)
    rw [← h1 w hw, ← h1 w' hw', e]
  · intro h
    exact congrArg Except.ok (hm.read (g := fun k => (writeAll master ws).getD k 0) fun w hw =>
      writeAll_getD (lastWrite_agree h hw (hws w hw)))

/-- **C104** (read, then write; partial) If `s[pi]` reads `v`, then `s[pi] = v` succeeds and changes nothing, if `pi` selects repetitions
from the first one without gaps. -/
theorem C104_read_write_partial (s : Struct) (hwf : WFs s.entries s.order) (hs : Prims (fun p => p.symm = false) s.entries) (c : CS)
    (hc : CS.ofStruct s = .ok c) (master : List V) (hlen : master.length = c.size) (pi : List (PIdx (PyFn V)))
    (hf : ∀ f, .fn f ∉ pi) (hp : straightIn (straightTable s.entries) pi) (tv : Tree (SMat V))
    (hg : (⟨c, master, []⟩ : Obj V).getitem pi = .ok tv) :
    (⟨c, master, []⟩ : Obj V).setitem pi tv.toPay = (.ok (), ⟨c, master, []⟩) := by
  obtain ⟨h1, h2⟩ := C100_read s hwf hs c hc master hlen pi fun f h => (hf f h).elim
  rw [hg] at h1
  cases hi : c.i pi with
  | error e => rw [hi] at h1; cases h1
  | ok ti =>
    rw [hi] at h1
    cases h1
    obtain ⟨ws, hm, hv⟩ := match_read (fun k => master.getD k 0) ti (CS.i_WF s hwf c hc pi hf hi)
    have hws : ∀ w ∈ ws, w.1 < master.length := by rw [hlen]; exact hm.lt (h2 ti hi)
    rw [setitem_match s hwf hs c hc master [] pi hf hp hi hm hws]
    congr 2
    apply List.ext_getElem?
    intro k
    rw [writeAll_lastWrite]
    cases hl : lastWrite master.length ws k with
    | none => rfl
    | some x =>
      by_cases hk : k < master.length
      · have hmem := (lastWrite_isSome _ _ hk).1 (by rw [hl]; rfl)
        obtain ⟨w, hw, rfl⟩ := List.mem_map.1 hmem
        have := lastWrite_agree (n := master.length) (ws := ws)
          (fun w hw w' hw' e => by rw [hv w hw, hv w' hw', e]) hw hk
        rw [hl] at this
        cases this
        rw [hv w hw, List.getD_eq_getElem?_getD, List.getElem?_eq_getElem hk]
        rfl
      · rw [lastWrite_ge _ _ (by omega)] at hl
        cases hl

/-! ## Examples -/

theorem groupStruct_prims : Prims (fun p => p.symm = false) groupStruct.entries := ⟨rfl, rfl, trivial⟩

/-- `s['a'] = [5, 6]` of a struct with `a` and `b`, interleaved: the elements 0 and 2 are written, the list is read back, and
assigning it again changes nothing. -/
example (c : CS) (hc : CS.ofStruct groupStruct = .ok c) (m : List ℚ) (hm : m.length = 4) :
    let v : Tree (SMat ℚ) := .list [.leaf ⟨.dense 1 1, [5]⟩, .leaf ⟨.dense 1 1, [6]⟩]
    let o : Obj ℚ := ⟨c, writeAll m [(0, 5), (2, 6)], []⟩
    (⟨c, m, []⟩ : Obj ℚ).setitem [.str "a"] v.toPay = (.ok (), o) ∧ o.getitem [.str "a"] = .ok v ∧
      o.setitem [.str "a"] v.toPay = (.ok (), o) := by
  intro v o
  obtain ⟨c', hc', h2, hs, -, hi⟩ := groupStruct_i
  rw [hc] at hc'
  cases hc'
  have hst : straightIn (F := PyFn ℚ) (straightTable groupStruct.entries) [.str "a"] := by
    intro x hx _
    simp only [groupStruct, straightTable, List.mem_cons, List.not_mem_nil, or_false] at hx
    rcases hx with rfl | rfl <;> exact trivial
  have hm' : Match (.list [.leaf ⟨.dense 1 1, [0]⟩, .leaf ⟨.dense 1 1, [2]⟩]) v [((0 : ℕ), (5 : ℚ)), (2, 6)] :=
    .cons (w := [(0, 5)]) (.leaf rfl ⟨Sparsity.dense_canon _ _, rfl⟩ rfl)
      (.cons (w := [(2, 6)]) (.leaf rfl ⟨Sparsity.dense_canon _ _, rfl⟩ rfl) .nil)
  obtain ⟨h1, h3⟩ := C104_write_read_partial groupStruct groupStruct_wf groupStruct_prims c hc m (by rw [hm, hs]) [.str "a"] (by simp)
    hst _ hi v _ hm'
  have h4 := h3.2 (by simp)
  exact ⟨h1, h4, C104_read_write_partial groupStruct groupStruct_wf groupStruct_prims c hc _ (by rw [writeAll_length, hm, hs]) _ (by simp)
    hst v h4⟩

/-- Slices from the first repetition, and all repetitions of all entries. -/
example : straightIn (F := PyFn ℚ) (straightTable groupStruct.entries) [.str "a", .slice none (some 1) none] ∧
    straightIn (F := PyFn ℚ) (straightTable groupStruct.entries) [.dict, .all] := by
  have key : ∀ is, sliceList none (some 1) none 2 = .ok is → Aligned is := by
    intro is h
    have : sliceList none (some 1) none 2 = .ok [0] := by decide
    rw [this] at h
    cases h
    exact aligned_range 1
  constructor
  · intro x hx _
    simp only [groupStruct, straightTable, List.mem_cons, List.not_mem_nil, or_false] at hx
    rcases hx with rfl | rfl <;> exact ⟨key, trivial⟩
  · intro x hx
    simp only [groupStruct, straightTable, List.mem_cons, List.not_mem_nil, or_false] at hx
    rcases hx with rfl | rfl <;> exact StraightDims.alls (by exact trivial) [2]

/-- **C104 fails** for other selections of repetitions: `s['a', ::-1] = s['a', ::-1]` swaps the two repetitions of `a`, since the
list is read in the order of the slice and written by the numbers of the repetitions; `s['a', 1:] = s['a', 1:]` raises. -/
theorem C104_refuted : ∃ (s : Struct) (c : CS) (m m' : List ℚ) (v w : Tree (SMat ℚ)), WFs s.entries s.order ∧
    CS.ofStruct s = .ok c ∧ m.length = c.size ∧ m' ≠ m ∧
    (⟨c, m, []⟩ : Obj ℚ).getitem [.str "a", .slice none none (some (-1))] = .ok v ∧
    (⟨c, m, []⟩ : Obj ℚ).setitem [.str "a", .slice none none (some (-1))] v.toPay = (.ok (), ⟨c, m', []⟩) ∧
    (⟨c, m, []⟩ : Obj ℚ).getitem [.str "a", .slice (some 1) none none] = .ok w ∧
    ((⟨c, m, []⟩ : Obj ℚ).setitem [.str "a", .slice (some 1) none none] w.toPay).1 = .error .generic := by
  obtain ⟨c, hc, h2, hs, hj, -⟩ := groupStruct_i
  let m : List ℚ := [1, 2, 3, 4]
  have hwf' : WFs c.struct.entries c.struct.order := by rw [h2]; exact groupStruct_wf
  have he : Entry.prim "a" [2] ⟨.dense 1 1, false, none, none⟩ ∈ groupStruct.entries := List.mem_cons_self
  have he' : Entry.prim "a" [2] ⟨.dense 1 1, false, none, none⟩ ∈ c.struct.entries := by rw [h2]; exact he
  have hget : ∀ (m : List ℚ), m.length = 4 → ∀ j : ℕ, j < 2 → (⟨c, m, []⟩ : Obj ℚ).getitem [.str "a", .int j] = .ok (.leaf ⟨.dense 1 1, [m.getD (2 * j) 0]⟩) := by
    intro m hm j hlt
    rw [(C100_read groupStruct groupStruct_wf groupStruct_prims c hc m (by rw [hm, hs]) _ (by simp)).1, hj j hlt]
    rfl
  have hr : sliceList none none (some (-1)) 2 = .ok [1, 0] := by decide
  have hr' : sliceList (some 1) none none 2 = .ok [1] := by decide
  have g1 := C45_slice (⟨c, m, []⟩ : Obj ℚ) hwf' [] _ _ .root _ he' [] [] [] 2 rfl .nil [] none none (some (-1)) _ hr
  have g2 := C45_slice (⟨c, m, []⟩ : Obj ℚ) hwf' [] _ _ .root _ he' [] [] [] 2 rfl .nil [] (some 1) none none _ hr'
  have e0 : (⟨c, m, []⟩ : Obj ℚ).getitem [.str "a", .int 0] = .ok (.leaf ⟨.dense 1 1, [1]⟩) := hget m rfl 0 (by decide)
  have e1 : (⟨c, m, []⟩ : Obj ℚ).getitem [.str "a", .int 1] = .ok (.leaf ⟨.dense 1 1, [3]⟩) := hget m rfl 1 (by decide)
  let v : Tree (SMat ℚ) := .list [.leaf ⟨.dense 1 1, [3]⟩, .leaf ⟨.dense 1 1, [1]⟩]
  let w : Tree (SMat ℚ) := .list [.leaf ⟨.dense 1 1, [3]⟩]
  obtain ⟨m', h5, h6, h7, -⟩ := C46_effect groupStruct groupStruct_wf c hc m (by rw [hs]; rfl) [] _ _ .root "a" [] [] 2 _ he rfl .nil
    (.slice none none (some (-1))) [1, 0] (by decide) (by decide) (.slice hr) [.mat ⟨.dense 1 1, [3]⟩, .mat ⟨.dense 1 1, [1]⟩]
    (fun i => if i = 0 then ⟨.dense 1 1, [3]⟩ else ⟨.dense 1 1, [1]⟩) (fun i _ => if i = 0 then 3 else 1) (by
      intro i hi
      have hi : i = 1 ∨ i = 0 := by simpa using hi
      have hf : ∀ x : ℚ, Fits (.dense 1 1) ⟨.dense 1 1, [x]⟩ (fun _ => x) := fun x => .scalar (m := SMat.scalar x) rfl rfl
      rcases hi with rfl | rfl
      · exact ⟨_, rfl, .mat _, ⟨Sparsity.dense_canon _ _, rfl⟩, hf 1⟩
      · exact ⟨_, rfl, .mat _, ⟨Sparsity.dense_canon _ _, rfl⟩, hf 3⟩)
  refine ⟨groupStruct, c, m, m', v, w, groupStruct_wf, hc, by rw [hs]; rfl, ?_, ?_, h5, ?_, ?_⟩
  · intro h
    have h8 := h7 0 (by simp)
    rw [h] at h8
    have h9 := Except.ok.inj (e0.symm.trans h8)
    injection h9 with h9
    have h10 := congrArg SMat.data h9
    have h11 : ([1] : List ℚ) = [3] := h10
    norm_num at h11
  · refine g1.trans ?_
    rw [List.mapM_cons, List.mapM_cons, List.mapM_nil]
    have h1 : (⟨c, m, []⟩ : Obj ℚ).getitem (([] ++ [Key.str "a"]).map .ofKey ++ [.int 1]) = _ := e1
    have h0 : (⟨c, m, []⟩ : Obj ℚ).getitem (([] ++ [Key.str "a"]).map .ofKey ++ [.int 0]) = _ := e0
    rw [Entry.name, h1, h0]
    rfl
  · refine g2.trans ?_
    rw [List.mapM_cons, List.mapM_nil]
    have h1 : (⟨c, m, []⟩ : Obj ℚ).getitem (([] ++ [Key.str "a"]).map .ofKey ++ [.int 1]) = _ := e1
    rw [Entry.name, h1]
    rfl
  · exact C46_short (⟨c, m, []⟩ : Obj ℚ) hwf' [] _ _ .root _ he' [] [] [] 2 rfl .nil [] _ _ (.slice hr') [.mat ⟨.dense 1 1, [3]⟩] 1
      (by simp) (by simp)

end CE.St
