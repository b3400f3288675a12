import Verif.Struct.LemLens3
import Verif.Struct.PropsRepeat

/-! # C104: reading and writing structs with entries of type 'symm' -/

namespace CE.St

variable {V : Type} [Zero V] [Add V] [Sub V]

theorem Over.self {S : ℕ → Prop} {m m' : List V} (h : Over S m m m') : m' = m := by
  apply List.ext_getElem?
  intro k
  by_cases hk : S k
  · exact h.inside k hk
  · exact h.outside k hk

theorem Over.unique {S : ℕ → Prop} {m0 m m1 m2 : List V} (h : Over S m0 m m1) (h' : Over S m0 m m2) : m1 = m2 := by
  apply List.ext_getElem?
  intro k
  by_cases hk : S k
  · rw [h.inside k hk, h'.inside k hk]
  · rw [h.outside k hk, h'.outside k hk]

theorem gen_ok_inv {α : Type} {x : Except PyErr α} {a : α} (h : gen x = .ok a) : x = .ok a := by
  cases x with
  | error e => cases h
  | ok b => exact congrArg _ (Except.ok.inj h)

/-- Reading and writing with a power index as one step. -/
theorem obj_lens (hv : ∀ x : V, x + x - x = x) (s : Struct) (hwf : WFs s.entries s.order) (hs : Prims Mirrored s.entries) (c : CS)
    (hc : CS.ofStruct s = .ok c) (pi : List (PIdx (PyFn V))) (hf : ∀ f, .fn f ∉ pi) (hp : lensIn (lensTable s.entries) pi) :
    ∃ S : ℕ → Prop, ∀ m0 : List V, m0.length = c.size → ∀ tv, (⟨c, m0, []⟩ : Obj V).getitem pi = .ok tv →
      (∀ m, m.length = c.size → (∀ k, S k → m[k]? = m0[k]?) → (⟨c, m, []⟩ : Obj V).getitem pi = .ok tv) ∧
      ∀ m, m.length = c.size → ∃ m', (⟨c, m, []⟩ : Obj V).setitem pi tv.toPay = (.ok (), ⟨c, m', []⟩) ∧ Over S m0 m m' := by
  obtain ⟨c', ls, hc', rfl, hb⟩ := ofStruct_built hwf
  rw [hc] at hc'
  cases hc'
  have hmap : ∀ a m, dictGet c.map a = some m → m.WF ∧ m.data.Nodup ∧ ∀ k ∈ m.data, k < c.size := by
    intro a m h
    obtain ⟨e, sp, hpt⟩ := hb.get_part hwf h
    obtain ⟨m', h1, h2, h3, h4, -⟩ := hb.part hwf hpt
    rw [h] at h1
    cases h1
    exact ⟨h2, h3, h4⟩
  obtain ⟨S, h⟩ := goStruct_lens (V := V) (n := c.size) (d := fun m => getDisp c.map [] m) (d' := setDispOn assign c.map)
    (C := okIn c.map c.struct.entries) hwf.nodup c.struct.keys
    (travTable_lens hv hmap c.struct.entries hs (fun n ds es' o he => hwf.sub n ds es' o he) _ fun a ha => ha.mem)
    (fun a => call_lens hv hmap a none (by simp) none (by rintro _ ⟨⟩)) pi [] hp hf (hb.okIn hwf)
  refine ⟨S, fun m0 hm0 tv htv => ?_⟩
  rw [Obj.getitem_eq] at htv
  obtain ⟨h1, h2⟩ := h m0 hm0 tv (gen_ok_inv htv)
  refine ⟨fun m hm hag => ?_, fun m hm => ?_⟩
  · rw [Obj.getitem_eq]
    exact congrArg gen (h1 m hm hag)
  · obtain ⟨r, m', e, ho⟩ := h2 m hm
    refine ⟨m', ?_, ho⟩
    dsimp only at e
    rw [Obj.setitem_on, setitemOn_eq, Struct.traverse_fst, e]
    rfl

/-- **C104** (structs with entries of type 'symm'; partial) Reading and writing with a power index `pi` obey the laws of a lens. If `s[pi]`
reads `v` in some state of the vector, then
* in every state `s[pi] = v` succeeds, and afterwards `s[pi]` reads `v`;
* in the state where `v` was read, `s[pi] = v` changes nothing;
* writing twice is writing the second value: `s[pi] = v1; s[pi] = v` leaves the same vector as `s[pi] = v` alone.
For structs whose entries of type 'symm' are declared with a symmetric pattern (otherwise false: `C61_refuted_symm`), and power indices
without callables that select repetitions from the first one without gaps, take entries of type 'symm' as a whole, and end at a list of
names. -/
theorem C104_lens_partial (hv : ∀ x : V, x + x - x = x) (s : Struct) (hwf : WFs s.entries s.order) (hs : Prims Mirrored s.entries) (c : CS)
    (hc : CS.ofStruct s = .ok c) (pi : List (PIdx (PyFn V))) (hf : ∀ f, .fn f ∉ pi) (hp : lensIn (lensTable s.entries) pi) (m0 : List V)
    (hm0 : m0.length = c.size) (tv : Tree (SMat V)) (hg : (⟨c, m0, []⟩ : Obj V).getitem pi = .ok tv) :
    (∀ m : List V, m.length = c.size → ∃ m', (⟨c, m, []⟩ : Obj V).setitem pi tv.toPay = (.ok (), ⟨c, m', []⟩) ∧ m'.length = c.size ∧
      (⟨c, m', []⟩ : Obj V).getitem pi = .ok tv) ∧
    (⟨c, m0, []⟩ : Obj V).setitem pi tv.toPay = (.ok (), ⟨c, m0, []⟩) ∧
    ∀ (m1 : List V) (tv1 : Tree (SMat V)), m1.length = c.size → (⟨c, m1, []⟩ : Obj V).getitem pi = .ok tv1 → ∀ m : List V,
      m.length = c.size → ((⟨c, m, []⟩ : Obj V).setitem pi tv1.toPay).2.setitem pi tv.toPay = (⟨c, m, []⟩ : Obj V).setitem pi tv.toPay := by
  obtain ⟨S, h⟩ := obj_lens hv s hwf hs c hc pi hf hp
  obtain ⟨h1, h2⟩ := h m0 hm0 tv hg
  refine ⟨fun m hm => ?_, ?_, fun m1 tv1 hm1 hg1 m hm => ?_⟩
  · obtain ⟨m', e, ho⟩ := h2 m hm
    exact ⟨m', e, ho.len.trans hm, h1 m' (ho.len.trans hm) ho.inside⟩
  · obtain ⟨m', e, ho⟩ := h2 m0 hm0
    rw [e, ho.self]
  · obtain ⟨m', e, ho⟩ := (h m1 hm1 tv1 hg1).2 m hm
    obtain ⟨m'', e', ho'⟩ := h2 m hm
    obtain ⟨m3, e3, ho3⟩ := h2 m' (ho.len.trans hm)
    rw [e, e3, e']
    congr 2
    refine Over.unique (m0 := m0) (m := m) (S := S) ⟨ho3.len.trans ho.len, ho3.inside, fun k hk => ?_⟩ ho'
    rw [ho3.outside k hk, ho.outside k hk]

/-! ## Example -/

/-- Two symmetric matrices of size 2. -/
def twoSymm : Struct := ⟨[.prim "P" [2] symm2], [.one "P"]⟩

theorem twoSymm_wf : WFs twoSymm.entries twoSymm.order := by
  refine .mk (by simp [twoSymm]) (by simp [twoSymm, OrderItem.names, Entry.name]) ?_ ?_
  · intro n d q hq
    simp only [twoSymm, List.mem_cons, List.not_mem_nil, or_false, Entry.prim.injEq] at hq
    obtain ⟨_, _, rfl⟩ := hq
    exact symm2_canon
  · intro n d es o hq
    simp [twoSymm] at hq

/-- `s['P']` reads a list of two matrices from any vector of length 6; writing this list to any other vector succeeds, it is then read
back, and writing it again changes nothing. -/
example : ∃ c, CS.ofStruct twoSymm = .ok c ∧ c.size = 6 ∧ ∀ m0 m : List ℚ, m0.length = 6 → m.length = 6 → ∃ (R0 R1 : SMat ℚ) (m' : List ℚ),
    (⟨c, m0, []⟩ : Obj ℚ).getitem [.str "P"] = .ok (.list [.leaf R0, .leaf R1]) ∧
    (⟨c, m, []⟩ : Obj ℚ).setitem [.str "P"] (.list [.mat R0, .mat R1]) = (.ok (), ⟨c, m', []⟩) ∧
    (⟨c, m', []⟩ : Obj ℚ).getitem [.str "P"] = .ok (.list [.leaf R0, .leaf R1]) ∧
    (⟨c, m', []⟩ : Obj ℚ).setitem [.str "P"] (.list [.mat R0, .mat R1]) = (.ok (), ⟨c, m', []⟩) := by
  obtain ⟨c, ls, h1, h2, hb⟩ := ofStruct_built twoSymm_wf
  have hwf' : WFs c.struct.entries c.struct.order := by rw [h2]; exact twoSymm_wf
  have hsz : c.size = 6 := by rw [hb.size_eq hwf', h2]; decide +kernel
  refine ⟨c, h1, hsz, fun m0 m hm0 hm => ?_⟩
  have hent : Entry.prim "P" [2] symm2 ∈ c.struct.entries := by rw [h2]; exact List.mem_cons_self
  have hR : ∀ j : ℕ, j < 2 → ∃ R, (⟨c, m0, []⟩ : Obj ℚ).getitem [.str "P", .int j] = .ok (.leaf R) := by
    intro j hj
    obtain ⟨i, -, -, -, -, -, hg⟩ := getitem_symm (V := ℚ) (master := m0) hb hwf' (by rw [hsz, hm0]) (.prim hent
      (.cons ⟨j, hj, rfl⟩ .nil)) symm2_isSymm
    exact ⟨_, hg⟩
  obtain ⟨R0, hR0⟩ := hR 0 (by decide)
  obtain ⟨R1, hR1⟩ := hR 1 (by decide)
  have hg : (⟨c, m0, []⟩ : Obj ℚ).getitem [.str "P"] = .ok (.list [.leaf R0, .leaf R1]) := by
    refine (C45_all (⟨c, m0, []⟩ : Obj ℚ) hwf' [] _ _ .root _ hent [] [] [] 2 rfl .nil).trans ?_
    show Except.map Tree.list (Except.bind ((⟨c, m0, []⟩ : Obj ℚ).getitem [.str "P", .int (0 : ℕ)]) _) = _
    rw [hR0]
    show Except.map Tree.list (Except.bind ((⟨c, m0, []⟩ : Obj ℚ).getitem [.str "P", .int (1 : ℕ)]) _) = _
    rw [hR1]
    rfl
  have hlens : ∀ m0 tv, m0.length = c.size → (⟨c, m0, []⟩ : Obj ℚ).getitem [.str "P"] = .ok tv → _ := fun m0 tv hm0 hg =>
    C104_lens_partial (by intro x; ring) twoSymm twoSymm_wf ⟨fun _ => ⟨_, symm2_isSymm, by simp [Sparsity.dense, Sparsity.positions, and_comm]⟩, trivial⟩ c h1
      [.str "P"] (by simp) (by
        intro x hx _
        rw [lensTable_eq] at hx
        obtain ⟨e, he, rfl⟩ := List.mem_map.1 hx
        obtain rfl : e = .prim "P" [2] symm2 := by simpa [twoSymm] using he
        exact fun _ => .inl rfl) m0 hm0 tv hg
  obtain ⟨m', w1, w2, w3⟩ := (hlens m0 _ (by rw [hm0, hsz]) hg).1 m (by rw [hm, hsz])
  exact ⟨R0, R1, m', hg, w1, w3, (hlens m' _ w2 w3).2.1⟩

end CE.St
