import Verif.Struct.PropsProduct

/-! # Attributes of prefixes and views (C109) -/

namespace CE.St

variable {V : Type} [Zero V] [Add V] [Sub V]

/-- The matrix whose attributes a `Prefixer` with `castmaster` has is the one that it casts to. -/
theorem getattr_cast {α : Type} (attr : SMat V → α) {p : Prefixer V} (h : p.castmaster = true) {m : SMat V}
    (hm : p.cast = .ok (.leaf m)) : p.getattr attr = attr m := by
  rw [Prefixer.cast, if_pos h] at hm
  unfold Prefixer.getattr
  generalize p.ref = r at hm
  rcases r with _ | ⟨r, c⟩
  · cases hm; rfl
  · cases hm; rfl

theorem bind_eq_ok' {α β : Type} {x : Except PyErr α} {f : α → Except PyErr β} {b : β} (h : Except.bind x f = .ok b) :
    ∃ a, x = .ok a ∧ f a = .ok b := by
  cases x with
  | error e => cases h
  | ok a => exact ⟨a, rfl, h⟩

omit [Add V] [Sub V] in
theorem matrixView_castmaster {s : CS} {a : SMat V} {v : Prefixer V} (h : matrixView s a = .ok v) : v.castmaster = true := by
  rw [matrixView] at h
  split at h
  · cases h
  · split at h
    · cases h
    · cases h; rfl

/-- **C109** (views) The views of a dense matrix `a` (`repeated`, `product`, `squared_repeated`; for `squared` see `C51_squared`) have the
attributes of `a`. -/
theorem C109_views {α : Type} (attr : SMat V → α) (sc sd : Struct) (hwc : WFs sc.entries sc.order) (hwd : WFs sd.entries sd.order) :
    ∃ c d, CS.ofStruct sc = .ok c ∧ CS.ofStruct sd = .ok d ∧ ∀ a : SMat V, a.WF →
      (a.sp = .dense c.size a.sp.cols → ∃ view, c.repeated a = .ok view ∧ view.getattr attr = attr a) ∧
      (a.sp = .dense c.size d.size → ∃ view, c.product d a = .ok view ∧ view.getattr attr = attr a) ∧
      ∀ N, 0 < c.size → a.sp = .dense c.size (c.size * N) → ∃ view, c.squaredRepeated a = .ok view ∧ view.getattr attr = attr a := by
  obtain ⟨c, lc, h1, _, _⟩ := ofStruct_built hwc
  obtain ⟨d, ld, h2, _, _⟩ := ofStruct_built hwd
  refine ⟨c, d, h1, h2, fun a ha => ⟨?_, ?_, ?_⟩⟩
  · intro hs
    obtain ⟨c', h1', h⟩ := C50_repeated_partial (V := V) sc hwc
    rw [h1] at h1'
    cases h1'
    obtain ⟨view, h3, h4, _⟩ := h a ha hs
    refine ⟨view, h3, getattr_cast attr ?_ h4⟩
    rw [CS.repeated] at h3
    split at h3
    · cases h3
    · obtain ⟨s, _, h3⟩ := bind_eq_ok' h3
      split at h3
      · cases h3
      · split at h3
        · cases h3
        · cases h3; rfl
  · intro hs
    obtain ⟨c', d', h1', h2', h⟩ := C51_product (V := V) sc sd hwc hwd
    rw [h1] at h1'
    rw [h2] at h2'
    cases h1'
    cases h2'
    obtain ⟨view, h3, h4, _⟩ := h a ha hs
    refine ⟨view, h3, getattr_cast attr ?_ h4⟩
    rw [product_unfold c d hs] at h3
    obtain ⟨s, _, h3⟩ := bind_eq_ok' h3
    exact matrixView_castmaster h3
  · intro N hpos hs
    obtain ⟨c', h1', h⟩ := C51_squared_repeated (V := V) sc hwc
    rw [h1] at h1'
    cases h1'
    obtain ⟨view, h3, h4, _⟩ := h hpos N a ha hs
    refine ⟨view, h3, getattr_cast attr ?_ h4⟩
    rw [CS.squaredRepeated] at h3
    split at h3
    · cases h3
    · split at h3
      · cases h3
      · split at h3
        · cases h3
        · obtain ⟨s, _, h3⟩ := bind_eq_ok' h3
          exact matrixView_castmaster h3

/-- **C109** (prefixes, what they have) The attributes of `s.prefix[p]` are those of all of `s.cat`, for every `p`; so they are those of
`s.prefix[p]()` if `p` is the only element of the struct and a dense column. -/
theorem C109_prefix_partial {α : Type} (attr : SMat V → α) (o : Obj V) (q : List (PIdx (PyFn V))) :
    (o.prefix q).getattr attr = attr (.col o.master) ∧
    ∀ (n : ℕ) (c : CS), CS.ofStruct (oneStruct ⟨.dense n 1, false, none, none⟩) = .ok c → o.master.length = c.size → o.cs = c →
      o.prio = [] → ∃ m, (o.prefix [.str "P"]).call = .ok (.leaf m) ∧ (o.prefix [.str "P"]).getattr attr = attr m := by
  refine ⟨rfl, ?_⟩
  intro n c hc hl ho hp
  obtain ⟨c', h1, h2, hb⟩ := oneStruct_built (p := ⟨.dense n 1, false, none, none⟩) (Sparsity.dense_canon n 1)
  rw [hc] at h1
  cases h1
  have hwf : WFs c.struct.entries c.struct.order := by rw [h2]; exact oneStruct_wf (Sparsity.dense_canon n 1)
  have ha : IsPart c.struct.entries [.str "P"] (some ⟨.dense n 1, false, none, none⟩) (.dense n 1) := by
    rw [h2]; exact .leaf (oneStruct_leaf _)
  obtain ⟨cs, master, prio⟩ := o
  simp only at hl ho hp
  subst ho hp
  have h := getitem_stored hb hwf hl ha
  have hm := hb.master_tops hwf hl
  have ht : tops cs.struct.entries cs.struct.order = [[.str "P"]] := by rw [h2]; rfl
  rw [ht] at hm
  simp only [List.flatMap_cons, List.flatMap_nil, List.append_nil] at hm
  refine ⟨_, h, ?_⟩
  show attr (.col master) = _
  have hn : master.length = n := by
    rw [hl, hb.size_eq hwf, h2]
    simp [oneStruct, countAll, Entry.count, Sparsity.dense, Sparsity.positions_length]
  rw [← hm, ← hn]
  rfl

/-- **C109** (shapes) For an element or nested struct `a`, `s.prefix[a].shape` is the shape of `s.prefix[a]()` only if this is a column
as long as `s.cat`. -/
theorem C109_shape (s : Struct) (hwf : WFs s.entries s.order) (c : CS) (hc : CS.ofStruct s = .ok c) (master : List V)
    (hl : master.length = c.size) (a : CIdx) (e : Option Prim) (sp : Sparsity) (ha : IsPart s.entries a e sp)
    (hs : ∀ p, e = some p → p.symm = false) :
    ∃ m : SMat V, ((⟨c, master, []⟩ : Obj V).prefix (a.map .ofKey)).call = .ok (.leaf m) ∧ m.sp = sp ∧
      (((⟨c, master, []⟩ : Obj V).prefix (a.map .ofKey)).getattr (fun m => (m.sp.rows, m.sp.cols)) = (m.sp.rows, m.sp.cols) ↔
        sp.rows = c.size ∧ sp.cols = 1) := by
  obtain ⟨c', ls, hc', rfl, hb⟩ := ofStruct_built hwf
  rw [hc] at hc'
  cases hc'
  obtain ⟨i, _, _, _, _, _, h⟩ := getitem_plain hb hwf hl ha hs
  refine ⟨_, h, rfl, ?_⟩
  show ((master.length, 1) : ℕ × ℕ) = (sp.rows, sp.cols) ↔ _
  rw [hl, Prod.mk.injEq]
  constructor
  · rintro ⟨h1, h2⟩; exact ⟨h1.symm, h2.symm⟩
  · rintro ⟨h1, h2⟩; exact ⟨h1.symm, h2.symm⟩

/-- The struct with a column `x` of two elements and a number `y`. -/
def xyStruct : Struct := ⟨[.prim "x" [] ⟨.dense 2 1, false, none, none⟩, .prim "y" [] ⟨.dense 1 1, false, none, none⟩], [.one "x", .one "y"]⟩

/-- **C109** is false for prefixes: for the columns `x` (2 elements) and `y` (1 element), `s.prefix['x'].shape` is `(3, 1)` while
`s.prefix['x']()` has the shape `(2, 1)`. -/
theorem C109_refuted (u v w : V) : ∃ (c : CS) (m : SMat V), CS.ofStruct xyStruct = .ok c ∧
    ((⟨c, [u, v, w], []⟩ : Obj V).prefix [.str "x"]).call = .ok (.leaf m) ∧ (m.sp.rows, m.sp.cols) = (2, 1) ∧
    ((⟨c, [u, v, w], []⟩ : Obj V).prefix [.str "x"]).getattr (fun m => (m.sp.rows, m.sp.cols)) = (3, 1) := by
  have hwf : WFs xyStruct.entries xyStruct.order := by
    refine .mk (by simp [xyStruct, Entry.name]) (by simp [xyStruct, OrderItem.names, Entry.name]) ?_ ?_
    · intro n d q hq
      simp only [xyStruct, List.mem_cons, List.not_mem_nil, or_false, Entry.prim.injEq] at hq
      rcases hq with ⟨_, _, rfl⟩ | ⟨_, _, rfl⟩ <;> exact Sparsity.dense_canon _ _
    · intro n d es o h
      simp [xyStruct] at h
  obtain ⟨c, ls, hc, hs, hb⟩ := ofStruct_built hwf
  have hsz : c.size = 3 := by
    rw [hb.size_eq (by rw [hs]; exact hwf), hs]
    decide +kernel
  obtain ⟨m, h1, h2, _⟩ := C109_shape xyStruct hwf c hc [u, v, w] (by rw [hsz]; rfl) [.str "x"]
    (some ⟨.dense 2 1, false, none, none⟩) (.dense 2 1) (.leaf (.prim (dims := []) (by simp [xyStruct]) .nil)) (by rintro p ⟨⟩; rfl)
  exact ⟨c, m, hc, h1, by rw [h2]; rfl, rfl⟩

/-- A view of a 3 x 2 matrix by a struct with 3 elements has the shape `(3, 2)`. -/
example : ∃ c, CS.ofStruct (oneStruct ⟨.dense 3 1, false, none, none⟩) = .ok c ∧
    ∃ view, c.repeated (⟨.dense 3 2, [1, 2, 3, 4, 5, 6]⟩ : SMat ℤ) = .ok view ∧
      view.getattr (fun m => (m.sp.rows, m.sp.cols)) = (3, 2) := by
  have hw := oneStruct_wf (p := ⟨.dense 3 1, false, none, none⟩) (Sparsity.dense_canon 3 1)
  obtain ⟨c, d, h1, _, h⟩ := C109_views (V := ℤ) (fun m => (m.sp.rows, m.sp.cols)) _ _ hw hw
  obtain ⟨c', h1', h2, hb⟩ := oneStruct_built (p := ⟨.dense 3 1, false, none, none⟩) (Sparsity.dense_canon 3 1)
  rw [h1] at h1'
  cases h1'
  have hsz : c.size = 3 := by
    rw [hb.size_eq (by rw [h2]; exact hw), h2]
    decide +kernel
  obtain ⟨view, h3, h4⟩ := (h ⟨.dense 3 2, [1, 2, 3, 4, 5, 6]⟩ ⟨Sparsity.dense_canon 3 2, rfl⟩).1 (by rw [hsz]; rfl)
  exact ⟨c, h1, view, h3, h4⟩

/-- C109: `s.prefix['x'].shape` is `(17, 1)`, the shape of `s.cat`, although `s['x']` is 2x1. -/
example (c : CS) (hc : CS.ofStruct exStruct = .ok c) (master : List ℤ) (hl : master.length = c.size) :
    ∃ m : SMat ℤ, ((⟨c, master, []⟩ : Obj ℤ).prefix [.str "x"]).call = .ok (.leaf m) ∧ m.sp = .dense 2 1 ∧
      ((⟨c, master, []⟩ : Obj ℤ).prefix [.str "x"]).getattr (fun m => (m.sp.rows, m.sp.cols)) ≠ (m.sp.rows, m.sp.cols) ∧
      ((⟨c, master, []⟩ : Obj ℤ).prefix [.str "x"]).getattr (fun m => (m.sp.rows, m.sp.cols)) = (c.size, 1) := by
  obtain ⟨c', h1, hs, _⟩ := C39_size exStruct exStruct_wf
  rw [hc] at h1
  cases h1
  have hs : c.size = 17 := by rw [hs]; decide
  obtain ⟨m, h2, h3, h4⟩ := C109_shape (V := ℤ) exStruct exStruct_wf c hc master hl [.str "x"] (some ⟨.dense 2 1, false, none, none⟩)
    (.dense 2 1) (.leaf (p := ⟨.dense 2 1, false, none, none⟩) (.prim (dims := []) (by simp [exStruct]) .nil)) (by rintro p ⟨⟩; rfl)
  refine ⟨m, h2, h3, fun h => ?_, ?_⟩
  · have := (h4.1 h).1
    rw [hs] at this
    exact absurd this (by decide)
  · rw [(C109_prefix_partial (fun m : SMat ℤ => (m.sp.rows, m.sp.cols)) (⟨c, master, []⟩ : Obj ℤ) [.str "x"]).1, ← hl]
    rfl

end CE.St
