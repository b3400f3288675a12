import Verif.Struct.LemSim

/-! # Moving index matrices -/

namespace CE.St

/-- Apply a function to the nonzeros. -/
def SMat.mapData {α β : Type} (g : α → β) (m : SMat α) : SMat β := ⟨m.sp, m.data.map g⟩

/-- Apply a function to the leaves of a nested result. -/
def Tree.map' {α β : Type} (g : α → β) : Tree α → Tree β
  | .leaf a => .leaf (g a)
  | .list l => .list (goList l)
  | .dict l => .dict (goDict l)
where
  goList : List (Tree α) → List (Tree β)
    | [] => []
    | t :: l => Tree.map' g t :: goList l
  goDict : List (String × Tree α) → List (String × Tree β)
    | [] => []
    | (k, t) :: l => (k, Tree.map' g t) :: goDict l

/-- All leaves satisfy a predicate. -/
def Tree.All {α : Type} (P : α → Prop) : Tree α → Prop
  | .leaf a => P a
  | .list l => goList l
  | .dict l => goDict l
where
  goList : List (Tree α) → Prop
    | [] => True
    | t :: l => Tree.All P t ∧ goList l
  goDict : List (String × Tree α) → Prop
    | [] => True
    | (_, t) :: l => Tree.All P t ∧ goDict l

/-- A callable that, applied to index matrices, only rearranges them: it commutes with every renaming of the positions. -/
def PyFn.Rearranges {V : Type} (f : PyFn V) : Prop :=
  ∀ (g : ℕ → ℕ) (t : Tree IMat), f.onIdx (t.map' (SMat.mapData g)) = (f.onIdx t).map (SMat.mapData g)

theorem SMat.mapData_eq_self {i : IMat} {g : ℕ → ℕ} (h : ∀ k ∈ i.data, g k = k) : i.mapData g = i := by
  rw [SMat.mapData]
  congr 1
  conv_rhs => rw [← List.map_id i.data]
  exact List.map_congr_left h

theorem SMat.fixed_of_mapData {i : IMat} {g : ℕ → ℕ} (h : i.mapData g = i) : ∀ k ∈ i.data, g k = k := by
  have h1 : i.data.map g = i.data := congrArg SMat.data h
  conv_rhs at h1 => rw [← List.map_id i.data]
  intro k hk
  exact List.map_inj_left.1 h1 k hk

mutual
theorem Tree.map'_eq_self {α : Type} {P : α → Prop} {g : α → α} (h : ∀ a, P a → g a = a) :
    ∀ t : Tree α, t.All P → t.map' g = t
  | .leaf a, ha => by rw [Tree.map', h a ha]
  | .list l, hl => by rw [Tree.map', Tree.map'_goList_eq_self h l hl]
  | .dict l, hl => by rw [Tree.map', Tree.map'_goDict_eq_self h l hl]
theorem Tree.map'_goList_eq_self {α : Type} {P : α → Prop} {g : α → α} (h : ∀ a, P a → g a = a) :
    ∀ l : List (Tree α), Tree.All.goList P l → Tree.map'.goList g l = l
  | [], _ => rfl
  | t :: l, hl => by rw [Tree.map'.goList, Tree.map'_eq_self h t hl.1, Tree.map'_goList_eq_self h l hl.2]
theorem Tree.map'_goDict_eq_self {α : Type} {P : α → Prop} {g : α → α} (h : ∀ a, P a → g a = a) :
    ∀ l : List (String × Tree α), Tree.All.goDict P l → Tree.map'.goDict g l = l
  | [], _ => rfl
  | (k, t) :: l, hl => by rw [Tree.map'.goDict, Tree.map'_eq_self h t hl.1, Tree.map'_goDict_eq_self h l hl.2]
end

/-- A rearranging callable invents no positions. -/
theorem PyFn.Rearranges.mem {V : Type} {f : PyFn V} (hf : f.Rearranges) {P : ℕ → Prop} {t : Tree IMat}
    (ht : t.All fun i => ∀ k ∈ i.data, P k) {r : IMat} (hr : f.onIdx t = .ok r) : ∀ k ∈ r.data, P k := by
  classical
  have h := hf (fun k => if P k then k else k + 1) t
  rw [Tree.map'_eq_self (P := fun i : IMat => ∀ k ∈ i.data, P k) (fun i hi => SMat.mapData_eq_self fun k hk => if_pos (hi k hk))
    t ht, hr] at h
  have h1 : r = r.mapData _ := Except.ok.inj h
  intro k hk
  have h2 := SMat.fixed_of_mapData h1.symm k hk
  by_contra hP
  simp only [if_neg hP] at h2
  omega

theorem lookup_zip_map {α β γ : Type} [BEq α] (l : List α) (d : List β) (g : β → γ) (p : α) :
    (l.zip (d.map g)).lookup p = ((l.zip d).lookup p).map g := by
  induction l generalizing d with
  | nil => rfl
  | cons a l ih => cases d with
    | nil => rfl
    | cons b d =>
      rw [List.map_cons, List.zip_cons_cons, List.zip_cons_cons, List.lookup_cons, List.lookup_cons]
      cases p == a
      · exact ih d
      · rfl

theorem SMat.nzAt_mapData {α β : Type} (g : α → β) (m : SMat α) (p : ℕ × ℕ) : (m.mapData g).nzAt p = (m.nzAt p).map g :=
  lookup_zip_map _ _ _ _

theorem subMat_mapData (g : ℕ → ℕ) (i : IMat) (r c : ℕ) (f : ℕ × ℕ → ℕ × ℕ) :
    subMat (i.mapData g) r c f = (subMat i r c f).mapData g := by
  have key : ∀ l : List (ℕ × ℕ), (l.filterMap fun p => ((i.mapData g).nzAt (f p)).map fun v => (p, v)) =
      (l.filterMap fun p => (i.nzAt (f p)).map fun v => (p, v)).map fun x => (x.1, g x.2) := by
    intro l
    induction l with
    | nil => rfl
    | cons p l ih =>
      rw [List.filterMap_cons, List.filterMap_cons, ih, SMat.nzAt_mapData]
      cases i.nzAt (f p) <;> rfl
  have h2 := key (Sparsity.positions r c)
  simp only [subMat]
  rw [h2, List.map_map, List.map_map]
  conv_rhs => rw [SMat.mapData]
  rw [List.map_map]
  rfl

theorem partMat_mapData (g : ℕ → ℕ) (i : IMat) (r c : ℕ) (f : ℕ × ℕ → Option (ℕ × ℕ)) :
    partMat (i.mapData g) r c f = (partMat i r c f).mapData g := by
  have key : ∀ l : List (ℕ × ℕ), (l.filterMap fun p => ((f p).bind (i.mapData g).nzAt).map fun v => (p, v)) =
      (l.filterMap fun p => ((f p).bind i.nzAt).map fun v => (p, v)).map fun x => (x.1, g x.2) := by
    intro l
    induction l with
    | nil => rfl
    | cons p l ih =>
      rw [List.filterMap_cons, List.filterMap_cons, ih]
      cases f p with
      | none => rfl
      | some q =>
        simp only [Option.bind_some, SMat.nzAt_mapData]
        cases i.nzAt q <;> rfl
  have h2 := key (Sparsity.positions r c)
  simp only [partMat]
  rw [h2, List.map_map, List.map_map]
  conv_rhs => rw [SMat.mapData]
  rw [List.map_map]
  rfl

section
variable {F : Type}

theorem getMat_mapData (g : ℕ → ℕ) (i : IMat) (m : SMat ℤ) : getMat (i.mapData g) m = (getMat i m).map (SMat.mapData g) := by
  rw [getMat, getMat]
  show Except.bind (normIdx (i.sp.rows * i.sp.cols) m.data) _ = _
  cases h : normIdx (i.sp.rows * i.sp.cols) m.data with
  | error e => rfl
  | ok l => exact congrArg Except.ok (partMat_mapData g i _ _ _)

theorem getSel_mapData (g : ℕ → ℕ) (i : IMat) (a : PIdx F) : getSel (i.mapData g) a = (getSel i a).map (SMat.mapData g) := by
  rw [getSel, getSel]
  show Except.bind (selIdx (i.sp.rows * i.sp.cols) a) _ = _
  cases h : selIdx (i.sp.rows * i.sp.cols) a with
  | error e => rfl
  | ok l =>
    show (if i.sp.rows = 1 then pure (subMat (i.mapData g) 1 l.length _)
      else pure (subMat (i.mapData g) l.length 1 _)) = Except.map _ (if i.sp.rows = 1 then _ else _)
    split
    · rw [subMat_mapData]; rfl
    · rw [subMat_mapData]; rfl

theorem getLin_mapData (g : ℕ → ℕ) (i : IMat) (a : PIdx F) : getLin (i.mapData g) a = (getLin i a).map (SMat.mapData g) := by
  cases a with
  | mat m => exact getMat_mapData g i m
  | _ => exact getSel_mapData g i _

theorem getRC_mapData (g : ℕ → ℕ) (i : IMat) (a b : PIdx F) :
    getRC (i.mapData g) a b = (getRC i a b).map (SMat.mapData g) := by
  rw [getRC, getRC]
  show Except.bind (selIdx i.sp.rows a) _ = _
  cases selIdx i.sp.rows a with
  | error e => rfl
  | ok la =>
    show Except.bind (selIdx i.sp.cols b) _ = Except.map _ (Except.bind (selIdx i.sp.cols b) _)
    cases selIdx i.sp.cols b with
    | error e => rfl
    | ok lb =>
      show Except.ok (subMat (i.mapData g) _ _ _) = _
      rw [subMat_mapData]; rfl

/-- Extra indexing commutes with renaming positions. -/
theorem performExtraIndex_mapData (onIdx : F → Tree IMat → Except PyErr IMat) (OK : F → Prop) (g : ℕ → ℕ)
    (hOK : ∀ f, OK f → ∀ t : Tree IMat, onIdx f (t.map' (SMat.mapData g)) = (onIdx f t).map (SMat.mapData g))
    (i : IMat) (entry : Option Prim) (flip : Bool) : ∀ x : List (PIdx F), Fns OK x →
    performExtraIndex onIdx (i.mapData g) entry flip x = (performExtraIndex onIdx i entry flip x).map (SMat.mapData g) := by
  intro x
  fun_induction performExtraIndex onIdx i entry flip x with
  | case1 => intro _; rw [performExtraIndex]; rfl
  | case2 f rest ih =>
    intro hf
    rw [performExtraIndex, ih hf.tail]
    cases performExtraIndex onIdx i entry flip rest with
    | error e => rfl
    | ok r => exact hOK f hf.head (.leaf r)
  | case3 => intro _; rw [performExtraIndex]; rfl
  | case4 a h1 h2 =>
    intro _
    rw [performExtraIndex]
    · cases delegation a entry 0 with
      | error e => rfl
      | ok a => exact getLin_mapData g i a
    · exact h1
    · exact h2
  | case5 a b h1 h2 =>
    intro _
    rw [performExtraIndex]
    · cases delegation a entry 0 with
      | error e => rfl
      | ok a =>
        simp only [Except.bind]
        cases delegation b entry 1 with
        | error e => rfl
        | ok b =>
          cases flip
          · exact getRC_mapData g i a b
          · exact getRC_mapData g i b a
    · exact h1
    · exact h2
  | case6 => 
    intro _
    rw [performExtraIndex] <;> first | rfl | assumption

end
end CE.St
