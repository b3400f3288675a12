import Verif.Struct.Heap
import Verif.Struct.LemInv
import Verif.Struct.PropsProduct

/-! # Lemmas on objects that share data -/

namespace CE.St

variable {V : Type} [Zero V]

/-! ## Writes keep the number of elements -/

theorem setCallOn_inv {σ : Type} {P : σ → Prop} {asg : σ → IMat → SMat V → Except PyErr σ}
    (ha : ∀ s i m s', P s → asg s i m = .ok s' → P s') (map : List (CIdx × IMat)) (pay : Pay V) (c : CIdx)
    (x : Option (List (PIdx (PyFn V)))) (e : Option Prim) : MInv P (setCallOn asg map pay c x e) := by
  intro s hs
  unfold setCallOn
  cases pay.toMat with
  | error => exact hs
  | ok m =>
    simp only
    cases dictGet map c with
    | none => exact hs
    | some idx =>
      simp only
      cases performExtraIndex applyIdx idx e false (x.getD []) with
      | error => exact hs
      | ok i =>
        simp only
        have plain : P (match asg s i m with
            | .error e => ((.error e : Except PyErr Unit), s)
            | .ok master => (.ok (), master)).2 := by
          cases h1 : asg s i m with
          | error => exact hs
          | ok s1 => exact ha _ _ _ _ hs h1
        rcases e with _ | ⟨sp, sy, orig, ss⟩
        · exact plain
        · cases sy with
          | false => exact plain
          | true =>
            simp only
            cases performExtraIndex applyIdx idx (some ⟨sp, true, orig, ss⟩) true (x.getD []) with
            | error => exact hs
            | ok iflip =>
              simp only
              split
              · cases h1 : asg s i m with
                | error => exact hs
                | ok s1 =>
                  have hs1 := ha _ _ _ _ hs h1
                  simp only
                  cases h2 : asg s1 iflip m with
                  | error => exact hs1
                  | ok s2 => exact ha _ _ _ _ hs1 h2
              · cases orig with
                | none => exact hs
                | some osp =>
                  simp only
                  cases performExtraIndex applyIdx ⟨osp, osp.nz.map fun _ => 1⟩ (some ⟨sp, true, some osp, ss⟩) false (x.getD []) with
                  | error => exact hs
                  | ok oi =>
                    simp only
                    split
                    · exact hs
                    · split
                      · exact hs
                      · cases h1 : asg s iflip (m.T.project iflip.sp) with
                        | error => exact hs
                        | ok s1 =>
                          have hs1 := ha _ _ _ _ hs h1
                          simp only
                          split
                          · exact hs1
                          · cases h2 : asg s1 i (m.project i.sp) with
                            | error => exact hs1
                            | ok s2 => exact ha _ _ _ _ hs1 h2

theorem setDispOn_inv {σ : Type} {P : σ → Prop} {asg : σ → IMat → SMat V → Except PyErr σ}
    (ha : ∀ s i m s', P s → asg s i m = .ok s' → P s') (map : List (CIdx × IMat)) :
    DInv P (fun _ => True) (setDispOn asg map) where
  call := by
    intro inner pay c x e _
    simp only [setDispOn]
    split
    · exact MInv.ex _
    · exact (setCallOn_inv ha map pay c x e).bind fun _ => MInv.pure _
  outer := by
    intro inner f pay c r _ s hs
    simp only [setDispOn]
    split
    · exact hs
    · split
      · exact hs
      · split
        · exact hs
        · split
          · exact hs
          · split
            · exact hs
            · next h => exact ha _ _ _ _ hs h

theorem setCall_eq (map : List (CIdx × IMat)) (pay : Pay V) (c : CIdx) (x : Option (List (PIdx (PyFn V)))) (e : Option Prim) :
    setCall map pay c x e = setCallOn assign map pay c x e := by
  funext s
  unfold setCall setCallOn
  cases pay.toMat with
  | error => rfl
  | ok m =>
    simp only
    cases dictGet map c with
    | none => rfl
    | some idx =>
      simp only
      cases performExtraIndex applyIdx idx e false (x.getD []) with
      | error => rfl
      | ok i =>
        simp only
        rcases e with _ | ⟨sp, sy, orig, ss⟩
        · simp only
          cases assign s i m <;> rfl
        · cases sy with
          | false =>
            simp only
            cases assign s i m <;> rfl
          | true =>
            simp only
            cases performExtraIndex applyIdx idx (some ⟨sp, true, orig, ss⟩) true (x.getD []) with
            | error => rfl
            | ok iflip =>
              simp only
              split
              · cases assign s i m with
                | error => rfl
                | ok s1 =>
                  simp only
                  cases assign s1 iflip m <;> rfl
              · cases orig with
                | none => rfl
                | some osp =>
                  simp only
                  cases performExtraIndex applyIdx ⟨osp, osp.nz.map fun _ => 1⟩ (some ⟨sp, true, some osp, ss⟩) false (x.getD []) with
                  | error => rfl
                  | ok oi =>
                    simp only
                    split
                    · rfl
                    · split
                      · rfl
                      · cases assign s iflip (m.T.project iflip.sp) with
                        | error => rfl
                        | ok s1 =>
                          simp only
                          split
                          · rfl
                          · cases assign s1 i (m.project i.sp) <;> rfl

theorem setDisp_eq (map : List (CIdx × IMat)) : setDisp (V := V) map = setDispOn assign map := by
  unfold setDisp setDispOn
  congr 1
  · funext inner pay c x e
    rw [setCall_eq]
  · funext inner f pay c r s
    cases h : Tree.mapM' (fun (x : Option IMat) => match x with
      | some i => Except.ok i
      | none => Except.error PyErr.type) r with
    | error => simp only
    | ok t =>
      simp only
      cases f.onIdx t with
      | error => rfl
      | ok i =>
        simp only
        split
        · rfl
        · cases pay.toMat with
          | error => rfl
          | ok m =>
            simp only
            cases assign s i m <;> rfl

theorem setitemOn_eq {σ : Type} (asg : σ → IMat → SMat V → Except PyErr σ) (c : CS) (pi : List (PIdx (PyFn V))) (v : Pay V)
    (s : σ) : setitemOn asg c pi v s = (((c.struct.traverse (setDispOn asg c.map) pi v s).1).map fun _ => (),
      (c.struct.traverse (setDispOn asg c.map) pi v s).2) := by
  unfold setitemOn
  rcases c.struct.traverse (setDispOn asg c.map) pi v s with ⟨_ | _, _⟩ <;> rfl

theorem Obj.setitem_on (o : Obj V) (pi : List (PIdx (PyFn V))) (v : Pay V) :
    o.setitem pi v = ((setitemOn assign o.cs pi v o.master).1, { o with master := (setitemOn assign o.cs pi v o.master).2 }) := by
  rw [setitemOn_eq, Obj.setitem, setDisp_eq]
  rcases o.cs.struct.traverse (setDispOn assign o.cs.map) pi v o.master with ⟨_ | _, _⟩ <;> rfl

theorem setitemOn_inv {σ : Type} {P : σ → Prop} {asg : σ → IMat → SMat V → Except PyErr σ}
    (ha : ∀ s i m s', P s → asg s i m = .ok s' → P s') (c : CS) (pi : List (PIdx (PyFn V))) (v : Pay V) (s : σ) (hs : P s) :
    P (setitemOn asg c pi v s).2 := by
  rw [setitemOn_eq]
  exact Struct.traverse_inv (Q := fun _ => True) ⟨fun _ _ _ _ _ => trivial, fun _ _ _ _ => trivial⟩ (setDispOn_inv ha c.map) c.struct pi v trivial s hs

theorem Obj.setitem_length (o : Obj V) (pi : List (PIdx (PyFn V))) (v : Pay V) :
    (o.setitem pi v).2.master.length = o.master.length := by
  rw [Obj.setitem_on]
  exact setitemOn_inv (P := fun l : List V => l.length = o.master.length) (fun s i m s' hs h => (assign_length h).trans hs)
    o.cs pi v o.master rfl

/-! ## Writes to a copy and the matrix -/

/-- The two masters do related things. -/
def ARel {σ σ' : Type} (S : σ → σ' → Prop) (asg : σ → IMat → SMat V → Except PyErr σ)
    (asg' : σ' → IMat → SMat V → Except PyErr σ') : Prop :=
  ∀ s s' i m, S s s' → (∃ u u', asg s i m = .ok u ∧ asg' s' i m = .ok u' ∧ S u u') ∨
    ∃ e, asg s i m = .error e ∧ asg' s' i m = .error e

/-- The two masters do related things, for index matrices in `Q`. -/
def ARelOn {σ σ' : Type} (Q : IMat → Prop) (S : σ → σ' → Prop) (asg : σ → IMat → SMat V → Except PyErr σ)
    (asg' : σ' → IMat → SMat V → Except PyErr σ') : Prop :=
  ∀ s s' i m, Q i → S s s' → (∃ u u', asg s i m = .ok u ∧ asg' s' i m = .ok u' ∧ S u u') ∨
    ∃ e, asg s i m = .error e ∧ asg' s' i m = .error e

theorem setCallOn_relOn {σ σ' : Type} {S : σ → σ' → Prop} {asg : σ → IMat → SMat V → Except PyErr σ}
    {asg' : σ' → IMat → SMat V → Except PyErr σ'} {Q : IMat → Prop} (ha : ARelOn Q S asg asg') (map : List (CIdx × IMat)) (pay : Pay V) (c : CIdx)
    (x : Option (List (PIdx (PyFn V)))) (e : Option Prim)
    (hQ : ∀ idx, dictGet map c = some idx → ∀ flip r, performExtraIndex applyIdx idx e flip (x.getD []) = .ok r → Q r) :
    MRel S (fun _ _ => True) (setCallOn asg map pay c x e) (setCallOn asg' map pay c x e) := by
  intro s s' hs
  unfold setCallOn
  cases pay.toMat with
  | error => exact ⟨rfl, hs⟩
  | ok m =>
    simp only
    cases hg : dictGet map c with
    | none => exact ⟨rfl, hs⟩
    | some idx =>
      simp only
      cases hi : performExtraIndex applyIdx idx e false (x.getD []) with
      | error => exact ⟨rfl, hs⟩
      | ok i =>
        simp only
        have plain : RRel S (fun _ _ => True) (match asg s i m with
            | .error e => ((.error e : Except PyErr Unit), s)
            | .ok master => (.ok (), master)) (match asg' s' i m with
            | .error e => ((.error e : Except PyErr Unit), s')
            | .ok master => (.ok (), master)) := by
          rcases ha s s' i m (hQ idx hg _ i hi) hs with ⟨u, u', h1, h2, h3⟩ | ⟨e, h1, h2⟩
          · simp only [h1, h2]; exact ⟨trivial, h3⟩
          · simp only [h1, h2]; exact ⟨rfl, hs⟩
        rcases e with _ | ⟨sp, sy, orig, ss⟩
        · exact plain
        · cases sy with
          | false => exact plain
          | true =>
            simp only
            cases hi' : performExtraIndex applyIdx idx (some ⟨sp, true, orig, ss⟩) true (x.getD []) with
            | error => exact ⟨rfl, hs⟩
            | ok iflip =>
              simp only
              split
              · rcases ha s s' i m (hQ idx hg _ i hi) hs with ⟨u, u', h1, h2, h3⟩ | ⟨e, h1, h2⟩
                · simp only [h1, h2]
                  rcases ha u u' iflip m (hQ idx hg _ iflip hi') h3 with ⟨w, w', h4, h5, h6⟩ | ⟨e, h4, h5⟩
                  · simp only [h4, h5]; exact ⟨trivial, h6⟩
                  · simp only [h4, h5]; exact ⟨rfl, h3⟩
                · simp only [h1, h2]; exact ⟨rfl, hs⟩
              · cases orig with
                | none => exact ⟨rfl, hs⟩
                | some osp =>
                  simp only
                  cases performExtraIndex applyIdx ⟨osp, osp.nz.map fun _ => 1⟩ (some ⟨sp, true, some osp, ss⟩) false (x.getD []) with
                  | error => exact ⟨rfl, hs⟩
                  | ok oi =>
                    simp only
                    split
                    · exact ⟨rfl, hs⟩
                    · split
                      · exact ⟨rfl, hs⟩
                      · rcases ha s s' iflip (m.T.project iflip.sp) (hQ idx hg _ iflip hi') hs with ⟨u, u', h1, h2, h3⟩ | ⟨e, h1, h2⟩
                        · simp only [h1, h2]
                          split
                          · exact ⟨rfl, h3⟩
                          · rcases ha u u' i (m.project i.sp) (hQ idx hg _ i hi) h3 with ⟨w, w', h4, h5, h6⟩ | ⟨e, h4, h5⟩
                            · simp only [h4, h5]; exact ⟨trivial, h6⟩
                            · simp only [h4, h5]; exact ⟨rfl, h3⟩
                        · simp only [h1, h2]; exact ⟨rfl, hs⟩

theorem setCallOn_rel {σ σ' : Type} {S : σ → σ' → Prop} {asg : σ → IMat → SMat V → Except PyErr σ}
    {asg' : σ' → IMat → SMat V → Except PyErr σ'} (ha : ARel S asg asg') (map : List (CIdx × IMat)) (pay : Pay V) (c : CIdx)
    (x : Option (List (PIdx (PyFn V)))) (e : Option Prim) :
    MRel S (fun _ _ => True) (setCallOn asg map pay c x e) (setCallOn asg' map pay c x e) :=
  setCallOn_relOn (Q := fun _ => True) (fun s s' i m _ => ha s s' i m) map pay c x e fun _ _ _ _ _ => trivial

theorem forall₂_eq {α : Type} {l l' : List α} (h : List.Forall₂ (· = ·) l l') : l = l' := by
  induction h with
  | nil => rfl
  | cons h _ ih => rw [h, ih]

theorem setDispOn_rel {σ σ' : Type} {S : σ → σ' → Prop} {asg : σ → IMat → SMat V → Except PyErr σ}
    {asg' : σ' → IMat → SMat V → Except PyErr σ'} (ha : ARel S asg asg') (map : List (CIdx × IMat)) :
    DRel S (· = ·) [] (fun _ => True) (setDispOn asg map) (setDispOn asg' map) (fun _ => True) (fun _ => True) where
  ext _ _ _ := trivial
  list h := by rw [forall₂_eq h]
  dict h := by
    congr 1
    induction h with
    | nil => rfl
    | cons h _ ih => rw [Prod.ext h.1 h.2, ih]
  call := by
    intro inner pay c x e _ _ _
    simp only [setDispOn, List.nil_append]
    split
    · intro s s' hs
      show RRel _ _ ((imCall applyIdx map c x e).map some, s) ((imCall applyIdx map c x e).map some, s')
      cases (imCall applyIdx map c x e).map some with
      | ok a => exact ⟨rfl, hs⟩
      | error e => exact ⟨rfl, hs⟩
    · exact (setCallOn_rel ha map pay c x e).bind fun _ _ _ => MRel.pure rfl
  outer := by
    rintro inner f pay c c' r _ _ rfl s s' hs
    simp only [setDispOn]
    split
    · exact ⟨rfl, hs⟩
    · split
      · exact ⟨rfl, hs⟩
      · next i _ =>
        split
        · exact ⟨rfl, hs⟩
        · split
          · exact ⟨rfl, hs⟩
          · next m _ =>
            rcases ha s s' i m hs with ⟨u, u', h1, h2, h3⟩ | ⟨e, h1, h2⟩
            · simp only [h1, h2]; exact ⟨rfl, h3⟩
            · simp only [h1, h2]; exact ⟨rfl, hs⟩

theorem setitemOn_rel {σ σ' : Type} {S : σ → σ' → Prop} {asg : σ → IMat → SMat V → Except PyErr σ}
    {asg' : σ' → IMat → SMat V → Except PyErr σ'} (ha : ARel S asg asg') (c : CS) (pi : List (PIdx (PyFn V)))
    (v : Pay V) (s : σ) (s' : σ') (hs : S s s') :
    (setitemOn asg c pi v s).1 = (setitemOn asg' c pi v s').1 ∧ S (setitemOn asg c pi v s).2 (setitemOn asg' c pi v s').2 := by
  have h := goStruct_relC (setDispOn_rel ha c.map) c.struct.keys (travTable_rel (setDispOn_rel ha c.map) c.struct.entries (Prims.true _)) pi false
    [] v (.of_mem (C := fun _ => True) (fun _ _ _ => trivial) trivial _) (fun _ _ _ _ => trivial) s s' hs
  rw [List.append_nil] at h
  rw [setitemOn_eq, setitemOn_eq, Struct.traverse_fst, Struct.traverse_fst]
  revert h
  rcases goStruct (setDispOn asg c.map) c.struct.keys (travTable (setDispOn asg c.map) c.struct.entries) pi false [] v s with ⟨r, u⟩
  rcases goStruct (setDispOn asg' c.map) c.struct.keys (travTable (setDispOn asg' c.map) c.struct.entries) pi false [] v s' with ⟨r', u'⟩
  intro h
  cases r with
  | ok a => cases r' with
    | ok b => obtain ⟨rfl, h⟩ := h; exact ⟨rfl, h⟩
    | error e => exact absurd h id
  | error e => cases r' with
    | ok b => exact absurd h id
    | error e' => obtain ⟨rfl, h⟩ := h; exact ⟨rfl, h⟩

/-- A write through an object with a copy `v` of the elements `a` of the matrix: the copy is written as if it were alone, and
the matrix is the copy afterwards, unless nothing has been assigned. -/
theorem copy_write (c : CS) (pi : List (PIdx (PyFn V))) (pay : Pay V) (v a : List V) :
    ∃ v' a', setitemOn copyAssign c pi pay (v, a) = ((setitemOn assign c pi pay v).1, (v', a')) ∧
      v' = (setitemOn assign c pi pay v).2 ∧ (a' = v' ∨ (a' = a ∧ v' = v)) := by
  have ha : ARel (V := V) (fun (s : List V × List V) (l : List V) => s.1 = l ∧ (s.2 = l ∨ (s.2 = a ∧ l = v))) copyAssign assign := by
    rintro ⟨s1, s2⟩ l i m ⟨h1, _⟩
    simp only at h1
    subst h1
    simp only [copyAssign]
    cases assign s1 i m with
    | error e => exact .inr ⟨e, rfl, rfl⟩
    | ok u => exact .inl ⟨_, _, rfl, rfl, rfl, .inl rfl⟩
  obtain ⟨h1, h2, h3⟩ := setitemOn_rel ha c pi pay (v, a) v ⟨rfl, .inr ⟨rfl, rfl⟩⟩
  refine ⟨_, _, Prod.ext h1 rfl, h2, ?_⟩
  rw [h2]
  exact h3

/-! ## Making objects -/

/-- What is known of an object with a `DataReference`. -/
structure RefView (make : SMat V → Except PyErr (Prefixer V)) (m : SMat V) (p : Prefixer V) : Prop where
  dense : m.sp.isDense = true
  data : p.obj.master = m.data
  pre : p.pre = [.str "t"]
  refit : ∀ l, make ⟨m.sp, l⟩ = .ok (p.withData l)

theorem matrixView_flat {s : CS} {m : SMat V} {p : Prefixer V} (h : matrixView s m = .ok p) : RefView (matrixView s) m p := by
  unfold matrixView at h
  by_cases h1 : m.sp.isDense = true
  · rw [if_neg (by simp [h1])] at h
    by_cases h2 : s.size = m.sp.rows * m.sp.cols
    · rw [if_neg (by simp [h2])] at h
      cases h
      refine ⟨h1, rfl, rfl, fun l => ?_⟩
      rw [matrixView, if_neg (by simp [h1]), if_neg (by simp [h2])]
      rfl
    · rw [if_pos h2] at h
      cases h
  · rw [if_pos h1] at h
    cases h

theorem view_bind_flat {x : Except PyErr CS} {m : SMat V} {p : Prefixer V} (h : (x.bind fun s => matrixView s m) = .ok p) :
    RefView (V := V) (fun m => x.bind fun s => matrixView s m) m p := by
  cases x with
  | error => cases h
  | ok s =>
    have h' := matrixView_flat (s := s) (m := m) h
    exact ⟨h'.dense, h'.data, h'.pre, h'.refit⟩

theorem Kind.make_flat {k : Kind} {m : SMat V} {p : Prefixer V} (hk : ∀ c, k ≠ .call c) (hx : k.expands m = false)
    (h : k.make m = .ok p) : RefView k.make m p := by
  cases k with
  | call c => exact absurd rfl (hk c)
  | squared c =>
    have h3 : ∀ l b, (if m.sp.rows = 1 ∧ m.sp.cols = 1 ∧ c.size ≠ 1 then b else (⟨m.sp, l⟩ : SMat V)) = ⟨m.sp, l⟩ := fun l b =>
      if_neg (by simpa [Kind.expands] using hx)
    have e : ∀ l : List V, Kind.make (.squared c) ⟨m.sp, l⟩ = if ¬ (m.sp.cols = m.sp.rows ∧ m.sp.rows = c.size) then .error .generic
        else (viewStruct (V := V) c c none).bind fun s => matrixView s ⟨m.sp, l⟩ := by
      intro l
      show c.squared _ = _
      rw [CS.squared]
      simp only [h3]
    have e0 : Kind.make (.squared c) m = _ := e m.data
    rw [e0] at h
    by_cases h1 : m.sp.cols = m.sp.rows ∧ m.sp.rows = c.size
    · rw [if_neg (by simpa using h1)] at h
      have h' := view_bind_flat h
      refine ⟨h'.dense, h'.data, h'.pre, fun l => ?_⟩
      rw [e l, if_neg (by simpa using h1)]
      exact h'.refit l
    · rw [if_pos h1] at h
      cases h
  | product c d =>
    have h3 : ∀ l b, (if m.sp.rows = 1 ∧ m.sp.cols = 1 ∧ c.size ≠ 1 then b else (⟨m.sp, l⟩ : SMat V)) = ⟨m.sp, l⟩ := fun l b =>
      if_neg (by simpa [Kind.expands] using hx)
    have e : ∀ l : List V, Kind.make (.product c d) ⟨m.sp, l⟩ = if ¬ (m.sp.cols = d.size ∧ m.sp.rows = c.size) then .error .generic
        else (viewStruct (V := V) c d none).bind fun s => matrixView s ⟨m.sp, l⟩ := by
      intro l
      show c.product d _ = _
      rw [CS.product]
      simp only [h3]
    have e0 : Kind.make (.product c d) m = _ := e m.data
    rw [e0] at h
    by_cases h1 : m.sp.cols = d.size ∧ m.sp.rows = c.size
    · rw [if_neg (by simpa using h1)] at h
      have h' := view_bind_flat h
      refine ⟨h'.dense, h'.data, h'.pre, fun l => ?_⟩
      rw [e l, if_neg (by simpa using h1)]
      exact h'.refit l
    · rw [if_pos h1] at h
      cases h
  | repeated c =>
    have e : ∀ l : List V, Kind.make (.repeated c) ⟨m.sp, l⟩ = if m.sp.rows ≠ c.size then .error .generic
        else (CS.ofStruct ⟨[.nested "t" [m.sp.cols] c.struct.entries c.struct.order], [.one "t"]⟩).bind fun s =>
          matrixView s ⟨m.sp, l⟩ := fun l => rfl
    have e0 : Kind.make (.repeated c) m = _ := e m.data
    rw [e0] at h
    by_cases h1 : m.sp.rows = c.size
    · rw [if_neg (by simpa using h1)] at h
      have h' := view_bind_flat h
      refine ⟨h'.dense, h'.data, h'.pre, fun l => ?_⟩
      rw [e l, if_neg (by simpa using h1)]
      exact h'.refit l
    · rw [if_pos h1] at h
      cases h
  | squaredRepeated c =>
    have e : ∀ l : List V, Kind.make (.squaredRepeated c) ⟨m.sp, l⟩ = if m.sp.rows ≠ c.size then .error .generic
        else if c.size = 0 then .error .zeroDiv
        else if m.sp.cols % c.size ≠ 0 then .error .generic
        else (viewStruct (V := V) c c (some [m.sp.cols / c.size])).bind fun s => matrixView s ⟨m.sp, l⟩ := fun l => rfl
    have e0 : Kind.make (.squaredRepeated c) m = _ := e m.data
    rw [e0] at h
    by_cases h1 : m.sp.rows = c.size
    · rw [if_neg (by simpa using h1)] at h
      by_cases h2 : c.size = 0
      · rw [if_pos h2] at h
        cases h
      · rw [if_neg h2] at h
        by_cases h3 : m.sp.cols % c.size = 0
        · rw [if_neg (by simpa using h3)] at h
          have h' := view_bind_flat h
          refine ⟨h'.dense, h'.data, h'.pre, fun l => ?_⟩
          rw [e l, if_neg (by simpa using h1), if_neg h2, if_neg (by simpa using h3)]
          exact h'.refit l
        · rw [if_pos h3] at h
          cases h
    · rw [if_pos h1] at h
      cases h

/-- The object for the matrix is the given one with the elements of the matrix. -/
structure Ready (k : Kind) (m : SMat V) (p : Prefixer V) : Prop where
  make : k.make m = .ok (p.withData (k.values m))
  same : k.expands m = false
  length : (k.values m).length = m.sp.rows * m.sp.cols
  pre : k.copies = true → p.pre = [.str "t"]
  dense : k.copies = true → m.sp.isDense = true

theorem Kind.expands_sp (k : Kind) {m m' : SMat V} (hr : m'.sp.rows = m.sp.rows) (hc : m'.sp.cols = m.sp.cols) :
    k.expands m' = k.expands m := by
  cases k <;> simp [Kind.expands, hr, hc]

omit [Zero V] in
theorem Prefixer.withData_self (p : Prefixer V) {l : List V} (h : p.obj.master = l) : p.withData l = p := by
  subst h; rfl

omit [Zero V] in
theorem dense_length {m : SMat V} (hw : m.WF) (hd : m.sp.isDense = true) : m.data.length = m.sp.rows * m.sp.cols := by
  rw [hw.2]
  simpa [Sparsity.isDense] using hd

theorem callDM_mat (c : CS) (m : SMat V) : callDM 0 c (.mat m) = if m.sp.rows = 1 ∧ m.sp.cols = 1 ∧ c.size ≠ 1 then
    newMatrixStruct c ⟨.dense c.size 1, List.replicate c.size (m.at' (0, 0))⟩ else newMatrixStruct c m := rfl

theorem callDM_same {c : CS} {m : SMat V} (hx : Kind.expands (.call c) m = false) : callDM 0 c (.mat m) = newMatrixStruct c m := by
  rw [callDM_mat, if_neg (by simpa [Kind.expands] using hx)]

theorem newMatrixStruct_inv {c : CS} {m : SMat V} {o : Obj V} (h : newMatrixStruct c m = .ok o) :
    m.sp.rows = c.size ∧ (m.sp.cols = 1 ∨ m.sp.rows = 0) ∧ o = ⟨c, m.toColumn, []⟩ := by
  unfold newMatrixStruct at h
  by_cases h1 : m.sp.rows = c.size
  · rw [if_neg (by simpa using h1)] at h
    by_cases h2 : m.sp.cols ≠ 1 ∧ m.sp.rows > 0
    · rw [if_pos h2] at h
      cases h
    · rw [if_neg h2] at h
      cases h
      exact ⟨h1, by omega, rfl⟩
  · rw [if_pos h1] at h
    cases h

/-- A new object that refers to its argument. -/
theorem Ready.of_make {k : Kind} {m : SMat V} {p : Prefixer V} (hw : m.WF) (hx : k.expands m = false) (h : k.make m = .ok p) :
    Ready k m p ∧ p.withData (k.values m) = p := by
  by_cases hk : ∃ c, k = .call c
  · obtain ⟨c, rfl⟩ := hk
    have h' := h
    rw [Kind.make, callDM_same hx] at h'
    cases hn : newMatrixStruct c m with
    | error e => rw [hn] at h'; cases h'
    | ok o =>
      rw [hn] at h'
      obtain ⟨h1, h2, rfl⟩ := newMatrixStruct_inv hn
      cases h'
      refine ⟨⟨h, hx, ?_, (fun h => by cases h), (fun h => by cases h)⟩, rfl⟩
      simp only [Kind.values, SMat.toColumn, List.length_map, List.length_range]
      rcases h2 with h2 | h2
      · rw [h2, Nat.mul_one]
      · rw [h2, Nat.zero_mul]
  · have hk : ∀ c, k ≠ .call c := fun c h => hk ⟨c, h⟩
    have hv : k.values m = m.data := by
      cases k with
      | call c => exact absurd rfl (hk c)
      | _ => rfl
    have hf := Kind.make_flat hk hx h
    rw [hv, Prefixer.withData_self _ hf.data]
    refine ⟨⟨?_, hx, ?_, fun _ => hf.pre, fun _ => hf.dense⟩, rfl⟩
    · rw [hv, Prefixer.withData_self _ hf.data]
      exact h
    · rw [hv]
      exact dense_length hw hf.dense

/-- Other elements in the matrix. -/
theorem Ready.refit {k : Kind} {m m' : SMat V} {p : Prefixer V} (h : Ready k m p) (hw : m.WF) (hw' : m'.WF)
    (hs : m'.sp = m.sp ∨ m'.sp = .dense m.sp.rows m.sp.cols) : Ready k m' p := by
  have hr : m'.sp.rows = m.sp.rows := by rcases hs with hs | hs <;> rw [hs]; rfl
  have hc : m'.sp.cols = m.sp.cols := by rcases hs with hs | hs <;> rw [hs]; rfl
  have hx' : k.expands m' = false := by rw [k.expands_sp hr hc, h.same]
  suffices hm : k.make m' = .ok (p.withData (k.values m')) by
    refine ⟨hm, hx', ?_, h.pre, ?_⟩
    · exact (Ready.of_make hw' hx' hm).1.length
    · exact (Ready.of_make hw' hx' hm).1.dense
  by_cases hk : ∃ c, k = .call c
  · obtain ⟨c, rfl⟩ := hk
    have h0 := h.make
    rw [Kind.make, callDM_same h.same] at h0
    rw [Kind.make, callDM_same hx']
    cases hn : newMatrixStruct c m with
    | error e => rw [hn] at h0; cases h0
    | ok o =>
      rw [hn] at h0
      obtain ⟨h1, h2, rfl⟩ := newMatrixStruct_inv hn
      have hn' : newMatrixStruct c m' = .ok ⟨c, m'.toColumn, []⟩ := by
        rw [newMatrixStruct, if_neg (by omega), if_neg (by omega)]
      rw [hn']
      have h3 : p.withData m.toColumn = { obj := ⟨c, m.toColumn, []⟩, pre := [], castmaster := true } := by
        injection h0 with h0
        exact h0.symm
      have h4 : p.withData m'.toColumn = (p.withData m.toColumn).withData m'.toColumn := rfl
      show _ = Except.ok (p.withData m'.toColumn)
      rw [h4, h3]
      rfl
  · have hk : ∀ c, k ≠ .call c := fun c h => hk ⟨c, h⟩
    have hv : ∀ m : SMat V, k.values m = m.data := by
      intro m
      cases k with
      | call c => exact absurd rfl (hk c)
      | _ => rfl
    have hf := Kind.make_flat hk h.same h.make
    have hsp : m'.sp = m.sp := by
      rcases hs with hs | hs
      · exact hs
      · rw [hs]; exact (hw.1.eq_dense hf.dense).symm
    have := hf.refit m'.data
    rw [← hsp] at this
    rw [hv m']
    exact this

/-- A scalar that is replaced by a new matrix. -/
theorem Ready.of_expand {k : Kind} {m : SMat V} {p : Prefixer V} (hx : k.expands m = true) (h : k.make m = .ok p) :
    (k.expand m).WF ∧ Ready k (k.expand m) p ∧ k.copies = false := by
  have ones : ∀ a b, (onesTimes a b m).WF ∧ (onesTimes a b m).sp.rows = a ∧ (onesTimes a b m).sp.cols = b := by
    intro a b
    unfold onesTimes
    split
    · exact ⟨⟨Sparsity.dense_canon _ _, by simp [SMat.fill]⟩, rfl, rfl⟩
    · exact ⟨⟨List.nil_sublist _, rfl⟩, rfl, rfl⟩
  cases k with
  | call c =>
    have hx' : m.sp.rows = 1 ∧ m.sp.cols = 1 ∧ c.size ≠ 1 := by simpa [Kind.expands] using hx
    have hw : (Kind.expand (.call c) m).WF := ⟨Sparsity.dense_canon _ _, by
      simp [Kind.expand, Sparsity.dense, Sparsity.positions_length]⟩
    have hn : Kind.expands (.call c) (Kind.expand (.call c) m) = false := by
      simp [Kind.expands, Kind.expand, Sparsity.dense]
    have hm : Kind.make (.call c) (Kind.expand (.call c) m) = .ok p := by
      rw [← h, Kind.make, callDM_same hn, Kind.make, callDM_mat, if_pos hx']
      rfl
    exact ⟨hw, (Ready.of_make hw hn hm).1, rfl⟩
  | squared c =>
    have hx' : m.sp.rows = 1 ∧ m.sp.cols = 1 ∧ c.size ≠ 1 := by simpa [Kind.expands] using hx
    obtain ⟨hw, hr, hc⟩ := ones c.size c.size
    have hn : Kind.expands (.squared c) (Kind.expand (.squared c) m) = false := by
      simp only [Kind.expands, Kind.expand, hr, hc]
      simp
      try omega
    have hm : Kind.make (.squared c) (Kind.expand (.squared c) m) = .ok p := by
      rw [← h]
      show c.squared (onesTimes c.size c.size m) = c.squared m
      rw [CS.squared, CS.squared]
      simp only [if_pos hx', if_neg (show ¬ ((onesTimes c.size c.size m).sp.rows = 1 ∧ (onesTimes c.size c.size m).sp.cols = 1 ∧
        c.size ≠ 1) by omega)]
    exact ⟨hw, (Ready.of_make hw hn hm).1, rfl⟩
  | product c d =>
    have hx' : m.sp.rows = 1 ∧ m.sp.cols = 1 ∧ c.size ≠ 1 := by simpa [Kind.expands] using hx
    obtain ⟨hw, hr, hc⟩ := ones c.size d.size
    have hn : Kind.expands (.product c d) (Kind.expand (.product c d) m) = false := by
      simp only [Kind.expands, Kind.expand, hr, hc]
      simp
      try omega
    have hm : Kind.make (.product c d) (Kind.expand (.product c d) m) = .ok p := by
      rw [← h]
      show c.product d (onesTimes c.size d.size m) = c.product d m
      rw [CS.product, CS.product]
      simp only [if_pos hx', if_neg (show ¬ ((onesTimes c.size d.size m).sp.rows = 1 ∧ (onesTimes c.size d.size m).sp.cols = 1 ∧
        c.size ≠ 1) by omega)]
    exact ⟨hw, (Ready.of_make hw hn hm).1, rfl⟩
  | repeated c => cases hx
  | squaredRepeated c => cases hx

/-! ## The invariant of the heap -/

/-- Matrices are well formed; every object refers to a matrix that it could have been made from. -/
structure Heap.Good (st : Heap V) : Prop where
  mats : ∀ m ∈ st.mats, m.WF
  views : ∀ w ∈ st.views, ∃ m, st.mats[w.mat]? = some m ∧ Ready w.kind m w.view ∧
    (w.kind.copies = false → w.own = none) ∧ (w.kind.copies = true → ∃ v, w.own = some v ∧ v.length = m.data.length)

/-- The matrices that a program creates are well formed. -/
def Op.Ok : Op V → Prop
  | .alloc m => m.WF
  | _ => True

theorem Heap.Good.set {st : Heap V} (h : st.Good) {r : ℕ} {m m' : SMat V} (hm : st.mats[r]? = some m) (hw : m'.WF)
    (hs : m'.sp = m.sp ∨ m'.sp = .dense m.sp.rows m.sp.cols) : (⟨st.mats.set r m', st.views⟩ : Heap V).Good := by
  refine ⟨?_, ?_⟩
  · intro x hx
    rcases List.mem_or_eq_of_mem_set hx with hx | rfl
    · exact h.mats x hx
    · exact hw
  · intro w hv
    obtain ⟨a, h1, h2, h3, h4⟩ := h.views w hv
    by_cases e : w.mat = r
    · rw [e, hm] at h1
      cases h1
      have hlt := (List.getElem?_eq_some_iff.1 hm).1
      refine ⟨m', by rw [e]; simp [hlt], h2.refit (h.mats m (List.mem_of_getElem? hm)) hw hs, h3, fun hk => ?_⟩
      obtain ⟨v, h5, h6⟩ := h4 hk
      refine ⟨v, h5, ?_⟩
      have hd := h2.dense hk
      have hd' := (h2.refit (h.mats m (List.mem_of_getElem? hm)) hw hs).dense hk
      rw [h6, dense_length (h.mats m (List.mem_of_getElem? hm)) hd, dense_length hw hd']
      rcases hs with hs | hs <;> rw [hs]; rfl
    · exact ⟨a, by rw [List.getElem?_set_ne (Ne.symm e)]; exact h1, h2, h3, h4⟩

theorem Heap.Good.append {st : Heap V} (h : st.Good) {m : SMat V} (hw : m.WF) : (⟨st.mats ++ [m], st.views⟩ : Heap V).Good := by
  refine ⟨?_, ?_⟩
  · intro x hx
    rcases List.mem_append.1 hx with hx | hx
    · exact h.mats x hx
    · rw [List.mem_singleton.1 hx]; exact hw
  · intro w hv
    obtain ⟨a, h1, h2⟩ := h.views w hv
    refine ⟨a, ?_, h2⟩
    rw [List.getElem?_append_left (List.getElem?_eq_some_iff.1 h1).1]
    exact h1

theorem Heap.Good.view {st : Heap V} (h : st.Good) {w : HView V} (hw : ∃ m, st.mats[w.mat]? = some m ∧ Ready w.kind m w.view ∧
    (w.kind.copies = false → w.own = none) ∧ (w.kind.copies = true → ∃ v, w.own = some v ∧ v.length = m.data.length)) :
    (⟨st.mats, st.views ++ [w]⟩ : Heap V).Good := by
  refine ⟨h.mats, ?_⟩
  intro x hx
  rcases List.mem_append.1 hx with hx | hx
  · exact h.views x hx
  · rw [List.mem_singleton.1 hx]; exact hw

theorem dense_wf {r c : ℕ} {l : List V} (h : l.length = r * c) : (⟨.dense r c, l⟩ : SMat V).WF :=
  ⟨Sparsity.dense_canon _ _, by simp only [h, Sparsity.dense, Sparsity.positions_length]⟩

theorem copyAssign_length {n : ℕ} (s : List V × List V) (i : IMat) (m : SMat V) (s' : List V × List V)
    (hs : s.1.length = n ∧ s.2.length = n) (h : copyAssign s i m = .ok s') : s'.1.length = n ∧ s'.2.length = n := by
  unfold copyAssign at h
  cases ha : assign s.1 i m with
  | error e => rw [ha] at h; cases h
  | ok l =>
    rw [ha] at h
    cases h
    have := assign_length ha
    exact ⟨this.trans hs.1, this.trans hs.1⟩

theorem Heap.Good.step {st : Heap V} (h : st.Good) {o : Op V} (ho : o.Ok) : (st.step o).2.Good := by
  cases o with
  | alloc m => exact h.append ho
  | new k r =>
    show (st.new k r).2.Good
    unfold Heap.new
    cases hm : st.mats[r]? with
    | none => exact h
    | some m =>
      simp only
      cases hp : k.make m with
      | error e => exact h
      | ok p =>
        simp only
        have hw := h.mats m (List.mem_of_getElem? hm)
        cases hx : k.expands m with
        | true =>
          rw [if_pos rfl]
          obtain ⟨h1, h2, h3⟩ := Ready.of_expand hx hp
          exact (h.append h1).view ⟨k.expand m, by simp, h2, fun _ => rfl, fun h => by rw [h3] at h; cases h⟩
        | false =>
          rw [if_neg (by simp)]
          refine h.view ⟨m, hm, (Ready.of_make hw hx hp).1, fun h => by simp [h], fun h => ⟨m.data, by simp [h], rfl⟩⟩
  | write i q v =>
    show (st.write i q v).2.Good
    unfold Heap.write
    cases hv : st.views[i]? with
    | none => exact h
    | some w =>
      simp only
      have hwm := List.mem_of_getElem? hv
      obtain ⟨m, hm, h2, h3, h4⟩ := h.views w hwm
      have hmw := h.mats m (List.mem_of_getElem? hm)
      rw [hm]
      simp only
      cases ho : w.own with
      | none =>
        simp only
        refine h.set hm (dense_wf ?_) (.inr rfl)
        show ((w.view.withData (w.kind.values m)).obj.setitem _ v).2.master.length = _
        rw [Obj.setitem_length]
        exact h2.length
      | some own =>
        simp only
        have hk : w.kind.copies = true := by
          by_contra hk
          rw [h3 (by simpa using hk)] at ho
          cases ho
        obtain ⟨own', h5, h6⟩ := h4 hk
        rw [ho] at h5
        cases h5
        obtain ⟨l1, l2⟩ := setitemOn_inv (P := fun s : List V × List V => s.1.length = m.data.length ∧ s.2.length = m.data.length)
          (fun s i m s' => copyAssign_length s i m s') w.view.obj.cs (w.view.pre ++ q) v (own, m.data) ⟨h6, rfl⟩
        have hset := h.set (m' := ⟨m.sp, (setitemOn copyAssign w.view.obj.cs (w.view.pre ++ q) v (own, m.data)).2.2⟩) hm
          ⟨hmw.1, l2.trans hmw.2⟩ (.inl rfl)
        refine ⟨hset.mats, ?_⟩
        intro x hx
        rcases List.mem_or_eq_of_mem_set hx with hx | rfl
        · exact hset.views x hx
        · obtain ⟨m1, g1, g2, g3, g4⟩ := hset.views w hwm
          refine ⟨m1, g1, g2, (fun h => by simp only [hk] at h; cases h), fun _ => ⟨_, rfl, ?_⟩⟩
          have hlt := (List.getElem?_eq_some_iff.1 hm).1
          simp only [List.getElem?_set_self hlt] at g1
          cases g1
          exact l1.trans l2.symm
  | poke r k x =>
    simp only [Heap.step]
    cases hm : st.mats[r]? with
    | none => exact h
    | some m =>
      have hw := h.mats m (List.mem_of_getElem? hm)
      exact h.set hm ⟨hw.1, by simp only [List.length_set]; exact hw.2⟩ (.inl rfl)
  | copy r =>
    simp only [Heap.step]
    cases hm : st.mats[r]? with
    | none => exact h
    | some m => exact h.append (h.mats m (List.mem_of_getElem? hm))

theorem Heap.Good.run {st : Heap V} (h : st.Good) {os : List (Op V)} (ho : ∀ o ∈ os, o.Ok) : (st.run os).Good := by
  induction os generalizing st with
  | nil => exact h
  | cons o os ih =>
    rw [Heap.run]
    exact ih (h.step (ho o List.mem_cons_self)) fun o' h' => ho o' (List.mem_cons_of_mem _ h')

theorem Heap.Good.empty : (⟨[], []⟩ : Heap V).Good := ⟨by simp, by simp⟩

end CE.St
