import Verif.Struct.PropsVeccat

/-! # Storing nested lists of expressions -/

namespace CE.St

section
variable {σ α β γ : Type}

/-- A computation without its result. -/
def M.void (x : M σ α) : M σ Unit := M.bind x fun _ => M.pure ()

theorem M.void_run (x : M σ α) (s : σ) : x.void s = ((x s).1.map fun _ => (), (x s).2) := by
  rw [M.void, bind_pure_run]

theorem M.void_bind_pure (x : M σ α) (f : α → β) : (M.bind x fun r => M.pure (f r)).void = x.void := by
  funext s
  rw [M.void_run, M.void_run, bind_pure_run]
  rcases x s with ⟨r, s'⟩
  cases r <;> rfl

theorem M.void_forEach_cons (a : α) (l : List α) (f : α → M σ β) :
    (M.forEach (a :: l) f).void = M.bind (f a).void fun _ => (M.forEach l f).void := by
  funext s
  rw [M.void_run, M.forEach]
  simp only [M.bind, M.void_run]
  rcases f a s with ⟨r, s'⟩
  cases r with
  | error e => rfl
  | ok b =>
    simp only [Except.map]
    rcases M.forEach l f s' with ⟨r', s''⟩
    cases r' <;> rfl

theorem M.void_forEach_congr (l : List α) (f : α → M σ β) (g : α → M σ γ) (h : ∀ a ∈ l, (f a).void = (g a).void) :
    (M.forEach l f).void = (M.forEach l g).void := by
  induction l with
  | nil => rfl
  | cons a l ih =>
    rw [M.void_forEach_cons, M.void_forEach_cons, h a List.mem_cons_self, ih fun b hb => h b (List.mem_cons_of_mem _ hb)]

theorem M.void_forEach_append (l l' : List α) (f : α → M σ β) :
    (M.forEach (l ++ l') f).void = M.bind (M.forEach l f).void fun _ => (M.forEach l' f).void := by
  induction l with
  | nil => rfl
  | cons a l ih =>
    rw [List.cons_append, M.void_forEach_cons, M.void_forEach_cons, ih]
    funext s
    simp only [M.bind]
    rcases (f a).void s with ⟨r, s'⟩
    cases r <;> rfl

theorem M.void_forEach_flatMap (l : List α) (h : α → List β) (f : β → M σ γ) :
    (M.forEach (l.flatMap h) f).void = (M.forEach l fun a => M.forEach (h a) f).void := by
  induction l with
  | nil => rfl
  | cons a l ih => rw [List.flatMap_cons, M.void_forEach_append, M.void_forEach_cons, ih]

theorem M.forEach_map (l : List α) (h : α → β) (f : β → M σ γ) : M.forEach (l.map h) f = M.forEach l fun a => f (h a) := by
  induction l with
  | nil => rfl
  | cons a l ih => rw [List.map_cons, M.forEach, M.forEach, ih]

end

section
variable {σ V F R : Type}

/-- A payload for an entry with repetitions is handed out to the repetitions, in row-major order. -/
theorem goEntry_dist (d : Disp σ V F R) (leaf : Trav σ V F R) (ds : List ℕ) (inner : Bool) : ∀ (c : CIdx) (pay : Pay V),
    pay.Covers ds → (goEntry d leaf ds [] inner c pay).void =
      (M.forEach (tuples ds) fun is => leaf [] inner (c ++ natKeys is) ((pay.at is).getD .none)).void := by
  induction ds with
  | nil =>
    intro c pay _
    rw [goEntry_nil, tuples, M.void_forEach_cons]
    simp only [natKeys, List.map_nil, List.append_nil, Pay.at, Option.getD_some]
    funext s
    simp only [M.bind, M.void_run]
    rcases leaf [] inner c pay s with ⟨r, s'⟩
    cases r <;> rfl
  | cons n ds ih =>
    intro c pay hc
    rw [goEntry_pending, M.void_bind_pure, tuples, M.void_forEach_flatMap, M.forEach_map]
    apply M.void_forEach_congr
    intro i hi
    rw [List.mem_range] at hi
    obtain ⟨q, hq, hqc⟩ := hc i hi
    rw [payloadUnpack_sub hq, M.forEach_map]
    show (goEntry d leaf (n :: ds) [.int i] inner c q).void = _
    rw [goEntry_int, canonical_nat, ih _ _ hqc]
    apply M.void_forEach_congr
    intro is _
    rw [Pay.at, hq]
    simp [natKeys]

end

/-! ## `MXVeccatStruct` -/

variable {V : Type}

/-- Assignments one after another, up to the first exception. -/
def VObj.setAll (o : VObj V) : List (List (PIdx (PyFn V)) × Pay V) → Except PyErr Unit × VObj V
  | [] => (.ok (), o)
  | (pi, v) :: l => match o.setitem pi v with
    | (.ok _, o') => o'.setAll l
    | (.error e, o') => (.error e, o')

theorem VObj.setAll_append (o : VObj V) (l l' : List (List (PIdx (PyFn V)) × Pay V)) :
    o.setAll (l ++ l') = match o.setAll l with
      | (.ok _, o') => o'.setAll l'
      | (.error e, o') => (.error e, o') := by
  induction l generalizing o with
  | nil => rfl
  | cons w l ih =>
    obtain ⟨pi, v⟩ := w
    rw [List.cons_append, VObj.setAll, VObj.setAll]
    rcases o.setitem pi v with ⟨_ | _, o'⟩
    · rfl
    · exact ih o'

/-- Assigning to an entry assigns to every repetition its part of the payload, in row-major order. -/
theorem VObj.setitem_dist (o : VObj V) (hwf : WFs o.cs.struct.entries o.cs.struct.order) {e : Entry}
    (he : e ∈ o.cs.struct.entries) (pay : Pay V) (hc : pay.Covers e.dims) :
    o.setitem [.str e.name] pay =
      o.setAll ((tuples e.dims).map fun is => ((Key.str e.name :: natKeys is).map .ofKey, (pay.at is).getD .none)) := by
  have hrun : ∀ (st : List (Option (SMat V))) pi (pay : Pay V), (⟨o.cs, st, o.mapping⟩ : VObj V).setitem pi pay =
      (gen ((goStruct (injectDisp o.cs.map o.mapping) o.cs.struct.keys (travTable (injectDisp o.cs.map o.mapping) o.cs.struct.entries)
          pi false [] pay).void st).1,
        ⟨o.cs, ((goStruct (injectDisp o.cs.map o.mapping) o.cs.struct.keys (travTable (injectDisp o.cs.map o.mapping) o.cs.struct.entries)
          pi false [] pay).void st).2, o.mapping⟩) := by
    intro st pi pay
    rw [VObj.setitem, Struct.traverse, M.void_run]
    simp only
    rcases goStruct (injectDisp o.cs.map o.mapping) o.cs.struct.keys (travTable (injectDisp o.cs.map o.mapping) o.cs.struct.entries)
      pi false [] pay st with ⟨r, st'⟩
    cases r <;> rfl
  have hone : ∀ is ∈ tuples e.dims, ∀ (st : List (Option (SMat V))),
      (⟨o.cs, st, o.mapping⟩ : VObj V).setitem ((Key.str e.name :: natKeys is).map .ofKey) ((pay.at is).getD .none) =
      (gen ((Entry.leafTrav (injectDisp (F := PyFn V) o.cs.map o.mapping) e [] false ([.str e.name] ++ natKeys is)
        ((pay.at is).getD .none)).void st).1,
       ⟨o.cs, ((Entry.leafTrav (injectDisp (F := PyFn V) o.cs.map o.mapping) e [] false ([.str e.name] ++ natKeys is)
        ((pay.at is).getD .none)).void st).2, o.mapping⟩) := by
    intro is his st
    have hin : InDims (natKeys is) e.dims := natKeys_inDims (mem_tuples.1 his)
    have h1 := goEntry_ints (injectDisp (F := PyFn V) o.cs.map o.mapping)
      (Entry.leafTrav (injectDisp (F := PyFn V) o.cs.map o.mapping) e) hin [] [] false [.str e.name] ((pay.at is).getD .none)
    rw [List.append_nil, List.append_nil, goEntry_nil] at h1
    have h2 := goStruct_entry (injectDisp (F := PyFn V) o.cs.map o.mapping) o.cs.struct.keys hwf.nodup he
      ((natKeys is).map .ofKey) false [] ((pay.at is).getD .none)
    rw [List.nil_append, h1] at h2
    rw [hrun, List.map_cons, show (PIdx.ofKey (Key.str e.name) : PIdx (PyFn V)) = .str e.name from rfl, h2]
  have hloop : ∀ (l : List (List ℕ)) (_ : ∀ is ∈ l, is ∈ tuples e.dims) (st : List (Option (SMat V))),
      (gen ((M.forEach l fun is => Entry.leafTrav (injectDisp (F := PyFn V) o.cs.map o.mapping) e [] false ([.str e.name] ++ natKeys is)
        ((pay.at is).getD .none)).void st).1,
       (⟨o.cs, ((M.forEach l fun is => Entry.leafTrav (injectDisp (F := PyFn V) o.cs.map o.mapping) e [] false ([.str e.name] ++ natKeys is)
        ((pay.at is).getD .none)).void st).2, o.mapping⟩ : VObj V)) =
      (⟨o.cs, st, o.mapping⟩ : VObj V).setAll (l.map fun is => ((Key.str e.name :: natKeys is).map .ofKey, (pay.at is).getD .none)) := by
    intro l
    induction l with
    | nil => intro _ st; rfl
    | cons is l ih =>
      intro hl st
      rw [M.void_forEach_cons, List.map_cons, VObj.setAll, hone is (hl is List.mem_cons_self) st]
      simp only [M.bind]
      generalize (Entry.leafTrav (injectDisp (F := PyFn V) o.cs.map o.mapping) e [] false ([.str e.name] ++ natKeys is)
        ((pay.at is).getD .none)).void st = x
      obtain ⟨r, st'⟩ := x
      cases r with
      | error x => rfl
      | ok u => exact ih (fun js hjs => hl js (List.mem_cons_of_mem _ hjs)) st'
  have h1 := hrun o.storage [.str e.name] pay
  rw [goStruct_entry _ _ hwf.nodup he, List.nil_append, goEntry_dist _ _ _ _ _ _ hc, hloop _ (fun _ h => h)] at h1
  exact h1

end CE.St
