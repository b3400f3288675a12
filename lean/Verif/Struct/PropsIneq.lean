import Verif.Struct.Ineq
import Verif.Struct.PropsExpr

/-! # Inequalities (C35, C36, C37) -/

namespace CE.St

variable {E K : Type}

/-! ## Specification -/

/-- What `DM(...)` or a struct given as a bound is. -/
inductive Converts : BArg K → BObj K → Prop
  | pay {p m} : IsValue p m → Converts (.pay p) (.dm m)
  | st (o) : Converts (.st o) (.st o)

/-- The number is not below the lower bound. -/
def Ext.Below [LE K] : Ext K → K → Prop
  | .ninf, _ => True
  | .fin b, k => b ≤ k
  | .pinf, _ => False
  | .nan, _ => False

/-- The number is not above the upper bound. -/
def Ext.Above [LE K] : Ext K → K → Prop
  | .ninf, _ => False
  | .fin b, k => k ≤ b
  | .pinf, _ => True
  | .nan, _ => False

/-- The matrix of the expression. -/
def Ineq.mx (i : Ineq E K) : SMat E :=
  match i.expr.toMX with
  | .ok m => m
  | .error _ => ⟨.dense 0 0, []⟩

/-- The inequality at one position, for the values `ev` of the expressions. -/
def Ineq.SatAt [Zero E] [Zero K] [LE K] (i : Ineq E K) (ev : E → K) (p : ℕ × ℕ) : Prop :=
  (i.lb.toDM.at' p).Below (ev (i.mx.at' p)) ∧ (i.ub.toDM.at' p).Above (ev (i.mx.at' p))

/-- The inequality holds at all positions. -/
def Ineq.Sat [Zero E] [Zero K] [LE K] (i : Ineq E K) (ev : E → K) : Prop :=
  ∀ r < i.mx.sp.rows, ∀ c < i.mx.sp.cols, i.SatAt ev (r, c)

/-- A bound with as many data as its shape says. -/
def BObj.WF : BObj K → Prop
  | .dm m => m.WF
  | .st o => o.master.length = o.cs.size

/-- A complete inequality: the expression can be read, and everything has its shape. -/
structure Ineq.Part (i : Ineq E K) : Prop where
  expr : i.expr.toMX = .ok i.mx
  wf : i.mx.WF
  shape : i.expr.shape = (i.mx.sp.rows, i.mx.sp.cols)
  numel : i.expr.numel = i.mx.sp.rows * i.mx.sp.cols
  lb : i.lb.WF ∧ i.lb.shape = (i.mx.sp.rows, i.mx.sp.cols)
  ub : i.ub.WF ∧ i.ub.shape = (i.mx.sp.rows, i.mx.sp.cols)
  nominal : ∀ n, i.nominal = some n → n.WF ∧ n.shape = (i.mx.sp.rows, i.mx.sp.cols)

/-! ## The constructor -/

theorem convert_iff {a : BArg K} {b : BObj K} : a.convert = .ok b ↔ Converts a b := by
  constructor
  · intro h
    cases a with
    | st o => cases h; exact .st o
    | pay p =>
      rw [BArg.convert] at h
      cases hp : p.toMat with
      | error e => rw [hp] at h; cases h
      | ok m => rw [hp] at h; cases h; exact .pay (toMat_iff.1 hp)
  · intro h
    cases h with
    | pay h => rw [BArg.convert, toMat_iff.2 h]; rfl
    | st o => rfl

/-- `a` has the given shape, if it is not omitted. -/
def ArgShape (a : Option (BArg K)) (shape : ℕ × ℕ) : Prop := ∀ x, a = some x → ∃ b, Converts x b ∧ b.shape = shape

theorem boundOr_ok {default : SMat (Ext K)} {a : Option (BArg K)} {b : BObj K} :
    boundOr default a = .ok b ↔ (a = none ∧ b = .dm default) ∨ ∃ x, a = some x ∧ Converts x b := by
  cases a with
  | none => simp [boundOr, eq_comm]
  | some x => simp [boundOr, convert_iff]

theorem nominalOr_ok {shape : ℕ × ℕ} {a : Option (BArg K)} {b : Option (BObj K)} :
    nominalOr shape a = .ok b ↔ (a = none ∧ b = none) ∨ ∃ x n, a = some x ∧ b = some n ∧ Converts x n ∧ n.shape = shape := by
  cases a with
  | none => simp [nominalOr, eq_comm]
  | some x =>
    simp only [nominalOr, reduceCtorEq, false_and, false_or]
    cases h : x.convert with
    | error e =>
      simp only [reduceCtorEq, false_iff]
      rintro ⟨x', n, h1, _, h2, _⟩
      cases h1
      rw [convert_iff.2 h2] at h
      cases h
    | ok n =>
      simp only
      constructor
      · intro h'
        split at h'
        · cases h'
          exact ⟨x, n, rfl, rfl, convert_iff.1 h, ‹_›⟩
        · cases h'
      · rintro ⟨x', n', h1, rfl, h2, h3⟩
        cases h1
        rw [convert_iff.2 h2] at h
        cases h
        rw [if_pos h3]

theorem newIneq_ok [Neg K] {expr : ExprObj E} {lb ub nominal : Option (BArg K)} {i : Ineq E K} :
    newIneq expr lb ub nominal = .ok i ↔ i.expr = expr ∧ boundOr (dmInf expr.shape).neg lb = .ok i.lb ∧
      boundOr (dmInf expr.shape) ub = .ok i.ub ∧ i.lb.shape = expr.shape ∧ i.ub.shape = expr.shape ∧
      nominalOr expr.shape nominal = .ok i.nominal := by
  unfold newIneq
  cases h1 : boundOr (dmInf expr.shape).neg lb with
  | error e => simp [bind, Except.bind]
  | ok l =>
    cases h2 : boundOr (dmInf expr.shape) ub with
    | error e => simp [bind, Except.bind]
    | ok u =>
      simp only [bind, Except.bind, Except.ok.injEq]
      split
      · rename_i hs
        cases h3 : nominalOr expr.shape nominal with
        | error e => simp [Except.map]
        | ok n =>
          obtain ⟨a, b, c, d⟩ := i
          simp only [Except.map, Except.ok.injEq, Ineq.mk.injEq]
          constructor
          · rintro ⟨rfl, rfl, rfl, rfl⟩
            exact ⟨rfl, rfl, rfl, hs.1, hs.2, rfl⟩
          · rintro ⟨rfl, rfl, rfl, _, _, rfl⟩
            exact ⟨rfl, rfl, rfl, rfl⟩
      · rename_i hs
        simp only [reduceCtorEq, false_iff]
        rintro ⟨_, rfl, rfl, h3, h4, _⟩
        exact hs ⟨h3, h4⟩

/-- **C35** (when the constructor succeeds): exactly if every supplied argument is a `DMStruct` or something that CasADi converts
to a matrix, and has the shape of the expression. -/
theorem C35_succeeds [Neg K] (expr : ExprObj E) (lb ub nominal : Option (BArg K)) :
    (∃ i, newIneq expr lb ub nominal = .ok i) ↔
      ArgShape lb expr.shape ∧ ArgShape ub expr.shape ∧ ArgShape nominal expr.shape := by
  constructor
  · rintro ⟨i, hi⟩
    obtain ⟨_, h1, h2, h3, h4, h5⟩ := newIneq_ok.1 hi
    refine ⟨?_, ?_, ?_⟩
    · rintro x rfl
      rcases boundOr_ok.1 h1 with ⟨h, _⟩ | ⟨y, h, hc⟩
      · cases h
      · cases h; exact ⟨_, hc, h3⟩
    · rintro x rfl
      rcases boundOr_ok.1 h2 with ⟨h, _⟩ | ⟨y, h, hc⟩
      · cases h
      · cases h; exact ⟨_, hc, h4⟩
    · rintro x rfl
      rcases nominalOr_ok.1 h5 with ⟨h, _⟩ | ⟨y, n, h, _, hc, hs⟩
      · cases h
      · cases h; exact ⟨_, hc, hs⟩
  · rintro ⟨h1, h2, h3⟩
    have hb : ∀ (a : Option (BArg K)) (d : SMat (Ext K)), (d.sp.rows, d.sp.cols) = expr.shape → ArgShape a expr.shape →
        ∃ b, boundOr d a = .ok b ∧ b.shape = expr.shape := by
      intro a d hd ha
      cases a with
      | none => exact ⟨_, rfl, hd⟩
      | some x =>
        obtain ⟨b, hb, hs⟩ := ha x rfl
        exact ⟨b, boundOr_ok.2 (.inr ⟨x, rfl, hb⟩), hs⟩
    obtain ⟨l, hl, hls⟩ := hb lb (dmInf expr.shape).neg rfl h1
    obtain ⟨u, hu, hus⟩ := hb ub (dmInf expr.shape) rfl h2
    have : ∃ n, nominalOr expr.shape nominal = .ok n := by
      cases nominal with
      | none => exact ⟨none, rfl⟩
      | some x =>
        obtain ⟨b, hb, hs⟩ := h3 x rfl
        exact ⟨some b, nominalOr_ok.2 (.inr ⟨x, b, rfl, rfl, hb, hs⟩)⟩
    obtain ⟨n, hn⟩ := this
    exact ⟨⟨expr, l, u, n⟩, newIneq_ok.2 ⟨rfl, hl, hu, hls, hus, hn⟩⟩

/-- **C35** (result): expression and supplied values are kept, all have the shape of the expression, and omitted bounds are -inf
and +inf at every position. -/
theorem C35_result [Zero K] [Neg K] (expr : ExprObj E) (lb ub nominal : Option (BArg K)) (i : Ineq E K)
    (h : newIneq expr lb ub nominal = .ok i) :
    i.expr = expr ∧ i.lb.shape = expr.shape ∧ i.ub.shape = expr.shape ∧ (∀ n, i.nominal = some n → n.shape = expr.shape) ∧
    (∀ x, lb = some x → Converts x i.lb) ∧ (∀ x, ub = some x → Converts x i.ub) ∧
    (∀ x, nominal = some x → ∃ n, i.nominal = some n ∧ Converts x n) ∧ (nominal = none → i.nominal = none) ∧
    (lb = none → ∀ r < expr.shape.1, ∀ c < expr.shape.2, i.lb.toDM.at' (r, c) = .ninf) ∧
    (ub = none → ∀ r < expr.shape.1, ∀ c < expr.shape.2, i.ub.toDM.at' (r, c) = .pinf) := by
  obtain ⟨h0, h1, h2, h3, h4, h5⟩ := newIneq_ok.1 h
  have hin : ∀ r < expr.shape.1, ∀ c < expr.shape.2, (r, c) ∈ (Sparsity.dense expr.shape.1 expr.shape.2).nz := by
    intro r hr c hc
    exact Sparsity.mem_positions.2 ⟨hr, hc⟩
  refine ⟨h0, h3, h4, ?_, ?_, ?_, ?_, ?_, ?_, ?_⟩
  · intro n hn
    rcases nominalOr_ok.1 h5 with ⟨_, h⟩ | ⟨y, n', h, hn', hc, hs⟩
    · rw [hn] at h; cases h
    · rw [hn] at hn'; cases hn'; exact hs
  · rintro x rfl
    rcases boundOr_ok.1 h1 with ⟨h, _⟩ | ⟨y, h, hc⟩
    · cases h
    · cases h; exact hc
  · rintro x rfl
    rcases boundOr_ok.1 h2 with ⟨h, _⟩ | ⟨y, h, hc⟩
    · cases h
    · cases h; exact hc
  · rintro x rfl
    rcases nominalOr_ok.1 h5 with ⟨h, _⟩ | ⟨y, n, h, hn, hc, hs⟩
    · cases h
    · cases h; exact ⟨n, hn, hc⟩
  · rintro rfl
    exact (Except.ok.inj h5).symm
  · rintro rfl r hr c hc
    rw [← Except.ok.inj h1]
    have : (dmInf expr.shape : SMat (Ext K)).neg = .fill (.dense expr.shape.1 expr.shape.2) fun _ => .ninf := by
      simp only [SMat.neg, dmInf, SMat.fill, List.map_map]
      rfl
    show SMat.at' (SMat.neg _) _ = _
    rw [this, SMat.fill_at' (Sparsity.dense_canon _ _), if_pos (hin r hr c hc)]
  · rintro rfl r hr c hc
    rw [← Except.ok.inj h2]
    show SMat.at' (dmInf _) _ = _
    rw [dmInf, SMat.fill_at' (Sparsity.dense_canon _ _), if_pos (hin r hr c hc)]

/-- An argument with as many data as its shape says. -/
def BArg.WF : BArg K → Prop
  | .pay p => ∀ m, IsValue p m → m.WF
  | .st o => o.master.length = o.cs.size

theorem Converts.wf {a : BArg K} {b : BObj K} (h : Converts a b) (hw : a.WF) : b.WF := by
  cases h with
  | pay h => exact hw _ h
  | st => exact hw

/-- An inequality for a matrix is complete. -/
theorem newIneq_part [Neg K] {m : SMat E} {lb ub nominal : Option (BArg K)} {i : Ineq E K}
    (h : newIneq (.mx m) lb ub nominal = .ok i) (hm : m.WF) (hl : ∀ x, lb = some x → x.WF) (hu : ∀ x, ub = some x → x.WF)
    (hn : ∀ x, nominal = some x → x.WF) : i.Part ∧ i.mx = m := by
  obtain ⟨h0, h1, h2, h3, h4, h5⟩ := newIneq_ok.1 h
  have hmx : i.mx = m := by rw [Ineq.mx, h0]; rfl
  refine ⟨⟨?_, ?_, ?_, ?_, ⟨?_, ?_⟩, ⟨?_, ?_⟩, ?_⟩, hmx⟩
  · rw [h0, hmx]; rfl
  · rw [hmx]; exact hm
  · rw [hmx, h0]; rfl
  · rw [hmx, h0]; rfl
  · rcases boundOr_ok.1 h1 with ⟨_, hb⟩ | ⟨x, hx, hc⟩
    · rw [hb]
      refine ⟨Sparsity.dense_canon _ _, ?_⟩
      simp [SMat.neg, dmInf, SMat.fill]
    · exact hc.wf (hl x hx)
  · rw [h3, hmx]; rfl
  · rcases boundOr_ok.1 h2 with ⟨_, hb⟩ | ⟨x, hx, hc⟩
    · rw [hb]
      exact SMat.fill_WF (Sparsity.dense_canon _ _) _
    · exact hc.wf (hu x hx)
  · rw [h4, hmx]; rfl
  · intro n hn'
    rw [hmx]
    rcases nominalOr_ok.1 h5 with ⟨_, h⟩ | ⟨x, n', hx, hn'', hc, hs⟩
    · rw [hn'] at h; cases h
    · rw [hn'] at hn''
      cases hn''
      exact ⟨hc.wf (hn x hx), hs⟩

/-- **C35** (omitted bounds): an inequality without bounds holds for all values; with one bound omitted only the other one
counts. -/
theorem C35_free [Zero E] [Zero K] [Neg K] [LE K] (m : SMat E) (lb ub nominal : Option (BArg K)) (i : Ineq E K)
    (h : newIneq (.mx m) lb ub nominal = .ok i) (ev : E → K) :
    (lb = none → ∀ r < m.sp.rows, ∀ c < m.sp.cols, (i.lb.toDM.at' (r, c)).Below (ev (m.at' (r, c)))) ∧
    (ub = none → ∀ r < m.sp.rows, ∀ c < m.sp.cols, (i.ub.toDM.at' (r, c)).Above (ev (m.at' (r, c)))) ∧
    (lb = none → ub = none → i.Sat ev) := by
  obtain ⟨h0, _, _, _, _, _, _, _, h1, h2⟩ := C35_result _ _ _ _ _ h
  have hmx : i.mx = m := by rw [Ineq.mx, h0]; rfl
  have a1 : lb = none → ∀ r < m.sp.rows, ∀ c < m.sp.cols, (i.lb.toDM.at' (r, c)).Below (ev (m.at' (r, c))) := by
    intro hl r hr c hc
    rw [h1 hl r hr c hc]
    trivial
  have a2 : ub = none → ∀ r < m.sp.rows, ∀ c < m.sp.cols, (i.ub.toDM.at' (r, c)).Above (ev (m.at' (r, c))) := by
    intro hl r hr c hc
    rw [h2 hl r hr c hc]
    trivial
  refine ⟨a1, a2, ?_⟩
  intro hl hu r hr c hc
  rw [Ineq.SatAt, hmx]
  rw [hmx] at hr hc
  exact ⟨a1 hl r hr c hc, a2 hu r hr c hc⟩

/-- **C35** (`Inequality()`): without arguments the inequality has no elements, is a 0x1 column like its bounds, has no nominal value and
holds for all values. -/
theorem C35_empty [Zero E] [Zero K] [Neg K] [LE K] : ∃ i : Ineq E K, emptyIneq = .ok i ∧ i.expr.shape = (0, 1) ∧ i.lb.shape = (0, 1) ∧
    i.ub.shape = (0, 1) ∧ i.nominal = none ∧ i.numel = 0 ∧ ∀ ev : E → K, i.Sat ev :=
  ⟨_, rfl, rfl, rfl, rfl, rfl, rfl, fun _ r hr => absurd hr (Nat.not_lt_zero r)⟩

/-- **C35** (`BoundedVariable`): it succeeds exactly if the supplied bounds have the shape of the nominal value; the expression is
then a dense matrix of new symbols of that shape. -/
theorem C35_bounded [Neg K] (fresh : ℕ × ℕ → E) (lb ub : Option (BArg K)) (nominal : BObj K) :
    ((∃ i, boundedVariable fresh lb ub nominal = .ok i) ↔ ArgShape lb nominal.shape ∧ ArgShape ub nominal.shape) ∧
    ∀ i, boundedVariable fresh lb ub nominal = .ok i →
      i.nominal = some nominal ∧ i.mx = .fill (.dense nominal.shape.1 nominal.shape.2) fresh := by
  have hsh : (ExprObj.mx (.fill (.dense nominal.shape.1 nominal.shape.2) fresh)).shape = nominal.shape := rfl
  have hconv : Converts nominal.arg nominal := by
    cases nominal with
    | dm m => exact .pay (.mat m)
    | st o => exact .st o
  constructor
  · unfold boundedVariable
    rw [C35_succeeds, hsh]
    constructor
    · exact fun h => ⟨h.1, h.2.1⟩
    · refine fun h => ⟨h.1, h.2, ?_⟩
      rintro x hx
      cases hx
      exact ⟨nominal, hconv, rfl⟩
  · intro i hi
    obtain ⟨h0, _, _, _, _, h5⟩ := newIneq_ok.1 hi
    refine ⟨?_, by rw [Ineq.mx, h0]; rfl⟩
    rcases nominalOr_ok.1 h5 with ⟨h, _⟩ | ⟨x, n, hx, hn, hc, _⟩
    · cases h
    · cases hx
      rw [hn]
      have e := convert_iff.2 hc
      rw [convert_iff.2 hconv] at e
      cases e
      rfl

/-! ## `vertcat` -/

theorem mapM_error {α β : Type} {f : α → Except PyErr β} {l : List α} {a : α} (ha : a ∈ l) {e : PyErr} (h : f a = .error e) :
    ∃ e', l.mapM f = .error e' := by
  induction l with
  | nil => cases ha
  | cons b l ih =>
    rw [List.mapM_cons]
    cases hb : f b with
    | error e' => exact ⟨e', rfl⟩
    | ok x =>
      rcases List.mem_cons.1 ha with rfl | ha'
      · rw [h] at hb; cases hb
      · obtain ⟨e', he⟩ := ih ha'
        rw [he]
        exact ⟨e', rfl⟩

/-- **C37**: a list with an inequality without nominal value cannot be concatenated. -/
theorem C37_list [Neg K] (l : List (Ineq E K)) (i : Ineq E K) (hi : i ∈ l) (hn : i.nominal = none) :
    ∃ e, vertcatList l = .error e := by
  obtain ⟨e, he⟩ := mapM_error (f := nominalDM) hi (by rw [nominalDM, hn])
  unfold vertcatList
  simp only [bind, Except.bind]
  split
  · exact ⟨_, rfl⟩
  · split
    · exact ⟨_, rfl⟩
    · split
      · exact ⟨_, rfl⟩
      · split
        · exact ⟨_, rfl⟩
        · rw [he]
          exact ⟨_, rfl⟩

theorem filterMap_lookup {α β : Type} [BEq α] [LawfulBEq α] [DecidableEq α] (L : List α) (f : α → Option β) (p : α) :
    (L.filterMap fun p => (f p).map fun v => (p, v)).lookup p = if p ∈ L then f p else none := by
  induction L with
  | nil => rfl
  | cons a L ih =>
    rw [List.filterMap_cons]
    by_cases h : p = a
    · subst h
      rw [if_pos List.mem_cons_self]
      cases hf : f p with
      | none =>
        simp only [Option.map_none]
        rw [ih, hf]
        simp
      | some v =>
        simp only [Option.map_some]
        rw [List.lookup_cons]
        simp
    · have hm : (p ∈ a :: L) ↔ p ∈ L := by simp [h]
      simp only [hm]
      cases hf : f a with
      | none => exact ih
      | some v =>
        simp only [Option.map_some]
        rw [List.lookup_cons]
        have : (p == a) = false := by simpa using h
        rw [this]
        exact ih

theorem zip_fst_snd {α β : Type} (l : List (α × β)) : (l.map (·.1)).zip (l.map (·.2)) = l := by
  induction l with
  | nil => rfl
  | cons a l ih => simp [ih]

/-- `cs.vertcat` of matrices with the same positive number of columns. -/
theorem vcat_ok {V : Type} {l : List (SMat V)} (hl : l ≠ []) {c : ℕ} (hc : 0 < c) (h : ∀ m ∈ l, m.sp.cols = c) :
    ∃ M, vcat l = .ok M ∧ M.WF ∧ M.sp.rows = (l.map fun m => m.sp.rows).sum ∧ M.sp.cols = c ∧
      ∀ i < M.sp.rows, ∀ j < c, M.nzAt (i, j) = nzStack l i j := by
  have hf : (l.filter fun m => !m.isVoid) = l := by
    rw [List.filter_eq_self]
    intro m hm
    have := h m hm
    simp [SMat.isVoid]
    omega
  cases l with
  | nil => exact absurd rfl hl
  | cons m ms =>
    have hm := h m List.mem_cons_self
    have hall : (ms.all fun x => x.sp.cols = m.sp.cols) = true := by
      rw [List.all_eq_true]
      intro x hx
      simp [h x (List.mem_cons_of_mem _ hx), hm]
    unfold vcat
    rw [if_neg (by simp), hf]
    simp only [hall, if_true]
    refine ⟨_, rfl, ⟨?_, ?_⟩, rfl, hm, ?_⟩
    · show List.Sublist _ (Sparsity.positions _ _)
      simp only [List.map_filterMap]
      generalize Sparsity.positions _ _ = L
      induction L with
      | nil => exact List.Sublist.refl _
      | cons a L ih =>
        rw [List.filterMap_cons]
        split
        · exact ih.cons a
        · rename_i b hb
          have : b = a := by
            cases hz : nzStack (m :: ms) a.1 a.2 with
            | none => rw [hz] at hb; cases hb
            | some v => rw [hz] at hb; cases hb; rfl
          rw [this]
          exact ih.cons_cons a
    · simp
    · intro i hi j hj
      show List.lookup _ (List.zip (List.map _ _) (List.map _ _)) = _
      rw [zip_fst_snd, filterMap_lookup, if_pos]
      exact Sparsity.mem_positions.2 ⟨hi, by rw [hm]; exact hj⟩

theorem nzStack_at {α V : Type} {g : α → SMat V} {h : α → ℕ} :
    ∀ {A B : List α} {x : α} {a b : ℕ}, (∀ y ∈ A ++ x :: B, (g y).sp.rows = h y) → a < h x →
      nzStack ((A ++ x :: B).map g) ((A.map h).sum + a) b = (g x).nzAt (a, b)
  | [], B, x, a, b, hr, ha => by
    rw [List.nil_append, List.map_cons, nzStack, if_pos]
    · simp
    · rw [hr x (by simp)]
      simpa using ha
  | y :: A, B, x, a, b, hr, ha => by
    rw [List.cons_append, List.map_cons, nzStack, if_neg, hr y (by simp), List.map_cons, List.sum_cons]
    · rw [show h y + (A.map h).sum + a - h y = (A.map h).sum + a by omega]
      exact nzStack_at (fun z hz => hr z (List.mem_cons_of_mem _ hz)) ha
    · rw [hr y (by simp), List.map_cons, List.sum_cons]
      omega

/-- A row of a stack is a row of one of the parts. -/
theorem row_split {α : Type} {h : α → ℕ} : ∀ {l : List α} {i : ℕ}, i < (l.map h).sum →
    ∃ A x B a, l = A ++ x :: B ∧ a < h x ∧ i = (A.map h).sum + a
  | [], i, hi => by simp at hi
  | x :: l, i, hi => by
    rw [List.map_cons, List.sum_cons] at hi
    by_cases hx : i < h x
    · exact ⟨[], x, l, i, rfl, hx, by simp⟩
    · obtain ⟨A, y, B, a, rfl, ha, he⟩ := row_split (h := h) (l := l) (i := i - h x) (by omega)
      refine ⟨x :: A, y, B, a, rfl, ha, ?_⟩
      rw [List.map_cons, List.sum_cons]
      omega

theorem row_bound {α : Type} {h : α → ℕ} {A B : List α} {x : α} {a : ℕ} (ha : a < h x) :
    (A.map h).sum + a < ((A ++ x :: B).map h).sum := by
  rw [List.map_append, List.sum_append, List.map_cons, List.sum_cons]
  omega

theorem mapM_ok {α β : Type} {f : α → Except PyErr β} {g : α → β} {l : List α} (h : ∀ a ∈ l, f a = .ok (g a)) :
    l.mapM f = .ok (l.map g) := by
  induction l with
  | nil => rfl
  | cons a l ih =>
    rw [List.mapM_cons, h a List.mem_cons_self, ih fun b hb => h b (List.mem_cons_of_mem _ hb)]
    rfl

/-- The matrix of the nominal values. -/
def Ineq.nom (i : Ineq E K) : SMat (Ext K) :=
  match i.nominal with
  | some n => n.toDM
  | none => ⟨.dense 0 0, []⟩

theorem BObj.toDM_wf {b : BObj K} (h : b.WF) : b.toDM.WF ∧ (b.toDM.sp.rows, b.toDM.sp.cols) = b.shape := by
  cases b with
  | dm m => exact ⟨h, rfl⟩
  | st o =>
    refine ⟨⟨Sparsity.dense_canon _ _, ?_⟩, ?_⟩
    · show o.master.length = (Sparsity.positions o.master.length 1).length
      rw [Sparsity.positions_length, Nat.mul_one]
    · show (o.master.length, 1) = (o.cs.size, 1)
      rw [h]

theorem sum_mul {α : Type} (l : List α) (f : α → ℕ) (c : ℕ) : (l.map f).sum * c = (l.map fun x => f x * c).sum := by
  induction l with
  | nil => simp
  | cons a l ih => rw [List.map_cons, List.map_cons, List.sum_cons, List.sum_cons, ← ih, Nat.add_mul]

/-- The rows of the parts before part `k` of a list. -/
def rowsBefore (A : List (Ineq E K)) : ℕ := (A.map fun i => i.mx.sp.rows).sum

/-- **C36** (list, different numbers of columns): inequalities whose expressions have different numbers of columns, not counting
0x0 expressions, cannot be concatenated. -/
theorem C36_columns [Neg K] (l : List (Ineq E K)) (hp : ∀ i ∈ l, i.Part) (i j : Ineq E K) (hi : i ∈ l) (hj : j ∈ l)
    (hi0 : ¬ (i.mx.sp.rows = 0 ∧ i.mx.sp.cols = 0)) (hj0 : ¬ (j.mx.sp.rows = 0 ∧ j.mx.sp.cols = 0))
    (hij : i.mx.sp.cols ≠ j.mx.sp.cols) : vertcatList l = .error .runtime := by
  have h1 : l.mapM (fun a => a.expr.toMX) = .ok (l.map Ineq.mx) := except_mapM_ok _ _ _ fun a ha => (hp a ha).expr
  have hmem : ∀ a ∈ l, ¬ (a.mx.sp.rows = 0 ∧ a.mx.sp.cols = 0) → a.mx ∈ (l.map Ineq.mx).filter fun m => !m.isVoid := by
    intro a ha h0
    refine List.mem_filter.2 ⟨List.mem_map.2 ⟨a, ha, rfl⟩, ?_⟩
    simp only [SMat.isVoid, h0, decide_false, Bool.not_false]
  have h2 : vcat (l.map Ineq.mx) = .error .runtime := by
    have mi := hmem i hi hi0
    have mj := hmem j hj hj0
    unfold vcat
    rw [if_neg (by cases l with | nil => cases hi | cons => simp)]
    generalize (l.map Ineq.mx).filter (fun m => !m.isVoid) = f at mi mj
    cases f with
    | nil => cases mi
    | cons m ms =>
      simp only
      rw [if_neg]
      intro hall
      rw [List.all_eq_true] at hall
      have hcols : ∀ x ∈ m :: ms, x.sp.cols = m.sp.cols := by
        intro x hx
        rcases List.mem_cons.1 hx with rfl | hx
        · rfl
        · simpa using hall x hx
      exact hij ((hcols _ mi).trans (hcols _ mj).symm)
  unfold vertcatList
  rw [h1]
  show Except.bind (vcat (l.map Ineq.mx)) _ = _
  rw [h2]
  rfl

/-- **C36** (list of 0x0 inequalities): the result is 0x0. -/
theorem C36_void [Neg K] (l : List (Ineq E K)) (hl : l ≠ []) (hp : ∀ i ∈ l, i.Part) (hn : ∀ i ∈ l, i.nominal ≠ none)
    (h0 : ∀ i ∈ l, i.mx.sp.rows = 0 ∧ i.mx.sp.cols = 0) :
    ∃ r, vertcatList l = .ok r ∧ r.expr.shape = (0, 0) ∧ r.lb.shape = (0, 0) ∧ r.ub.shape = (0, 0) ∧ r.numel = 0 := by
  have hv : ∀ {V : Type} (g : Ineq E K → SMat V), (∀ i ∈ l, ((g i).sp.rows, (g i).sp.cols) = (0, 0)) →
      vcat (l.map g) = .ok ⟨.dense 0 0, []⟩ := by
    intro V g hg
    unfold vcat
    rw [if_neg (by cases l with | nil => exact absurd rfl hl | cons => simp)]
    have : (l.map g).filter (fun m => !m.isVoid) = [] := by
      rw [List.filter_eq_nil_iff]
      intro m hm
      obtain ⟨i, hi, rfl⟩ := List.mem_map.1 hm
      have := hg i hi
      rw [Prod.mk.injEq] at this
      simp [SMat.isVoid, this]
    rw [this]
  have e : ∀ i ∈ l, (i.mx.sp.rows, i.mx.sp.cols) = (0, 0) := fun i hi => Prod.ext (h0 i hi).1 (h0 i hi).2
  have h1 : l.mapM (fun a => a.expr.toMX) = .ok (l.map Ineq.mx) := mapM_ok fun a ha => (hp a ha).expr
  have h2 : l.mapM nominalDM = .ok (l.map Ineq.nom) := mapM_ok fun a ha => by
    unfold nominalDM Ineq.nom
    cases h : a.nominal with
    | none => exact absurd h (hn a ha)
    | some n => rfl
  have h3 := hv Ineq.nom fun i hi => by
    unfold Ineq.nom
    cases h : i.nominal with
    | none => rfl
    | some n => exact ((BObj.toDM_wf ((hp i hi).nominal n h).1).2.trans ((hp i hi).nominal n h).2).trans (e i hi)
  refine ⟨⟨.mx ⟨.dense 0 0, []⟩, .dm ⟨.dense 0 0, []⟩, .dm ⟨.dense 0 0, []⟩, some (.dm ⟨.dense 0 0, []⟩)⟩, ?_, rfl, rfl, rfl, rfl⟩
  unfold vertcatList
  rw [h1, h2]
  simp only [bind, Except.bind]
  rw [hv Ineq.mx e, hv (fun a => a.lb.toDM) fun i hi => ((BObj.toDM_wf (hp i hi).lb.1).2.trans (hp i hi).lb.2).trans (e i hi),
    hv (fun a => a.ub.toDM) fun i hi => ((BObj.toDM_wf (hp i hi).ub.1).2.trans (hp i hi).ub.2).trans (e i hi), h3]
  rfl

/-- **C36** (list): a non-empty list of complete inequalities with nominal values and the same positive number of columns can be
concatenated; the parts of the result are the given inequalities (expression, bounds and nominal value), one below the other, and
it holds exactly if all the given inequalities hold. -/
theorem C36_list [Zero E] [Zero K] [Neg K] [LE K] (l : List (Ineq E K)) (hl : l ≠ []) (hp : ∀ i ∈ l, i.Part)
    (hn : ∀ i ∈ l, i.nominal ≠ none) (c : ℕ) (hc0 : 0 < c) (hc : ∀ i ∈ l, i.mx.sp.cols = c) :
    ∃ r, vertcatList l = .ok r ∧ r.Part ∧ r.nominal ≠ none ∧ r.mx.sp.rows = rowsBefore l ∧ r.mx.sp.cols = c ∧
      r.numel = (l.map Ineq.numel).sum ∧
      (∀ A i B, l = A ++ i :: B → ∀ a < i.mx.sp.rows, ∀ b < c,
        r.mx.at' (rowsBefore A + a, b) = i.mx.at' (a, b) ∧ r.lb.toDM.at' (rowsBefore A + a, b) = i.lb.toDM.at' (a, b) ∧
        r.ub.toDM.at' (rowsBefore A + a, b) = i.ub.toDM.at' (a, b) ∧ r.nom.at' (rowsBefore A + a, b) = i.nom.at' (a, b)) ∧
      ∀ ev, r.Sat ev ↔ ∀ i ∈ l, i.Sat ev := by
  have hlb : ∀ i ∈ l, i.lb.toDM.sp.rows = i.mx.sp.rows ∧ i.lb.toDM.sp.cols = c := by
    intro i hi
    have h1 := (BObj.toDM_wf (hp i hi).lb.1).2
    rw [(hp i hi).lb.2, Prod.mk.injEq] at h1
    exact ⟨h1.1, h1.2.trans (hc i hi)⟩
  have hub : ∀ i ∈ l, i.ub.toDM.sp.rows = i.mx.sp.rows ∧ i.ub.toDM.sp.cols = c := by
    intro i hi
    have h1 := (BObj.toDM_wf (hp i hi).ub.1).2
    rw [(hp i hi).ub.2, Prod.mk.injEq] at h1
    exact ⟨h1.1, h1.2.trans (hc i hi)⟩
  have hnom : ∀ i ∈ l, nominalDM i = .ok i.nom ∧ i.nom.sp.rows = i.mx.sp.rows ∧ i.nom.sp.cols = c := by
    intro i hi
    obtain ⟨n, hn'⟩ := Option.ne_none_iff_exists'.1 (hn i hi)
    have h2 := (hp i hi).nominal n hn'
    have h1 := (BObj.toDM_wf h2.1).2
    rw [h2.2, Prod.mk.injEq] at h1
    rw [nominalDM, Ineq.nom, hn']
    exact ⟨rfl, h1.1, h1.2.trans (hc i hi)⟩
  have stack : ∀ {V : Type} [Zero V] (g : Ineq E K → SMat V), (∀ i ∈ l, (g i).sp.rows = i.mx.sp.rows ∧ (g i).sp.cols = c) →
      ∃ M, vcat (l.map g) = .ok M ∧ M.WF ∧ M.sp.rows = rowsBefore l ∧ M.sp.cols = c ∧
        ∀ A i B, l = A ++ i :: B → ∀ a < i.mx.sp.rows, ∀ b < c, M.at' (rowsBefore A + a, b) = (g i).at' (a, b) := by
    intro V _ g hg
    obtain ⟨M, h1, h2, h3, h4, h5⟩ := vcat_ok (l := l.map g) (by simpa using hl) hc0 (by
      intro m hm
      obtain ⟨i, hi, rfl⟩ := List.mem_map.1 hm
      exact (hg i hi).2)
    have h3' : M.sp.rows = rowsBefore l := by
      rw [h3, List.map_map, rowsBefore]
      congr 1
      apply List.map_congr_left
      intro i hi
      exact (hg i hi).1
    refine ⟨M, h1, h2, h3', h4, ?_⟩
    rintro A i B rfl a ha b hb
    rw [SMat.at', h5 _ (by rw [h3']; exact row_bound ha) b hb, SMat.at']
    rw [rowsBefore, nzStack_at (h := fun i => i.mx.sp.rows) (fun y hy => (hg y hy).1) ha]
  obtain ⟨Me, e1, e2, e3, e4, e5⟩ := stack Ineq.mx fun i hi => ⟨rfl, hc i hi⟩
  obtain ⟨Ml, l1, l2, l3, l4, l5⟩ := stack (fun i => i.lb.toDM) hlb
  obtain ⟨Mu, u1, u2, u3, u4, u5⟩ := stack (fun i => i.ub.toDM) hub
  obtain ⟨Mn, n1, n2, n3, n4, n5⟩ := stack Ineq.nom fun i hi => (hnom i hi).2
  have hshape : (Me.sp.rows, Me.sp.cols) = (rowsBefore l, c) := by rw [e3, e4]
  have hnew : ∃ r, newIneq (K := K) (.mx Me) (some (.pay (.mat Ml))) (some (.pay (.mat Mu))) (some (.pay (.mat Mn))) = .ok r := by
    rw [C35_succeeds]
    refine ⟨?_, ?_, ?_⟩
    · rintro x hx; cases hx
      exact ⟨_, .pay (.mat _), by show (_, _) = (_, _); rw [l3, l4, e3, e4]⟩
    · rintro x hx; cases hx
      exact ⟨_, .pay (.mat _), by show (_, _) = (_, _); rw [u3, u4, e3, e4]⟩
    · rintro x hx; cases hx
      exact ⟨_, .pay (.mat _), by show (_, _) = (_, _); rw [n3, n4, e3, e4]⟩
  obtain ⟨r, hr⟩ := hnew
  have hwf : ∀ {M : SMat (Ext K)}, M.WF → BArg.WF (.pay (.mat M)) := by
    intro M hM m hm
    cases hm
    exact hM
  obtain ⟨hrp, hrm⟩ := newIneq_part hr e2 (by rintro x hx; cases hx; exact hwf l2) (by rintro x hx; cases hx; exact hwf u2)
    (by rintro x hx; cases hx; exact hwf n2)
  obtain ⟨q0, q1, q2, q3, q4, q5, q6, _⟩ := C35_result _ _ _ _ _ hr
  have hrl : r.lb.toDM = Ml := by
    have := convert_iff.2 (q4 _ rfl)
    cases hx : r.lb with
    | dm m => rw [hx] at this; cases this; rfl
    | st o => rw [hx] at this; cases this
  have hru : r.ub.toDM = Mu := by
    have := convert_iff.2 (q5 _ rfl)
    cases hx : r.ub with
    | dm m => rw [hx] at this; cases this; rfl
    | st o => rw [hx] at this; cases this
  obtain ⟨n, hn1, hn2⟩ := q6 _ rfl
  have hrn : r.nom = Mn := by
    rw [Ineq.nom, hn1]
    have := convert_iff.2 hn2
    cases hx : n with
    | dm m => rw [hx] at this; cases this; rfl
    | st o => rw [hx] at this; cases this
  have halign : ∀ A i B, l = A ++ i :: B → ∀ a < i.mx.sp.rows, ∀ b < c,
        r.mx.at' (rowsBefore A + a, b) = i.mx.at' (a, b) ∧ r.lb.toDM.at' (rowsBefore A + a, b) = i.lb.toDM.at' (a, b) ∧
        r.ub.toDM.at' (rowsBefore A + a, b) = i.ub.toDM.at' (a, b) ∧ r.nom.at' (rowsBefore A + a, b) = i.nom.at' (a, b) := by
    intro A i B h a ha b hb
    rw [hrm, hrl, hru, hrn]
    exact ⟨e5 A i B h a ha b hb, l5 A i B h a ha b hb, u5 A i B h a ha b hb, n5 A i B h a ha b hb⟩
  refine ⟨r, ?_, hrp, by rw [hn1]; simp, by rw [hrm, e3], by rw [hrm, e4], ?_, halign, ?_⟩
  · unfold vertcatList
    rw [mapM_ok (g := Ineq.mx) fun i hi => (hp i hi).expr, mapM_ok (g := Ineq.nom) fun i hi => (hnom i hi).1]
    simp only [bind, Except.bind, e1, l1, u1, n1]
    exact hr
  · rw [Ineq.numel, hrp.numel, hrm, e3, e4]
    have : l.map Ineq.numel = l.map fun i => i.mx.sp.rows * c := by
      apply List.map_congr_left
      intro i hi
      rw [Ineq.numel, (hp i hi).numel, hc i hi]
    rw [this, rowsBefore, sum_mul]
  · intro ev
    constructor
    · intro h i hi a ha b hb
      obtain ⟨A, B, rfl⟩ := List.append_of_mem hi
      rw [hc i hi] at hb
      have := h (rowsBefore A + a) (by rw [hrm, e3]; exact row_bound ha) b (by rw [hrm, e4]; exact hb)
      obtain ⟨h1, h2, h3, _⟩ := halign A i B rfl a ha b hb
      rw [Ineq.SatAt, h1, h2, h3] at this
      exact this
    · intro h x hx b hb
      rw [hrm] at hx hb
      rw [e3] at hx
      rw [e4] at hb
      obtain ⟨A, i, B, a, he, ha, rfl⟩ := row_split hx
      obtain ⟨h1, h2, h3, _⟩ := halign A i B he a ha b hb
      have hi : i ∈ l := by rw [he]; simp
      have := h i hi a ha b (by rw [hc i hi]; exact hb)
      rw [Ineq.SatAt, ← h1, ← h2, ← h3] at this
      exact this

/-! ## `vertcat` for a dict -/

/-- The definition of the entry for an inequality. -/
def Ineq.def (kv : String × Ineq E K) : EntryDef E :=
  ⟨.prim kv.1 [] ⟨kv.2.mx.sp, false, none, none⟩, none, some (.mat kv.2.mx)⟩

theorem ineqEntry_ok {kv : String × Ineq E K} (h : kv.2.Part) : ineqEntry kv = .ok (Ineq.def kv) := by
  unfold ineqEntry
  rw [h.expr]
  exact C58_heads kv.1 (.mat kv.2.mx) [] kv.2.mx (.mat _)

theorem ineq_defs {l : List (String × Ineq E K)} : ((l.map Ineq.def).map DefItem.one).flatMap DefItem.defs = l.map Ineq.def := by
  rw [List.flatMap_map]
  exact (flatMap_single _ fun d => d).trans (List.map_id _)

theorem ineq_exprDefs {l : List (String × Ineq E K)} (hn : (l.map Prod.fst).Nodup) (hp : ∀ kv ∈ l, kv.2.Part) :
    ExprDefs ((l.map Ineq.def).map DefItem.one) none where
  nodup := by
    rw [ineq_defs, List.map_map]
    exact hn
  order := by rintro o ⟨⟩
  expr := by
    rw [ineq_defs]
    intro d hd
    obtain ⟨kv, hkv, rfl⟩ := List.mem_map.1 hd
    exact ⟨.mat kv.2.mx, [], kv.2.mx.sp, IsExprDef.stores ⟨.mat (hp kv hkv).wf rfl, ineqEntry_ok_aux kv⟩⟩
where ineqEntry_ok_aux (kv : String × Ineq E K) :
    newEntry { name := (Ineq.def kv).entry.name, expr := some (.mat kv.2.mx) } = .ok (Ineq.def kv) :=
  C58_heads kv.1 (.mat kv.2.mx) [] kv.2.mx (.mat _)

/-- All structural nonzeros of all expressions. -/
def allNz (l : List (String × Ineq E K)) : List (Ineq E K × (ℕ × ℕ)) :=
  l.flatMap fun kv => kv.2.mx.sp.nz.map fun p => (kv.2, p)

/-- The dict of the values `g`. -/
def valItems (g : Ineq E K → SMat (Ext K)) (l : List (String × Ineq E K)) : List (String × Pay (Ext K)) :=
  l.map fun kv => (kv.1, .mat (g kv.2))

/-- The values of the entry with the given canonical index. -/
def valsOf [Zero K] (g : Ineq E K → SMat (Ext K)) (l : List (String × Ineq E K)) (t : CIdx) : List (Ext K) :=
  match t with
  | .str n :: _ => ((dictGet l n).map fun i => i.mx.sp.nz.map (g i).at').getD []
  | _ => []

theorem dict_values [Zero K] [Add K] [Sub K] {l : List (String × Ineq E K)} (hn : (l.map Prod.fst).Nodup) (hp : ∀ kv ∈ l, kv.2.Part)
    {c : CS} (hc : CS.ofList (((l.map Ineq.def).map DefItem.one).map DefItem.item) none = .ok c) (g : Ineq E K → SMat (Ext K))
    (hg : ∀ kv ∈ l, (g kv.2).WF ∧ (g kv.2).sp.rows = kv.2.mx.sp.rows ∧ (g kv.2).sp.cols = kv.2.mx.sp.cols) :
    ∃ o, callDM .nan c (.dict (valItems g l)) = .ok o ∧ o.cs = c ∧ o.master.length = c.size ∧
      o.master = (allNz l).map (fun t => (g t.1).at' t.2) ∧
      ∀ kv ∈ l, o.getitem [.str kv.1] = .ok (.leaf (.fill kv.2.mx.sp (g kv.2).at')) := by
  obtain ⟨c', ls, k1, k2, hwf, hb, hs⟩ := (ineq_exprDefs hn hp).struct
  rw [hc] at k1
  cases k1
  rw [ineq_defs] at k2
  have hents : c.struct.entries = l.map fun kv => Entry.prim kv.1 [] ⟨kv.2.mx.sp, false, none, none⟩ := by
    rw [k2, List.map_map]; rfl
  have hord : c.struct.order = c.struct.entries.map fun e => .one e.name := by
    rw [k2]
    simp only [Option.getD_none, List.map_map]
    rfl
  have hget : ∀ kv ∈ l, dictGet l kv.1 = some kv.2 := fun kv hkv => dictGet_of_mem hn hkv
  have hvals : ∀ kv ∈ l, ∀ ks, valsOf g l (.str kv.1 :: ks) = kv.2.mx.sp.nz.map (g kv.2).at' := by
    intro kv hkv ks
    rw [valsOf, hget kv hkv]
    rfl
  have hk : ∀ k, k ∈ (valItems g l).map Prod.fst ↔ ∃ e ∈ c.struct.entries, e.name = k := by
    intro k
    rw [valItems, List.map_map, hents]
    simp only [List.mem_map, Function.comp, exists_exists_and_eq_and]
    rfl
  have hfit : DictFits c.struct (valItems g l) (valsOf g l) := by
    intro e he
    have he' := he
    rw [hents] at he
    obtain ⟨kv, hkv, rfl⟩ := List.mem_map.1 he
    refine ⟨.mat (g kv.2), ?_, trivial, ?_⟩
    · refine dictGet_of_mem ?_ (List.mem_map.2 ⟨kv, hkv, rfl⟩)
      rw [valItems, List.map_map]
      exact hn
    · intro is his
      cases his
      obtain ⟨g1, g2, g3⟩ := hg kv hkv
      refine ⟨.mat (g kv.2), kv.2.mx.sp, (g kv.2).at', rfl,
        .plain (e := some ⟨kv.2.mx.sp, false, none, none⟩) ?_ ?_ (.mat _) g1 (.same g2 g3), hvals kv hkv _⟩
      · exact .leaf (p := ⟨kv.2.mx.sp, false, none, none⟩) (.prim (dims := []) he' .nil)
      · rintro p ⟨⟩; rfl
  obtain ⟨master, h1, h2, h3, _⟩ := C47_cat .nan c.struct hwf c hs _ hk _ hfit
  obtain ⟨o, h4, h5⟩ := C47_read .nan c.struct hwf c hs _ hk _ hfit
  rw [h1] at h4
  cases h4
  refine ⟨_, h1, rfl, h2, ?_, ?_⟩
  · show master = _
    rw [h3, traverseCanonicalIndex_one, hord, tops_names hwf.nodup (fun _ h => h), hents, allNz, List.flatMap_map, List.flatMap_assoc,
      List.map_flatMap]
    apply List.flatMap_congr
    intro kv hkv
    rw [Entry.dims, tuples]
    simp only [List.map_cons, List.map_nil, List.flatMap_cons, List.flatMap_nil, List.append_nil, List.map_map]
    exact hvals kv hkv _
  · intro kv hkv
    have he : Entry.prim kv.1 [] ⟨kv.2.mx.sp, false, none, none⟩ ∈ c.struct.entries := by
      rw [hents]; exact List.mem_map.2 ⟨kv, hkv, rfl⟩
    rw [show PIdx.str kv.1 = PIdx.str (Entry.prim kv.1 [] ⟨kv.2.mx.sp, false, none, none⟩).name from rfl, h5 _ he (by rintro n d p ⟨⟩; rfl)]
    rw [Entry.dims, nest]
    show Except.ok (Tree.leaf (SMat.mk kv.2.mx.sp (valsOf g l (.str kv.1 :: _)))) = _
    rw [hvals kv hkv]
    rfl

theorem col_at' {V : Type} [Zero V] (l : List V) (k : ℕ) (hk : k < l.length) : (SMat.col l).at' (k, 0) = l[k] := by
  refine SMat.at'_eq (Sparsity.dense_canon _ _) (j := k) ?_ (List.getElem?_eq_getElem hk)
  show (Sparsity.positions l.length 1)[k]? = _
  simp [Sparsity.positions, hk]

/-- **C36** (dict): inequalities with nominal values and different names can be concatenated; the result has a struct with the
names as entries, reading an entry of the expressions, the bounds or the nominal values gives those of the part (on the structural
nonzeros of the expression), and the result holds exactly if all the given inequalities hold on the structural nonzeros of their
expressions. -/
theorem C36_dict [Zero E] [Add E] [Sub E] [Zero K] [Add K] [Sub K] [Neg K] [LE K] (l : List (String × Ineq E K))
    (hn : (l.map Prod.fst).Nodup) (hp : ∀ kv ∈ l, kv.2.Part) (hnom : ∀ kv ∈ l, kv.2.nominal ≠ none) :
    ∃ r v lb ub nom, vertcatDict l = .ok r ∧ r.Part ∧ r.expr = .st v ∧ r.lb = .st lb ∧ r.ub = .st ub ∧ r.nominal = some (.st nom) ∧
      r.numel = (l.map fun kv => kv.2.mx.sp.nz.length).sum ∧
      (∀ kv ∈ l, v.getitem [.str kv.1] = .ok (.leaf kv.2.mx) ∧
        lb.getitem [.str kv.1] = .ok (.leaf (.fill kv.2.mx.sp kv.2.lb.toDM.at')) ∧
        ub.getitem [.str kv.1] = .ok (.leaf (.fill kv.2.mx.sp kv.2.ub.toDM.at')) ∧
        nom.getitem [.str kv.1] = .ok (.leaf (.fill kv.2.mx.sp kv.2.nom.at'))) ∧
      ∀ ev, r.Sat ev ↔ ∀ kv ∈ l, ∀ p ∈ kv.2.mx.sp.nz, kv.2.SatAt ev p := by
  have hx := ineq_exprDefs hn hp
  obtain ⟨v, c, a1, a2, a3, _⟩ := C52_assemble _ _ hx
  obtain ⟨v', b1, b2⟩ := C58_veccat_read_partial _ _ hx
  rw [a1] at b1
  cases b1
  obtain ⟨v', d1, d2⟩ := C58_veccat_cat _ _ hx (l.map Ineq.def) (by rw [ineq_defs]) (by
    rw [ineq_defs]
    intro d hd
    obtain ⟨kv, hkv, rfl⟩ := List.mem_map.1 hd
    exact ⟨.mat kv.2.mx, [], kv.2.mx.sp, .mat (hp kv hkv).wf rfl, C58_heads kv.1 (.mat kv.2.mx) [] kv.2.mx (.mat _)⟩) (by
    simp only [Option.getD_none, List.map_map]
    rfl)
  rw [a1] at d1
  cases d1
  have hvc : v.cs = c := by
    obtain ⟨c', ls, k1, _, hwf, _⟩ := hx.struct
    rw [a2] at k1
    cases k1
    exact (a3.good hwf).cs
  have hmaster : v.master = .ok ((allNz l).map fun t => t.1.mx.at' t.2) := by
    rw [d2, List.flatMap_map, allNz, List.map_flatMap]
    congr 1
    apply List.flatMap_congr
    intro kv hkv
    rw [Ineq.def, List.map_map]
    exact congrArg SMat.data (SMat.eq_fill (hp kv hkv).wf)
  have sh : ∀ {b : BObj K} {i : Ineq E K}, b.WF ∧ b.shape = (i.mx.sp.rows, i.mx.sp.cols) →
      b.toDM.WF ∧ b.toDM.sp.rows = i.mx.sp.rows ∧ b.toDM.sp.cols = i.mx.sp.cols := by
    intro b i h
    obtain ⟨h1, h2⟩ := BObj.toDM_wf h.1
    rw [h.2, Prod.mk.injEq] at h2
    exact ⟨h1, h2⟩
  obtain ⟨lb, l1, l2, l3, l4, l5⟩ := dict_values hn hp a2 (fun i => i.lb.toDM) fun kv hkv => sh (hp kv hkv).lb
  obtain ⟨ub, u1, u2, u3, u4, u5⟩ := dict_values hn hp a2 (fun i => i.ub.toDM) fun kv hkv => sh (hp kv hkv).ub
  obtain ⟨nom, n1, n2, n3, n4, n5⟩ := dict_values hn hp a2 Ineq.nom (by
    intro kv hkv
    obtain ⟨n, hn'⟩ := Option.ne_none_iff_exists'.1 (hnom kv hkv)
    have : kv.2.nom = n.toDM := by rw [Ineq.nom, hn']
    rw [this]
    exact sh ((hp kv hkv).nominal n hn'))
  have hsize : (allNz l).length = c.size := by
    rw [← l3, l4, List.length_map]
  have hnew : newIneq (K := K) (.st v) (some (.st lb)) (some (.st ub)) (some (.st nom)) = .ok ⟨.st v, .st lb, .st ub, some (.st nom)⟩ := by
    rw [newIneq_ok]
    refine ⟨rfl, rfl, rfl, ?_, ?_, nominalOr_ok.2 (.inr ⟨_, _, rfl, rfl, .st _, ?_⟩)⟩
    · show (_, _) = (_, _); rw [l2, hvc]
    · show (_, _) = (_, _); rw [u2, hvc]
    · show (_, _) = (_, _); rw [n2, hvc]
  have hmx : Ineq.mx (⟨.st v, .st lb, .st ub, some (.st nom)⟩ : Ineq E K) = .col ((allNz l).map fun t => t.1.mx.at' t.2) := by
    rw [Ineq.mx]
    simp only [ExprObj.toMX, hmaster]
    rfl
  have hrows : (SMat.col ((allNz l).map fun t => t.1.mx.at' t.2)).sp.rows = c.size := by
    show List.length _ = _
    rw [List.length_map, hsize]
  refine ⟨⟨.st v, .st lb, .st ub, some (.st nom)⟩, v, lb, ub, nom, ?_, ⟨?_, ?_, ?_, ?_, ?_, ?_, ?_⟩, rfl, rfl, rfl, rfl, ?_, ?_, ?_⟩
  · unfold vertcatDict
    rw [mapM_ok (g := Ineq.def) fun kv hkv => ineqEntry_ok (hp kv hkv)]
    show Except.bind (newVeccat _ _) _ = _
    rw [a1]
    show Except.bind (callDM Ext.nan v.cs _) _ = _
    rw [hvc]
    have hnomi : (l.map fun kv => (kv.1, nominalPay kv.2)) = valItems Ineq.nom l := by
      apply List.map_congr_left
      intro kv hkv
      obtain ⟨n, hn'⟩ := Option.ne_none_iff_exists'.1 (hnom kv hkv)
      simp only [nominalPay, hn', Ineq.nom]
    rw [show (l.map fun kv => (kv.1, Pay.mat kv.2.lb.toDM)) = valItems (fun i => i.lb.toDM) l from rfl, l1]
    show Except.bind (callDM Ext.nan c (.dict (valItems (fun i => i.ub.toDM) l))) _ = _
    rw [u1]
    show Except.bind (callDM Ext.nan c (.dict (l.map fun kv => (kv.1, nominalPay kv.2)))) _ = _
    rw [hnomi, n1]
    exact hnew
  · rw [hmx]
    show Except.map _ v.master = _
    rw [hmaster]
    rfl
  · rw [hmx]
    exact ⟨Sparsity.dense_canon _ _, by
      show _ = (Sparsity.positions _ 1).length
      rw [Sparsity.positions_length, Nat.mul_one]; rfl⟩
  · rw [hmx, hrows]
    show (v.cs.size, 1) = _
    rw [hvc]; rfl
  · rw [hmx, hrows]
    show v.cs.size = _ * 1
    rw [hvc, Nat.mul_one]
  · refine ⟨by show _ = lb.cs.size; rw [l3, l2], ?_⟩
    rw [hmx, hrows]
    show (lb.cs.size, 1) = _
    rw [l2]; rfl
  · refine ⟨by show _ = ub.cs.size; rw [u3, u2], ?_⟩
    rw [hmx, hrows]
    show (ub.cs.size, 1) = _
    rw [u2]; rfl
  · rintro n ⟨⟩
    refine ⟨by show _ = nom.cs.size; rw [n3, n2], ?_⟩
    rw [hmx, hrows]
    show (nom.cs.size, 1) = _
    rw [n2]; rfl
  · show v.cs.size = _
    rw [hvc, ← hsize, allNz, List.length_flatMap]
    simp
  · intro kv hkv
    refine ⟨?_, l5 kv hkv, u5 kv hkv, n5 kv hkv⟩
    obtain ⟨t, ht, hpay⟩ := b2 (Ineq.def kv) (by rw [ineq_defs]; exact List.mem_map.2 ⟨kv, hkv, rfl⟩) (.mat kv.2.mx) [] kv.2.mx.sp
      ⟨.mat (hp kv hkv).wf rfl, C58_heads kv.1 (.mat kv.2.mx) [] kv.2.mx (.mat _)⟩
    cases t with
    | leaf m =>
      rw [Tree.toPay] at hpay
      cases hpay
      exact ht
    | list => rw [Tree.toPay] at hpay; cases hpay
    | dict => rw [Tree.toPay] at hpay; cases hpay
  · intro ev
    have hat : ∀ k (hk : k < (allNz l).length),
        (Ineq.SatAt (⟨.st v, .st lb, .st ub, some (.st nom)⟩ : Ineq E K) ev (k, 0) ↔ (allNz l)[k].1.SatAt ev (allNz l)[k].2) := by
      intro k hk
      rw [Ineq.SatAt, hmx, Ineq.SatAt]
      show ((SMat.col lb.master).at' _).Below _ ∧ ((SMat.col ub.master).at' _).Above _ ↔ _
      rw [l4, u4, col_at' _ k (by simpa using hk), col_at' _ k (by simpa using hk), col_at' _ k (by simpa using hk)]
      simp only [List.getElem_map]
    constructor
    · intro h kv hkv p hpz
      have hm : (kv.2, p) ∈ allNz l := List.mem_flatMap.2 ⟨kv, hkv, List.mem_map.2 ⟨p, hpz, rfl⟩⟩
      obtain ⟨k, hk, he⟩ := List.getElem_of_mem hm
      have := (hat k hk).1 (h k (by rw [hmx, hrows, ← hsize]; exact hk) 0 (by rw [hmx]; exact Nat.one_pos))
      rw [he] at this
      exact this
    · intro h k hk b hb
      rw [hmx] at hk hb
      rw [hrows, ← hsize] at hk
      have hb0 : b = 0 := by
        have : b < 1 := hb
        omega
      subst hb0
      rw [hat k hk]
      obtain ⟨kv, hkv, hm⟩ := List.mem_flatMap.1 (List.getElem_mem hk : (allNz l)[k] ∈ allNz l)
      obtain ⟨p, hpz, he⟩ := List.mem_map.1 hm
      rw [← he]
      exact h kv hkv p hpz

/-- **C36** (dict, dense expressions): the result holds exactly if all the given inequalities hold. -/
theorem C36_dict_dense_partial [Zero E] [Add E] [Sub E] [Zero K] [Add K] [Sub K] [Neg K] [LE K] (l : List (String × Ineq E K))
    (hn : (l.map Prod.fst).Nodup) (hp : ∀ kv ∈ l, kv.2.Part) (hnom : ∀ kv ∈ l, kv.2.nominal ≠ none)
    (hd : ∀ kv ∈ l, kv.2.mx.sp = .dense kv.2.mx.sp.rows kv.2.mx.sp.cols) :
    ∃ r, vertcatDict l = .ok r ∧ r.Part ∧ r.numel = (l.map fun kv => kv.2.numel).sum ∧
      ∀ ev, r.Sat ev ↔ ∀ kv ∈ l, kv.2.Sat ev := by
  obtain ⟨r, _, _, _, _, h1, h2, _, _, _, _, h3, _, h4⟩ := C36_dict l hn hp hnom
  refine ⟨r, h1, h2, ?_, ?_⟩
  · rw [h3]
    congr 1
    apply List.map_congr_left
    intro kv hkv
    rw [Ineq.numel, (hp kv hkv).numel, hd kv hkv]
    exact Sparsity.positions_length _ _
  · intro ev
    rw [h4]
    constructor
    · intro h kv hkv a ha b hb
      refine h kv hkv _ ?_
      rw [hd kv hkv]
      exact Sparsity.mem_positions.2 ⟨ha, hb⟩
    · intro h kv hkv p hpz
      rw [hd kv hkv] at hpz
      obtain ⟨h1, h2⟩ := Sparsity.mem_positions.1 hpz
      exact h kv hkv p.1 h1 p.2 h2

theorem assignKeys_error {V : Type} [Zero V] {items : List (String × Pay V)} {cs : CS} {k : String} {p : Pay V}
    (hg : dictGet items k = some p) (h : ∀ o : Obj V, o.cs = cs → ∃ e, (o.setitem [.str k] p).1 = .error e) :
    ∀ {ks : List String}, k ∈ ks → ∀ o : Obj V, o.cs = cs → ∃ e, assignKeys items ks o = .error e
  | [], hk, _, _ => by cases hk
  | k' :: ks, hk, o, ho => by
    rw [assignKeys]
    cases hd : dictGet items k' with
    | none => exact ⟨_, rfl⟩
    | some q =>
      simp only
      generalize hx : o.setitem [.str k'] q = x
      obtain ⟨r, o'⟩ := x
      cases r with
      | error e => exact ⟨e, rfl⟩
      | ok u =>
        simp only
        rcases List.mem_cons.1 hk with rfl | hk'
        · rw [hg] at hd
          cases hd
          obtain ⟨e, he⟩ := h o ho
          rw [hx] at he
          cases he
        · refine assignKeys_error hg h hk' o' ?_
          have := (Obj.setitem_cs o [.str k'] q).1
          rw [hx, ho] at this
          exact this

/-- **C37**: a dict with an inequality without nominal value cannot be concatenated. -/
theorem C37_dict [Zero K] [Neg K] (l : List (String × Ineq E K)) (hn : (l.map Prod.fst).Nodup) (hp : ∀ kv ∈ l, kv.2.Part)
    (kv : String × Ineq E K) (hkv : kv ∈ l) (h : kv.2.nominal = none) : ∃ e, vertcatDict l = .error e := by
  have hx := ineq_exprDefs hn hp
  obtain ⟨v, c, a1, a2, a3, _⟩ := C52_assemble _ _ hx
  obtain ⟨c', ls, k1, k2, hwf, hb, hs⟩ := hx.struct
  rw [a2] at k1
  cases k1
  have hvc : v.cs = c := (a3.good hwf).cs
  rw [ineq_defs] at k2
  have hent : Entry.prim kv.1 [] ⟨kv.2.mx.sp, false, none, none⟩ ∈ c.struct.entries := by
    rw [k2]
    exact List.mem_map.2 ⟨Ineq.def kv, List.mem_map.2 ⟨kv, hkv, rfl⟩, rfl⟩
  have hbad : ∀ o : Obj (Ext K), o.cs = c → ∃ e, (o.setitem [.str kv.1] .none).1 = .error e := by
    rintro o rfl
    have h1 := Obj.setitem_part o hwf (.leaf (.prim hent .nil)) [] (fun _ => rfl) .none
    rw [List.append_nil] at h1
    have h2 : setCall o.cs.map .none [.str kv.1] (some []) (some ⟨kv.2.mx.sp, false, none, none⟩) o.master = (.error .runtime, o.master) := rfl
    rw [h2] at h1
    exact ⟨_, congrArg Prod.fst h1⟩
  have hcall : ∃ e, callDM .nan c (.dict (l.map fun kv => (kv.1, nominalPay kv.2))) = .error e := by
    rw [callDM]
    split
    · refine assignKeys_error (cs := c) (k := kv.1) (p := .none) ?_ hbad ?_ _ rfl
      · refine dictGet_of_mem ?_ (List.mem_map.2 ⟨kv, hkv, ?_⟩)
        · rw [List.map_map]; exact hn
        · rw [nominalPay, h]
      · rw [Struct.keys, hwf.perm.mem_iff]
        exact List.mem_map.2 ⟨_, hent, rfl⟩
    · exact ⟨_, rfl⟩
  obtain ⟨e, he⟩ := hcall
  unfold vertcatDict
  rw [mapM_ok (g := Ineq.def) fun kv hkv => ineqEntry_ok (hp kv hkv)]
  show ∃ e, Except.bind (newVeccat _ _) _ = _
  rw [a1]
  show ∃ e, Except.bind (callDM (Ext.nan : Ext K) v.cs _) _ = _
  rw [hvc]
  cases callDM Ext.nan c (.dict (l.map fun kv => (kv.1, .mat kv.2.lb.toDM))) with
  | error e => exact ⟨e, rfl⟩
  | ok lb =>
    show ∃ e, Except.bind (callDM (Ext.nan : Ext K) c _) _ = _
    cases callDM Ext.nan c (.dict (l.map fun kv => (kv.1, .mat kv.2.ub.toDM))) with
    | error e => exact ⟨e, rfl⟩
    | ok ub =>
      show ∃ e, Except.bind (callDM (Ext.nan : Ext K) c _) _ = _
      rw [he]
      exact ⟨e, rfl⟩

/-! ## Examples -/

/-- `1 ≤ x` for a scalar `x`, with nominal value 2. -/
def exIneq : Ineq ℤ ℤ := ⟨.mx (.scalar 5), .dm (.scalar (.fin 1)), .dm (.fill (.dense 1 1) fun _ => .pinf), some (.dm (.scalar (.fin 2)))⟩

theorem exIneq_new : newIneq (.mx (.scalar 5)) (some (.pay (.num (.fin 1)))) none (some (.pay (.num (.fin 2)))) = .ok exIneq := rfl

theorem scalar_wf {V : Type} (v : V) : (SMat.scalar v).WF := ⟨Sparsity.dense_canon _ _, rfl⟩

theorem exIneq_part : exIneq.Part ∧ exIneq.mx = .scalar 5 :=
  newIneq_part exIneq_new (scalar_wf _) (by rintro x ⟨⟩ m ⟨⟩; exact scalar_wf _) (by rintro x ⟨⟩) (by rintro x ⟨⟩ m ⟨⟩; exact scalar_wf _)

/-- A bound of another shape is rejected. -/
example : ¬ ∃ i : Ineq ℤ ℤ, newIneq (.mx (.scalar 5)) (some (.pay (.list [.num (.fin 1), .num (.fin 2)]))) none none = .ok i := by
  rw [C35_succeeds]
  rintro ⟨h, _⟩
  obtain ⟨b, hb, hs⟩ := h _ rfl
  have := convert_iff.2 hb
  cases this
  cases hs

example : (∃ i : Ineq ℤ ℤ, newIneq (.mx (.scalar 5)) (some (.pay (.num (.fin 1)))) none none = .ok i) :=
  (C35_succeeds _ _ _ _).2 ⟨by rintro x ⟨⟩; exact ⟨_, .pay (.num _), rfl⟩, by rintro x ⟨⟩, by rintro x ⟨⟩⟩

example : (exIneq.ub.toDM.at' (0, 0) = .pinf) :=
  (C35_result _ _ _ _ _ exIneq_new).2.2.2.2.2.2.2.2.2 rfl 0 Nat.one_pos 0 Nat.one_pos

example : ∃ i : Ineq ℤ ℤ, boundedVariable (fun _ => 7) (some (.pay (.num (.fin 1)))) none (.dm (.scalar (.fin 3))) = .ok i :=
  (C35_bounded _ _ _ _).1.2 ⟨by rintro x ⟨⟩; exact ⟨_, .pay (.num _), rfl⟩, by rintro x ⟨⟩⟩

/-- It holds for values of at least 1 only. -/
theorem exIneq_sat (ev : ℤ → ℤ) : exIneq.Sat ev ↔ 1 ≤ ev 5 := by
  constructor
  · intro h
    exact (h 0 (by decide) 0 (by decide)).1
  · intro h r hr c hc
    have hr : r < 1 := hr
    have hc : c < 1 := hc
    obtain rfl : r = 0 := by omega
    obtain rfl : c = 0 := by omega
    exact ⟨h, trivial⟩

example : ∃ r, vertcatList [exIneq, exIneq] = .ok r ∧ r.numel = 2 ∧ (r.Sat (fun x => x) ↔ (1 : ℤ) ≤ 5) := by
  obtain ⟨r, h1, _, _, _, _, h2, _, h3⟩ := C36_list [exIneq, exIneq] (by simp) (by simp [exIneq_part.1]) (by simp [exIneq]) 1
    Nat.one_pos (by simp [exIneq_part.2, SMat.scalar, Sparsity.dense])
  refine ⟨r, h1, h2, ?_⟩
  rw [h3]
  simp [exIneq_sat]

/-- A scalar and a row with two elements. -/
example : ∃ i : Ineq ℤ ℤ, newIneq (.mx ⟨.dense 1 2, [6, 7]⟩) none none none = .ok i ∧ vertcatList [exIneq, i] = .error .runtime := by
  refine ⟨_, rfl, ?_⟩
  have hi := newIneq_part (E := ℤ) (K := ℤ) (m := ⟨.dense 1 2, [6, 7]⟩) (lb := none) (ub := none) (nominal := none) rfl
    ⟨Sparsity.dense_canon _ _, rfl⟩ (by rintro x ⟨⟩) (by rintro x ⟨⟩) (by rintro x ⟨⟩)
  refine C36_columns _ ?_ exIneq _ List.mem_cons_self (List.mem_cons_of_mem _ List.mem_cons_self) (by decide) (by decide) (by decide)
  intro j hj
  rcases List.mem_cons.1 hj with rfl | hj
  · exact exIneq_part.1
  · rw [List.mem_singleton.1 hj]; exact hi.1

example : ∃ r, vertcatDict [("a", exIneq), ("b", exIneq)] = .ok r ∧ r.numel = 2 ∧ (r.Sat (fun x => x) ↔ (1 : ℤ) ≤ 5) := by
  obtain ⟨r, h1, _, h2, h3⟩ := C36_dict_dense_partial [("a", exIneq), ("b", exIneq)] (by decide) (by simp [exIneq_part.1]) (by simp [exIneq])
    (by simp [exIneq_part.2, SMat.scalar, Sparsity.dense])
  refine ⟨r, h1, h2, ?_⟩
  rw [h3]
  simp [exIneq_sat]

example : ∃ e, vertcatList [exIneq, { exIneq with nominal := none }] = .error e := C37_list _ { exIneq with nominal := none } (by simp) rfl

example : ∃ e, vertcatDict [("a", exIneq), ("b", { exIneq with nominal := none })] = .error e :=
  C37_dict _ (by decide) (by
    intro kv h
    rcases List.mem_cons.1 h with rfl | h
    · exact exIneq_part.1
    · rw [List.mem_singleton.1 h]
      obtain ⟨h1, h2, h3, h4, h5, h6, _⟩ := exIneq_part.1
      exact ⟨h1, h2, h3, h4, h5, h6, by rintro n ⟨⟩⟩) ("b", { exIneq with nominal := none }) (by simp) rfl

/-- `1 ≤ x` where the expression `x` is a structural zero. -/
def zeroIneq : Ineq ℤ ℤ := ⟨.mx ⟨⟨1, 1, []⟩, []⟩, .dm (.scalar (.fin 1)), .dm (.fill (.dense 1 1) fun _ => .pinf), some (.dm (.scalar (.fin 2)))⟩

/-- **C36** is false for dicts of expressions with structural zeros: the result of `vertcat({'a': ineq})` for an inequality that
does not hold, as its expression is 0 and the lower bound 1, has no elements and holds. -/
theorem C36_refuted_sparse : zeroIneq.Part ∧ zeroIneq.nominal ≠ none ∧ (∀ ev : ℤ → ℤ, ev 0 = 0 → ¬ zeroIneq.Sat ev) ∧
    ∃ r, vertcatDict [("a", zeroIneq)] = .ok r ∧ r.numel = 0 ∧ ∀ ev, r.Sat ev := by
  have hnew : newIneq (.mx ⟨⟨1, 1, []⟩, []⟩) (some (.pay (.num (.fin 1)))) none (some (.pay (.num (.fin 2)))) = .ok zeroIneq := rfl
  have hp : zeroIneq.Part ∧ zeroIneq.mx = ⟨⟨1, 1, []⟩, []⟩ :=
    newIneq_part hnew ⟨List.nil_sublist _, rfl⟩ (by rintro x ⟨⟩ m ⟨⟩; exact scalar_wf _) (by rintro x ⟨⟩) (by rintro x ⟨⟩ m ⟨⟩; exact scalar_wf _)
  refine ⟨hp.1, by simp [zeroIneq], ?_, ?_⟩
  · intro ev h0 h
    have h1 := (h 0 (by decide) 0 (by decide)).1
    have h2 : (1 : ℤ) ≤ ev 0 := h1
    omega
  · obtain ⟨r, _, _, _, _, h1, _, _, _, _, _, h2, _, h3⟩ := C36_dict [("a", zeroIneq)] (by simp) (by simp [hp.1]) (by simp [zeroIneq])
    refine ⟨r, h1, ?_, ?_⟩
    · rw [h2]
      simp [hp.2]
    · intro ev
      rw [h3]
      simp [hp.2]

/-- `Inequality()` holds. -/
example : ∃ i : Ineq ℤ ℤ, emptyIneq = .ok i ∧ i.numel = 0 ∧ i.Sat (fun x => x) := by
  obtain ⟨i, h1, -, -, -, -, h2, h3⟩ := C35_empty (E := ℤ) (K := ℤ)
  exact ⟨i, h1, h2, h3 _⟩

/-- The column `[6, 7]` without bounds. -/
example : ∃ i : Ineq ℤ ℤ, newIneq (.mx ⟨.dense 2 1, [6, 7]⟩) none none none = .ok i ∧ i.Sat (fun x => -x) :=
  ⟨_, rfl, (C35_free ⟨.dense 2 1, [6, 7]⟩ none none none _ rfl _).2.2 rfl rfl⟩

/-- Two 0x0 inequalities. -/
example : ∃ i r : Ineq ℤ ℤ, newIneq (.mx ⟨.dense 0 0, []⟩) none none (some (.pay (.mat ⟨.dense 0 0, []⟩))) = .ok i ∧
    vertcatList [i, i] = .ok r ∧ r.expr.shape = (0, 0) := by
  have hi := newIneq_part (E := ℤ) (K := ℤ) (m := ⟨.dense 0 0, []⟩) (lb := none) (ub := none)
    (nominal := some (.pay (.mat ⟨.dense 0 0, []⟩))) rfl ⟨Sparsity.dense_canon _ _, rfl⟩ (by rintro x ⟨⟩) (by rintro x ⟨⟩)
    (by rintro x ⟨⟩ m ⟨⟩; exact ⟨Sparsity.dense_canon _ _, rfl⟩)
  obtain ⟨r, h1, h2, -⟩ := C36_void (E := ℤ) (K := ℤ) [_, _] (by simp) (by
      intro j hj
      rw [List.mem_cons, List.mem_singleton, or_self] at hj
      rw [hj]; exact hi.1) (by
      intro j hj
      rw [List.mem_cons, List.mem_singleton, or_self] at hj
      rw [hj]; exact fun h => by cases h) (by
      intro j hj
      rw [List.mem_cons, List.mem_singleton, or_self] at hj
      rw [hj, hi.2]; exact ⟨rfl, rfl⟩)
  exact ⟨_, r, rfl, h1, h2⟩

/-- The parts of `Inequality.vertcat({'a': ..., 'b': ...})`. -/
example : ∃ r v lb, vertcatDict [("a", exIneq), ("b", exIneq)] = .ok r ∧ r.expr = .st v ∧ r.lb = .st lb ∧
    v.getitem [.str "b"] = .ok (.leaf (.scalar 5)) ∧ lb.getitem [.str "b"] = .ok (.leaf (.scalar (.fin 1))) := by
  obtain ⟨r, v, lb, _, _, h1, -, h2, h3, -, -, -, h4, -⟩ := C36_dict [("a", exIneq), ("b", exIneq)] (by decide)
    (by simp [exIneq_part.1]) (by simp [exIneq])
  obtain ⟨h5, h6, -⟩ := h4 ("b", exIneq) (by simp)
  exact ⟨r, v, lb, h1, h2, h3, h5, h6⟩

end CE.St
