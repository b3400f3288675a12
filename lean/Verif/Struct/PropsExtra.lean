import Verif.Struct.PropsSymm
import Verif.Struct.PropsObj
import Verif.Struct.LemProduct

/-! # Parts of elements: C64 -/

namespace CE.St

/-! ## What an index selects -/

/-- The integer `v` denotes the position `j` among `n`, counting from the end if negative. -/
def Denotes (n : ℕ) (v : ℤ) (j : ℕ) : Prop := -(n : ℤ) ≤ v ∧ v < n ∧ (j : ℤ) = v % n

/-- A bound of a slice, counting from the end if negative. -/
def bound (n : ℕ) (dflt : ℤ) : Option ℤ → ℤ
  | none => dflt
  | some v => if v < 0 then v + n else v

/-- The positions among `n` that an index selects, in order: one for an integer; those of the numbers from start to before stop
for a slice, as long as start is not before the beginning and stop not beyond the end; those of the integers of a non-empty
list or of a dense vector. -/
inductive Picks {F : Type} (n : ℕ) : PIdx F → List ℕ → Prop
  | int {i : ℤ} {j : ℕ} : Denotes n i j → Picks n (.int i) [j]
  | slice {start stop step : Option ℤ} {c a b : ℤ} {vs : List ℤ} {l : List ℕ} : c = step.getD 1 → c ≠ 0 →
      a = bound n (if c < 0 then n - 1 else 0) start → b = bound n (if c < 0 then -1 else n) stop → 0 ≤ a → b ≤ n →
      (∀ (k : ℕ) (v : ℤ), vs[k]? = some v ↔ v = a + c * k ∧ ((0 < c ∧ v < b) ∨ (c < 0 ∧ b < v))) → List.Forall₂ (Denotes n) vs l →
      Picks n (.slice start stop step) l
  | list {is : List ℤ} {l : List ℕ} : is ≠ [] → List.Forall₂ (Denotes n) is l → Picks n (.list (is.map .int)) l
  | mat {m : SMat ℤ} {l : List ℕ} : m.sp.isDense → m.sp.rows = 1 ∨ m.sp.cols = 1 → List.Forall₂ (Denotes n) m.data l → Picks n (.mat m) l

/-- Extra indices `x` select from a matrix with pattern `sp` the submatrix with `r` rows and `c` columns whose element at `p`
is the element at `f p`: a row and a column index, or a single index that counts column by column (and gives a column, or for
a row a row). A matrix as a single index is not considered here, see C107. -/
inductive Sel {F : Type} (sp : Sparsity) : List (PIdx F) → ℕ → ℕ → (ℕ × ℕ → ℕ × ℕ) → Prop
  | rc {I J : PIdx F} {la lb : List ℕ} : Picks sp.rows I la → Picks sp.cols J lb →
      Sel sp [I, J] la.length lb.length fun p => (la.getD p.1 0, lb.getD p.2 0)
  | col {I : PIdx F} {l : List ℕ} : Picks (sp.rows * sp.cols) I l → (∀ m, I ≠ .mat m) → sp.rows ≠ 1 →
      Sel sp [I] l.length 1 fun p => (l.getD p.1 0 % sp.rows, l.getD p.1 0 / sp.rows)
  | row {I : PIdx F} {l : List ℕ} : Picks (sp.rows * sp.cols) I l → (∀ m, I ≠ .mat m) → sp.rows = 1 →
      Sel sp [I] 1 l.length fun p => (0, l.getD p.2 0)

/-! ## Lemmas -/

theorem Denotes.lt {n : ℕ} {v : ℤ} {j : ℕ} (h : Denotes n v j) : j < n := by
  obtain ⟨h1, h2, h3⟩ := h
  have : (0 : ℤ) < n := by omega
  have := Int.emod_lt_of_pos v this
  omega

theorem normIdx_iff {n : ℕ} {vs : List ℤ} {l : List ℕ} : normIdx n vs = .ok l ↔ List.Forall₂ (Denotes n) vs l := by
  rw [normIdx]
  induction vs generalizing l with
  | nil =>
    rw [List.mapM_nil, List.forall₂_nil_left_iff]
    constructor
    · intro h; cases h; rfl
    · rintro rfl; rfl
  | cons v vs ih =>
    rw [List.mapM_cons, List.forall₂_cons_left_iff]
    by_cases hv : -(n : ℤ) ≤ v ∧ v < n
    · rw [if_pos hv]
      have hd : ∀ j, Denotes n v j ↔ j = (canonical v n).toNat := by
        intro j
        rw [Denotes, canonical]
        obtain ⟨h1, h2⟩ := hv
        split
        · rw [← Int.add_emod_right, Int.emod_eq_of_lt (by omega) (by omega)]; omega
        · rw [Int.emod_eq_of_lt (by omega) (by omega)]; omega
      show Except.bind (List.mapM _ vs) _ = _ ↔ _
      cases hm : vs.mapM fun i => if -(n : ℤ) ≤ i ∧ i < n then Except.ok (canonical i n).toNat else .error PyErr.runtime with
      | error e =>
        constructor
        · intro h; cases h
        · rintro ⟨j, l', _, h, _⟩
          rw [ih.2 h] at hm
          cases hm
      | ok l' =>
        constructor
        · intro h
          cases h
          exact ⟨_, l', (hd _).2 rfl, ih.1 hm, rfl⟩
        · rintro ⟨j, l'', h1, h2, rfl⟩
          rw [(hd j).1 h1, show l'' = l' by
            have := ih.2 h2
            rw [hm] at this
            cases this; rfl]
          rfl
    · rw [if_neg hv]
      constructor
      · intro h; cases h
      · rintro ⟨j, _, h, _⟩
        exact absurd ⟨h.1, h.2.1⟩ hv

theorem csSlice_iff {start stop step : Option ℤ} {n : ℕ} {vs : List ℤ} : csSlice start stop step n = .ok vs ↔
    ∃ c a b : ℤ, c = step.getD 1 ∧ c ≠ 0 ∧ a = bound n (if c < 0 then n - 1 else 0) start ∧
      b = bound n (if c < 0 then -1 else n) stop ∧ 0 ≤ a ∧ b ≤ n ∧
      ∀ (k : ℕ) (v : ℤ), vs[k]? = some v ↔ v = a + c * k ∧ ((0 < c ∧ v < b) ∨ (c < 0 ∧ b < v)) := by
  have e : csSlice start stop step n = (
      let c := step.getD 1
      let a := bound n (if c < 0 then (n : ℤ) - 1 else 0) start
      let b := bound n (if c < 0 then -1 else (n : ℤ)) stop
      if c = 0 then .error .runtime
      else if b > n ∨ a < 0 then .error .runtime
      else .ok ((List.range (if c < 0 then (if b < a then (a - b - 1) / (-c) + 1 else 0)
        else (if a < b then (b - a - 1) / c + 1 else 0)).toNat).map fun k : ℕ => a + c * k)) := by
    cases start <;> cases stop <;> rfl
  rw [e]
  simp only
  generalize hc : step.getD 1 = c
  generalize ha : bound n (if c < 0 then (n : ℤ) - 1 else 0) start = a
  generalize hb' : bound n (if c < 0 then -1 else (n : ℤ)) stop = b
  by_cases h0 : c = 0
  · rw [if_pos h0]
    constructor
    · intro h; cases h
    · rintro ⟨_, _, _, rfl, h, _⟩
      exact absurd h0 h
  rw [if_neg h0]
  by_cases h1 : b > n ∨ a < 0
  · rw [if_pos h1]
    constructor
    · intro h; cases h
    · rintro ⟨_, _, _, rfl, h, rfl, rfl, h2, h3, _⟩
      rw [ha] at h2
      rw [hb'] at h3
      omega
  rw [if_neg h1]
  have key : ∀ (k : ℕ) (v : ℤ), ((List.range (if c < 0 then (if b < a then (a - b - 1) / (-c) + 1 else 0)
        else (if a < b then (b - a - 1) / c + 1 else 0)).toNat).map fun k : ℕ => a + c * k)[k]? = some v ↔
      v = a + c * k ∧ ((0 < c ∧ v < b) ∨ (c < 0 ∧ b < v)) := by
    intro k v
    rw [List.getElem?_map]
    have hlt : k < (if c < 0 then (if b < a then (a - b - 1) / (-c) + 1 else 0)
        else (if a < b then (b - a - 1) / c + 1 else 0)).toNat ↔ ((0 < c ∧ a + c * k < b) ∨ (c < 0 ∧ b < a + c * k)) := by
      by_cases hneg : c < 0
      · rw [if_pos hneg]
        by_cases hba : b < a
        · rw [if_pos hba]
          have h2 : (k : ℤ) ≤ (a - b - 1) / (-c) ↔ k * (-c) ≤ a - b - 1 := Int.le_ediv_iff_mul_le (by omega)
          have h3 : 0 ≤ (a - b - 1) / (-c) := Int.ediv_nonneg (by omega) (by omega)
          have h4 : (k : ℤ) * (-c) = -(c * k) := by ring
          omega
        · rw [if_neg hba]
          have : c * k ≤ 0 := mul_nonpos_of_nonpos_of_nonneg (by omega) (by omega)
          simp only [Int.toNat_zero, Nat.not_lt_zero, false_iff]
          omega
      · rw [if_neg hneg]
        by_cases hba : a < b
        · rw [if_pos hba]
          have h2 : (k : ℤ) ≤ (b - a - 1) / c ↔ k * c ≤ b - a - 1 := Int.le_ediv_iff_mul_le (by omega)
          have h3 : 0 ≤ (b - a - 1) / c := Int.ediv_nonneg (by omega) (by omega)
          have h4 : (k : ℤ) * c = c * k := by ring
          omega
        · rw [if_neg hba]
          have : 0 ≤ c * (k : ℤ) := mul_nonneg (by omega) (by omega)
          simp only [Int.toNat_zero, Nat.not_lt_zero, false_iff]
          omega
    by_cases hk : k < (if c < 0 then (if b < a then (a - b - 1) / (-c) + 1 else 0)
        else (if a < b then (b - a - 1) / c + 1 else 0)).toNat
    · rw [List.getElem?_range hk, Option.map_some, Option.some.injEq]
      constructor
      · rintro rfl; exact ⟨rfl, hlt.1 hk⟩
      · rintro ⟨rfl, _⟩; rfl
    · rw [List.getElem?_eq_none (by simpa using hk)]
      constructor
      · intro h; cases h
      · rintro ⟨rfl, h⟩; exact absurd (hlt.2 h) hk
  constructor
  · intro h
    cases h
    exact ⟨c, a, b, rfl, h0, ha.symm, hb'.symm, by omega, by omega, key⟩
  · rintro ⟨_, _, _, rfl, _, rfl, rfl, _, _, h⟩
    rw [ha, hb'] at h
    congr 1
    apply List.ext_getElem?
    intro k
    apply Option.ext
    intro v
    rw [key, h]

theorem toInt_iff {l : List Key} {is : List ℤ} : l.mapM Key.toInt = .ok is ↔ l = is.map .int := by
  induction l generalizing is with
  | nil =>
    rw [List.mapM_nil]
    constructor
    · intro h; cases h; rfl
    · intro h
      cases is with
      | nil => rfl
      | cons _ _ => cases h
  | cons k l ih =>
    rw [List.mapM_cons]
    cases k with
    | str s =>
      constructor
      · intro h; cases h
      · intro h
        cases is with
        | nil => cases h
        | cons _ _ => cases h
    | int i =>
      show Except.bind (l.mapM Key.toInt) _ = _ ↔ _
      cases hm : l.mapM Key.toInt with
      | error e =>
        constructor
        · intro h; cases h
        · intro h
          cases is with
          | nil => cases h
          | cons j js =>
            rw [ih.2 (List.cons.inj h).2] at hm
            cases hm
      | ok js =>
        have := ih.1 hm
        subst this
        constructor
        · intro h; cases h; rfl
        · intro h
          cases is with
          | nil => cases h
          | cons j js' =>
            obtain ⟨h1, h2⟩ := List.cons.inj h
            cases h1
            have := List.map_injective_iff.2 (fun a b (h : Key.int a = Key.int b) => Key.int.inj h) h2
            subst this
            rfl

theorem selIdx_iff {F : Type} {n : ℕ} {I : PIdx F} {l : List ℕ} : selIdx n I = .ok l ↔ Picks n I l := by
  cases I with
  | int i =>
    rw [selIdx, normIdx_iff]
    constructor
    · intro h
      cases h with
      | cons h1 h2 => cases h2; exact .int h1
    · rintro ⟨h⟩; exact .cons h .nil
  | slice a b st =>
    rw [selIdx]
    constructor
    · intro h
      cases hs : csSlice a b st n with
      | error e => rw [hs] at h; cases h
      | ok vs =>
        rw [hs] at h
        obtain ⟨c, a', b', h1, h2, h3, h4, h5, h6, h7⟩ := csSlice_iff.1 hs
        exact .slice h1 h2 h3 h4 h5 h6 h7 (normIdx_iff.1 h)
    · intro h
      cases h with
      | slice h1 h2 h3 h4 h5 h6 h7 h8 =>
        rw [csSlice_iff.2 ⟨_, _, _, h1, h2, h3, h4, h5, h6, h7⟩]
        exact normIdx_iff.2 h8
  | list ks =>
    rw [selIdx]
    constructor
    · intro h
      split at h
      · cases h
      · rename_i hne
        cases hs : ks.mapM Key.toInt with
        | error e => rw [hs] at h; cases h
        | ok is =>
          rw [hs] at h
          have := toInt_iff.1 hs
          subst this
          exact .list (by rintro rfl; exact hne rfl) (normIdx_iff.1 h)
    · intro h
      generalize hI : PIdx.list ks = I at h
      cases h with
      | list h1 h2 =>
        cases hI
        rw [if_neg (by simpa using h1), toInt_iff.2 rfl]
        exact normIdx_iff.2 h2
      | int _ => cases hI
      | slice => cases hI
      | mat => cases hI
  | mat m =>
    rw [selIdx]
    constructor
    · intro h
      split at h
      · rename_i hd
        exact .mat hd.1 hd.2 (normIdx_iff.1 h)
      · cases h
    · intro h
      cases h with
      | mat h1 h2 h3 =>
        rw [if_pos ⟨h1, h2⟩]
        exact normIdx_iff.2 h3
  | _ =>
    rw [selIdx]
    · constructor
      · intro h; cases h
      · intro h; cases h
    all_goals (intros; contradiction)

theorem Picks.lt {F : Type} {n : ℕ} {I : PIdx F} {l : List ℕ} (h : Picks n I l) : ∀ j ∈ l, j < n := by
  have key : ∀ {vs : List ℤ} {l : List ℕ}, List.Forall₂ (Denotes n) vs l → ∀ j ∈ l, j < n := by
    intro vs l h
    induction h with
    | nil => simp
    | cons h _ ih =>
      intro j hj
      rcases List.mem_cons.1 hj with rfl | hj
      · exact h.lt
      · exact ih j hj
  cases h with
  | int h => intro j hj; rw [List.mem_singleton.1 hj]; exact h.lt
  | slice _ _ _ _ _ _ _ h => exact key h
  | list _ h => exact key h
  | mat _ _ h => exact key h

theorem getLin_sel {F : Type} {i : IMat} {a : PIdx F} (h : ∀ m, a ≠ .mat m) : getLin i a = getSel i a := by
  cases a with
  | mat m => exact absurd rfl (h m)
  | _ => rfl

/-- The index matrix of a selection. -/
theorem performExtraIndex_sel {F : Type} (g : F → Tree IMat → Except PyErr IMat) (i : IMat) (e : Option Prim) (b : Bool)
    (hb : b = false) {x : List (PIdx F)} {r c f} (h : Sel i.sp x r c f) : performExtraIndex g i e b x = .ok (subMat i r c f) := by
  have hd : ∀ {n : ℕ} {I : PIdx F} {l : List ℕ} (k : ℕ), Picks n I l → delegation I e k = .ok I := by
    intro n I l k h
    cases h with
    | int _ => rfl
    | slice => rfl
    | mat => rfl
    | @list is l h _ =>
      rw [delegation, if_neg]
      rintro ⟨_, h2⟩
      cases is with
      | nil => exact h rfl
      | cons i is => simp [Key.isStr] at h2
  have hne : ∀ {n : ℕ} {I : PIdx F} {l : List ℕ}, Picks n I l → I ≠ .nesteddict ∧ ∀ f, I ≠ .fn f := by
    intro n I l h
    cases h <;> exact ⟨by simp, by simp⟩
  subst hb
  cases h with
  | @rc I J la lb h1 h2 =>
    rw [performExtraIndex, hd 0 h1]
    · show Except.bind (delegation J e 1) _ = _
      rw [hd 1 h2]
      show getRC i I J = _
      rw [getRC]
      show Except.bind (selIdx _ I) _ = _
      rw [selIdx_iff.2 h1]
      show Except.bind (selIdx _ J) _ = _
      rw [selIdx_iff.2 h2]
      rfl
    · intro f; exact (hne h1).2 f
    · exact (hne h1).1
  | @col I l h1 hm h2 =>
    rw [performExtraIndex, hd 0 h1]
    · show getLin i I = _
      rw [getLin_sel hm, getSel]
      show Except.bind (selIdx _ I) _ = _
      rw [selIdx_iff.2 h1]
      show (if _ then _ else _) = _
      rw [if_neg h2]
      rfl
    · intro f; exact (hne h1).2 f
    · exact (hne h1).1
  | @row I l h1 hm h2 =>
    rw [performExtraIndex, hd 0 h1]
    · show getLin i I = _
      rw [getLin_sel hm, getSel]
      show Except.bind (selIdx _ I) _ = _
      rw [selIdx_iff.2 h1]
      show (if _ then _ else _) = _
      rw [if_pos h2, h2]
      show Except.ok _ = _
      congr 2
      funext p
      show (l.getD p.2 0 % 1, l.getD p.2 0 / 1) = _
      rw [Nat.mod_one, Nat.div_one]
    · intro f; exact (hne h1).2 f
    · exact (hne h1).1

theorem subMat_sp (i : IMat) (r c : ℕ) (f : ℕ × ℕ → ℕ × ℕ) :
    (subMat i r c f).sp = .ofPred r c fun p => (i.nzAt (f p)).isSome := by
  show Sparsity.mk r c _ = Sparsity.mk r c _
  congr 1
  induction Sparsity.positions r c with
  | nil => rfl
  | cons p l ih =>
    rw [List.filterMap_cons, List.filter_cons]
    cases h : i.nzAt (f p) with
    | none => simpa using ih
    | some v => simpa using ih

theorem subMat_WF (i : IMat) (r c : ℕ) (f : ℕ × ℕ → ℕ × ℕ) : (subMat i r c f).WF := by
  constructor
  · rw [subMat_sp]
    exact List.filter_sublist
  · simp [subMat]

theorem partMat_WF (i : IMat) (r c : ℕ) (f : ℕ × ℕ → Option (ℕ × ℕ)) : (partMat i r c f).WF := by
  constructor
  · have : (partMat i r c f).sp.nz = (Sparsity.positions r c).filter fun p => ((f p).bind i.nzAt).isSome := by
      simp only [partMat]
      induction Sparsity.positions r c with
      | nil => rfl
      | cons p l ih =>
        rw [List.filterMap_cons, List.filter_cons]
        cases (f p).bind i.nzAt with
        | none => exact ih
        | some v => exact congrArg (p :: ·) ih
    show List.Sublist _ _
    rw [this]
    exact List.filter_sublist
  · simp [partMat]

theorem subMat_nzAt_iff (i : IMat) (r c : ℕ) (f : ℕ × ℕ → ℕ × ℕ) (p : ℕ × ℕ) (v : ℕ) :
    (subMat i r c f).nzAt p = some v ↔ (p.1 < r ∧ p.2 < c) ∧ i.nzAt (f p) = some v := by
  rw [SMat.nzAt_eq_some (subMat_WF i r c f).1]
  simp only [subMat, List.getElem?_map, Option.map_eq_some_iff]
  constructor
  · rintro ⟨j, ⟨x, hx, rfl⟩, y, hy, rfl⟩
    rw [hx] at hy
    cases hy
    obtain ⟨q, hq, e⟩ := List.mem_filterMap.1 (List.mem_of_getElem? hx)
    obtain ⟨w, hw, rfl⟩ := Option.map_eq_some_iff.1 e
    exact ⟨Sparsity.mem_positions.1 hq, hw⟩
  · rintro ⟨hp, hv⟩
    have : (p, v) ∈ (Sparsity.positions r c).filterMap fun p => (i.nzAt (f p)).map fun v => (p, v) :=
      List.mem_filterMap.2 ⟨p, Sparsity.mem_positions.2 hp, by rw [hv]; rfl⟩
    obtain ⟨j, hj⟩ := List.getElem?_of_mem this
    exact ⟨j, ⟨_, hj, rfl⟩, _, hj, rfl⟩

theorem subMat_mem {i : IMat} {r c : ℕ} {f : ℕ × ℕ → ℕ × ℕ} {k : ℕ} :
    k ∈ (subMat i r c f).data ↔ ∃ p : ℕ × ℕ, p.1 < r ∧ p.2 < c ∧ i.nzAt (f p) = some k := by
  simp only [subMat, List.mem_map, List.mem_filterMap, Option.map_eq_some_iff, Sparsity.mem_positions]
  constructor
  · rintro ⟨_, ⟨p, hp, v, hv, rfl⟩, rfl⟩
    exact ⟨p, hp.1, hp.2, hv⟩
  · rintro ⟨p, h1, h2, h3⟩
    exact ⟨(p, k), ⟨p, ⟨h1, h2⟩, k, h3, rfl⟩, rfl⟩

theorem nzAt_inj {i : IMat} (hw : i.WF) (hn : i.data.Nodup) {p q : ℕ × ℕ} {k : ℕ} (h : i.nzAt p = some k)
    (h' : i.nzAt q = some k) : p = q := by
  obtain ⟨j, h1, h2⟩ := (SMat.nzAt_eq_some hw.1).1 h
  obtain ⟨j', h1', h2'⟩ := (SMat.nzAt_eq_some hw.1).1 h'
  obtain ⟨hj, e⟩ := List.getElem?_eq_some_iff.1 h2
  obtain ⟨hj', e'⟩ := List.getElem?_eq_some_iff.1 h2'
  have : j = j' := (List.Nodup.getElem_inj_iff hn).1 (e.trans e'.symm)
  subst this
  rw [h1] at h1'
  exact Option.some.inj h1'

theorem subMat_nodup {i : IMat} (hw : i.WF) (hn : i.data.Nodup) {r c : ℕ} {f : ℕ × ℕ → ℕ × ℕ}
    (hf : ∀ p q : ℕ × ℕ, p.1 < r → p.2 < c → q.1 < r → q.2 < c → f p = f q → p = q) : (subMat i r c f).data.Nodup := by
  have hW := subMat_WF i r c f
  rw [List.nodup_iff_injective_getElem]
  rintro ⟨j, hj⟩ ⟨j', hj'⟩ e
  simp only at e
  have hl := hW.2
  have h1 := (SMat.nzAt_eq_some hW.1).2 ⟨j, List.getElem?_eq_getElem (by omega), List.getElem?_eq_getElem hj⟩
  have h2 := (SMat.nzAt_eq_some hW.1).2 ⟨j', List.getElem?_eq_getElem (by omega), List.getElem?_eq_getElem hj'⟩
  rw [subMat_nzAt_iff] at h1 h2
  rw [← e] at h2
  have := hf _ _ h1.1.1 h1.1.2 h2.1.1 h2.1.2 (nzAt_inj hw hn h1.2 h2.2)
  exact Fin.ext ((List.Nodup.getElem_inj_iff hW.1.nodup).1 this)

/-! ## C64 -/

variable {V : Type}

/-- The index matrix of a part of an element. -/
theorem i_sel {c : CS} {ls} (hb : Built c ls) (hwf : WFs c.struct.entries c.struct.order) {a : CIdx} {p : Prim}
    (ha : IsLeaf c.struct.entries a p) {x : List (PIdx (PyFn V))} {r k f} (hx : Sel p.sp x r k f) :
    ∃ i : IMat, dictGet c.map a = some i ∧ i.WF ∧ i.data.Nodup ∧ (∀ k ∈ i.data, k < c.size) ∧ i.sp = p.sp ∧
      imCall applyIdx c.map a (some x) (some p) = .ok (subMat i r k f) ∧
      c.i (a.map .ofKey ++ x) = .ok (.leaf (subMat i r k f)) := by
  obtain ⟨i, hg, hw, hnd, hin, hsp⟩ := hb.part hwf (.leaf ha)
  have h : imCall applyIdx c.map a (some x) (some p) = .ok (subMat i r k f) := by
    rw [imCall, hg]
    exact performExtraIndex_sel applyIdx i (some p) false rfl (by rw [hsp]; exact hx)
  refine ⟨i, hg, hw, hnd, hin, hsp, h, ?_⟩
  rw [c.i_part hwf (.leaf ha) x (by simp), h]
  rfl

section
variable [Zero V] [Add V] [Sub V]

/-- **C64** (reading): for an element `a` (not of type 'symm') and extra indices `x` that select part of it, `s[a, x]` is the
submatrix of `s[a]` with the selected rows and columns (values and pattern). -/
theorem C64_read (s : Struct) (hwf : WFs s.entries s.order) (c : CS) (hc : CS.ofStruct s = .ok c) (master : List V)
    (hlen : master.length = c.size) (a : CIdx) (p : Prim) (ha : IsLeaf s.entries a p) (hs : p.symm = false)
    (x : List (PIdx (PyFn V))) (r k : ℕ) (f : ℕ × ℕ → ℕ × ℕ) (hx : Sel p.sp x r k f) :
    ∃ m m', (⟨c, master, []⟩ : Obj V).getitem (a.map .ofKey) = .ok (.leaf m) ∧ m.sp = p.sp ∧
      (⟨c, master, []⟩ : Obj V).getitem (a.map .ofKey ++ x) = .ok (.leaf m') ∧ m'.sp.rows = r ∧ m'.sp.cols = k ∧ m'.WF ∧
      ∀ q : ℕ × ℕ, q.1 < r → q.2 < k → (q ∈ m'.sp.nz ↔ f q ∈ m.sp.nz) ∧ m'.at' q = m.at' (f q) := by
  obtain ⟨c', ls, hc', rfl, hb⟩ := ofStruct_built hwf
  rw [hc] at hc'
  cases hc'
  have hs' : ∀ p', some p = some p' → p'.symm = false := by rintro _ ⟨⟩; exact hs
  obtain ⟨i, hg, hw, hnd, hin, hsp, hi, _⟩ := i_sel hb hwf ha hx
  obtain ⟨i', hg', _, _, _, _, h1⟩ := getitem_plain hb hwf hlen (.leaf ha) hs'
  rw [hg] at hg'
  cases hg'
  have hW := subMat_WF i r k f
  have hn : ∀ q : ℕ × ℕ, q.1 < r → q.2 < k → (subMat i r k f).nzAt q = i.nzAt (f q) := by
    intro q h1 h2
    apply Option.ext
    intro v
    rw [subMat_nzAt_iff]
    exact ⟨fun h => h.2, fun h => ⟨⟨h1, h2⟩, h⟩⟩
  have hin' : ∀ j ∈ (subMat i r k f).data, j < master.length := by
    intro j hj
    obtain ⟨q, _, _, h⟩ := subMat_mem.1 hj
    obtain ⟨t, _, h2⟩ := (SMat.nzAt_eq_some hw.1).1 h
    rw [hlen]
    exact hin j (List.mem_of_getElem? h2)
  refine ⟨_, (subMat i r k f).mapData fun j => master.getD j 0, h1, rfl, ?_, rfl, rfl, ?_, ?_⟩
  · rw [Obj.getitem_part _ hwf (.leaf ha) x (by simp)]
    simp only
    rw [getCall_plain _ _ _ _ _ hs' hi, gather_ok hin']
    rfl
  · exact ⟨hW.1, by rw [SMat.mapData]; simp [hW.2]⟩
  · intro q hq1 hq2
    constructor
    · rw [show ((subMat i r k f).mapData fun j => master.getD j 0).sp = (subMat i r k f).sp from rfl, subMat_sp,
        Sparsity.ofPred]
      simp only [List.mem_filter, Sparsity.mem_positions, hq1, hq2, true_and, and_self]
      rw [← hsp, ← not_iff_not, ← SMat.nzAt_eq_none hw]
      simp
    · have e : (⟨p.sp, i.data.map fun j => master.getD j 0⟩ : SMat V) = i.mapData fun j => master.getD j 0 := by
        rw [← hsp]; rfl
      rw [e, SMat.at', SMat.at', SMat.nzAt_mapData, SMat.nzAt_mapData, hn q hq1 hq2]

/-- **C64** (writing): after `s[a, x] = v` for a value that fits the selected part (each element selected once), the selected
elements have the values of `v`, and nothing else has changed; in particular `s[a, x]` reads `v`. -/
theorem C64_write (s : Struct) (hwf : WFs s.entries s.order) (c : CS) (hc : CS.ofStruct s = .ok c) (master : List V)
    (hlen : master.length = c.size) (a : CIdx) (p : Prim) (ha : IsLeaf s.entries a p) (hs : p.symm = false)
    (x : List (PIdx (PyFn V))) (r k : ℕ) (f : ℕ × ℕ → ℕ × ℕ) (hx : Sel p.sp x r k f)
    (hf : ∀ q q' : ℕ × ℕ, q.1 < r → q.2 < k → q'.1 < r → q'.2 < k → f q = f q' → q = q') :
    ∃ i sub : IMat, c.i (V := V) (a.map .ofKey) = .ok (.leaf i) ∧ i.sp = p.sp ∧
      sub.sp.rows = r ∧ sub.sp.cols = k ∧ (∀ q, q ∈ sub.sp.nz ↔ q.1 < r ∧ q.2 < k ∧ f q ∈ p.sp.nz) ∧
      ∀ (pay : Pay V) (m : SMat V), IsValue pay m → m.WF → ∀ g, Fits sub.sp m g →
        ∃ master', (⟨c, master, []⟩ : Obj V).setitem (a.map .ofKey ++ x) pay = (.ok (), ⟨c, master', []⟩) ∧
          master'.length = master.length ∧
          (⟨c, master', []⟩ : Obj V).getitem (a.map .ofKey ++ x) = .ok (.leaf ⟨sub.sp, sub.sp.nz.map g⟩) ∧
          (∀ q : ℕ × ℕ, q.1 < r → q.2 < k → ∀ j, i.nzAt (f q) = some j → master'[j]? = some (g q)) ∧
          ∀ j, (∀ q : ℕ × ℕ, q.1 < r → q.2 < k → i.nzAt (f q) ≠ some j) → master'[j]? = master[j]? := by
  obtain ⟨c', ls, hc', rfl, hb⟩ := ofStruct_built hwf
  rw [hc] at hc'
  cases hc'
  have hs' : ∀ p', some p = some p' → p'.symm = false := by rintro _ ⟨⟩; exact hs
  obtain ⟨i, hg, hw, hnd, hin, hsp, hi, hi'⟩ := i_sel hb hwf ha hx
  have hW := subMat_WF i r k f
  have hin' : ∀ j ∈ (subMat i r k f).data, j < c.size := by
    intro j hj
    obtain ⟨q, _, _, h⟩ := subMat_mem.1 hj
    obtain ⟨t, _, h2⟩ := (SMat.nzAt_eq_some hw.1).1 h
    exact hin j (List.mem_of_getElem? h2)
  have hnd' := subMat_nodup hw hnd hf
  refine ⟨i, subMat i r k f, ?_, hsp, rfl, rfl, ?_, ?_⟩
  · rw [c.i_leaf hwf ha, hg]
  · intro q
    rw [subMat_sp, Sparsity.ofPred]
    simp only [List.mem_filter, Sparsity.mem_positions]
    have : (i.nzAt (f q)).isSome = true ↔ f q ∈ i.sp.nz := by
      rw [← not_iff_not, ← SMat.nzAt_eq_none hw]
      simp
    rw [← hsp, and_assoc, this]
  · intro pay m hp hm g hg'
    obtain ⟨master', h1, h2, h3, h4⟩ := C43_extra _ hwf c hc master hlen a (some p) _ (.leaf ha) hs' x (by simp) _ hi' hW hnd'
      hin' pay m hp hm g hg'
    refine ⟨master', h1, h2, h3, ?_, ?_⟩
    · intro q hq1 hq2 j hj
      rw [Obj.getitem_part _ hwf (.leaf ha) x (by simp)] at h3
      simp only at h3
      rw [getCall_plain _ _ _ _ _ hs' hi, gather_ok (by rw [h2, hlen]; exact hin')] at h3
      have e : (subMat i r k f).data.map (fun j => master'.getD j 0) = (subMat i r k f).sp.nz.map g := by
        have := Tree.leaf.inj (Except.ok.inj h3)
        exact congrArg SMat.data this
      obtain ⟨t, ht1, ht2⟩ := (SMat.nzAt_eq_some hW.1).1 ((subMat_nzAt_iff i r k f q j).2 ⟨⟨hq1, hq2⟩, hj⟩)
      have := congrArg (fun l => l[t]?) e
      simp only [List.getElem?_map, ht1, ht2, Option.map_some, Option.some.injEq] at this
      have hj' : j < master'.length := by
        rw [h2, hlen]; exact hin' j (List.mem_of_getElem? ht2)
      rw [List.getD_eq_getElem?_getD, List.getElem?_eq_getElem hj', Option.getD_some] at this
      rw [List.getElem?_eq_getElem hj', this]
    · intro j hj
      apply h4
      intro hm
      obtain ⟨q, hq1, hq2, h⟩ := subMat_mem.1 hm
      exact hj q hq1 hq2 h

omit [Zero V] [Add V] [Sub V] in
theorem performExtraIndex_none (i : IMat) (p : Prim) (hss : p.ss = none) {x : List (PIdx (PyFn V))} (hne : x ≠ [])
    (hx : ∀ I ∈ x, I ≠ .nesteddict ∧ ∀ f, I ≠ .fn f) (hm : ∀ m, x ≠ [.mat m]) (h : ∀ r k f, ¬ Sel i.sp x r k f) :
    ∃ e, performExtraIndex applyIdx i (some p) false x = .error e := by
  have hd : ∀ (I : PIdx (PyFn V)) (k : ℕ), delegation I (some p) k = .ok I ∨ ∃ e, delegation I (some p) k = .error e := by
    intro I k
    cases I <;> simp only [delegation, hss]
    case str => exact .inr ⟨_, rfl⟩
    case list l =>
      split
      · exact .inr ⟨_, rfl⟩
      · exact .inl rfl
    case indexf => exact .inr ⟨_, rfl⟩
    case index => exact .inr ⟨_, rfl⟩
    all_goals exact .inl trivial
  have hsel : ∀ (n : ℕ) (I : PIdx (PyFn V)), (∃ l, Picks n I l) ∨ ∃ e, selIdx n I = .error e := by
    intro n I
    cases h : selIdx n I with
    | error e => exact .inr ⟨e, rfl⟩
    | ok l => exact .inl ⟨l, selIdx_iff.1 h⟩
  match x, hne with
  | [I], _ =>
    rw [performExtraIndex]
    · rcases hd I 0 with h1 | ⟨e, h1⟩
      · rw [h1]
        show ∃ e, getLin i I = _
        have hI : ∀ m, I ≠ .mat m := fun m e => hm m (by rw [e])
        rcases hsel (i.sp.rows * i.sp.cols) I with ⟨l, hl⟩ | ⟨e, he⟩
        · by_cases hr : i.sp.rows = 1
          · exact absurd (.row hl hI hr) (h _ _ _)
          · exact absurd (.col hl hI hr) (h _ _ _)
        · refine ⟨e, ?_⟩
          rw [getLin_sel hI, getSel]
          show Except.bind (selIdx _ I) _ = _
          rw [he]
          rfl
      · rw [h1]; exact ⟨e, rfl⟩
    · intro f; exact (hx I (by simp)).2 f
    · exact (hx I (by simp)).1
  | [I, J], _ =>
    rw [performExtraIndex]
    · rcases hd I 0 with h1 | ⟨e, h1⟩
      · rw [h1]
        show ∃ e, Except.bind (delegation J (some p) 1) _ = _
        rcases hd J 1 with h2 | ⟨e, h2⟩
        · rw [h2]
          show ∃ e, getRC i I J = _
          rcases hsel i.sp.rows I with ⟨la, hla⟩ | ⟨e, he⟩
          · rcases hsel i.sp.cols J with ⟨lb, hlb⟩ | ⟨e, he⟩
            · exact absurd (.rc hla hlb) (h _ _ _)
            · refine ⟨e, ?_⟩
              rw [getRC]
              show Except.bind (selIdx _ I) _ = _
              rw [selIdx_iff.2 hla]
              show Except.bind (selIdx _ J) _ = _
              rw [he]
              rfl
          · refine ⟨e, ?_⟩
            rw [getRC]
            show Except.bind (selIdx _ I) _ = _
            rw [he]
            rfl
        · rw [h2]; exact ⟨e, rfl⟩
      · rw [h1]; exact ⟨e, rfl⟩
    · intro f; exact (hx I (by simp)).2 f
    · exact (hx I (by simp)).1
  | I :: J :: K :: l, _ =>
    rw [performExtraIndex]
    · exact ⟨_, rfl⟩
    · simp
    · rintro f rest e
      exact (hx I (by simp)).2 f (List.cons.inj e).1
    · rintro rest e
      exact (hx I (by simp)).1 (List.cons.inj e).1
    · simp
    · simp

/-- **C64** (invalid selections): for an element without `shapestruct` and extra indices (neither callables nor `nesteddict`, and
not a single matrix) that do not select part of it (out of range, strings, more than two, ...), reading and writing raise; nothing is changed. -/
theorem C64_raise (s : Struct) (hwf : WFs s.entries s.order) (c : CS) (hc : CS.ofStruct s = .ok c) (master : List V)
    (a : CIdx) (p : Prim) (ha : IsLeaf s.entries a p) (hss : p.ss = none)
    (x : List (PIdx (PyFn V))) (hne : x ≠ []) (hx : ∀ I ∈ x, I ≠ .nesteddict ∧ ∀ f, I ≠ .fn f)
    (hm : ∀ m, x ≠ [.mat m]) (h : ∀ r k f, ¬ Sel p.sp x r k f) :
    (⟨c, master, []⟩ : Obj V).getitem (a.map .ofKey ++ x) = .error .generic ∧
      ∀ pay, (⟨c, master, []⟩ : Obj V).setitem (a.map .ofKey ++ x) pay = (.error .generic, ⟨c, master, []⟩) := by
  obtain ⟨c', ls, hc', rfl, hb⟩ := ofStruct_built hwf
  rw [hc] at hc'
  cases hc'
  obtain ⟨i, hg, hw, hnd, hin, hsp⟩ := hb.part hwf (.leaf ha)
  obtain ⟨e, he⟩ := performExtraIndex_none i p hss hne hx hm (by rw [hsp]; exact h)
  constructor
  · rw [Obj.getitem_part _ hwf (.leaf ha) x (by simp), getCall, hg]
    simp only [dictGet, List.lookup_nil, Option.getD_some, he]
    rfl
  · intro pay
    rw [Obj.setitem_part _ hwf (.leaf ha) x (by simp), setCall]
    cases pay.toMat with
    | error _ => rfl
    | ok m =>
      simp only [hg, Option.getD_some, he]
      rfl

/-- An extra index that is out of range raises. -/
theorem C64_out_of_range (s : Struct) (hwf : WFs s.entries s.order) (c : CS) (hc : CS.ofStruct s = .ok c) (master : List V)
    (a : CIdx) (p : Prim) (ha : IsLeaf s.entries a p) (hss : p.ss = none) (i j : ℤ)
    (h : i < -p.sp.rows ∨ p.sp.rows ≤ i ∨ j < -p.sp.cols ∨ p.sp.cols ≤ j) :
    (⟨c, master, []⟩ : Obj V).getitem (a.map .ofKey ++ [.int i, .int j]) = .error .generic ∧
      ∀ pay, (⟨c, master, []⟩ : Obj V).setitem (a.map .ofKey ++ [.int i, .int j]) pay = (.error .generic, ⟨c, master, []⟩) := by
  apply C64_raise s hwf c hc master a p ha hss _ (by simp)
  · intro I hI
    simp only [List.mem_cons, List.not_mem_nil, or_false] at hI
    rcases hI with rfl | rfl <;> exact ⟨by simp, by simp⟩
  · simp
  · intro r k f hsel
    cases hsel with
    | rc h1 h2 =>
      cases h1 with
      | int h1 =>
        cases h2 with
        | int h2 =>
          obtain ⟨_, _, _⟩ := h1
          obtain ⟨_, _, _⟩ := h2
          omega

end

/-- In `exStruct`, the second row of the upper triangular matrix `s["n",0,"P"]` is read as `s["n",0,"P",-1,:]`: a row with a
structural zero and one element. -/
example (c : CS) (hc : CS.ofStruct exStruct = .ok c) (master : List ℚ) (hlen : master.length = c.size) :
    ∃ m m', (⟨c, master, []⟩ : Obj ℚ).getitem [.str "n", .int 0, .str "P"] = .ok (.leaf m) ∧
      (⟨c, master, []⟩ : Obj ℚ).getitem [.str "n", .int 0, .str "P", .int (-1), .slice none none none] = .ok (.leaf m') ∧
      m'.sp.rows = 1 ∧ m'.sp.cols = 2 ∧ (0, 0) ∉ m'.sp.nz ∧ (0, 1) ∈ m'.sp.nz ∧ m'.at' (0, 1) = m.at' (1, 1) := by
  have hn : Entry.nested "n" [2] exNested [.one "u", .one "P"] ∈ exStruct.entries := by simp [exStruct]
  have hks : InDims [.int 0] [2] := .cons ⟨0, by decide, rfl⟩ .nil
  have hl : IsLeaf exStruct.entries [.str "n", .int 0, .str "P"] ⟨.upper 2, false, none, none⟩ :=
    .nested (ks := [.int 0]) hn hks (.prim (ks := []) (List.mem_cons_of_mem _ List.mem_cons_self) .nil)
  have hI : Picks (F := PyFn ℚ) 2 (.int (-1)) [1] := .int ⟨by decide, by decide, by decide⟩
  have hJ : Picks (F := PyFn ℚ) 2 (.slice none none none) [0, 1] :=
    selIdx_iff.1 (by rw [selIdx, csSlice_all]; rfl)
  obtain ⟨m, m', h1, h2, h3, h4, h5, _, h6⟩ := C64_read exStruct exStruct_wf c hc master hlen _ _ hl rfl _ 1 2 _
    (Sel.rc (sp := .upper 2) hI hJ)
  refine ⟨m, m', h1, h3, h4, h5, ?_, ?_, ?_⟩
  · rw [(h6 (0, 0) (by decide) (by decide)).1, h2]; decide
  · rw [(h6 (0, 1) (by decide) (by decide)).1, h2]; decide
  · exact (h6 (0, 1) (by decide) (by decide)).2

/-- ... and `s["n",0,"P",-1,:] = 5` sets that element, `s["n",0,"P",2,0]` raises. -/
example (c : CS) (hc : CS.ofStruct exStruct = .ok c) (master : List ℚ) (hlen : master.length = c.size) :
    (∃ i master', c.i (V := ℚ) [.str "n", .int 0, .str "P"] = .ok (.leaf i) ∧
      (⟨c, master, []⟩ : Obj ℚ).setitem [.str "n", .int 0, .str "P", .int (-1), .slice none none none] (.num 5) =
        (.ok (), ⟨c, master', []⟩) ∧
      (∀ j, i.nzAt (1, 1) = some j → master'[j]? = some 5) ∧ ∀ j, i.nzAt (1, 1) ≠ some j → i.nzAt (1, 0) ≠ some j →
        master'[j]? = master[j]?) ∧
    (⟨c, master, []⟩ : Obj ℚ).getitem [.str "n", .int 0, .str "P", .int 2, .int 0] = .error .generic := by
  have hn : Entry.nested "n" [2] exNested [.one "u", .one "P"] ∈ exStruct.entries := by simp [exStruct]
  have hks : InDims [.int 0] [2] := .cons ⟨0, by decide, rfl⟩ .nil
  have hl : IsLeaf exStruct.entries [.str "n", .int 0, .str "P"] ⟨.upper 2, false, none, none⟩ :=
    .nested (ks := [.int 0]) hn hks (.prim (ks := []) (List.mem_cons_of_mem _ List.mem_cons_self) .nil)
  have hI : Picks (F := PyFn ℚ) 2 (.int (-1)) [1] := .int ⟨by decide, by decide, by decide⟩
  have hJ : Picks (F := PyFn ℚ) 2 (.slice none none none) [0, 1] :=
    selIdx_iff.1 (by rw [selIdx, csSlice_all]; rfl)
  constructor
  · obtain ⟨i, sub, h1, _, h3, h4, _, h6⟩ := C64_write exStruct exStruct_wf c hc master hlen _ _ hl rfl _ 1 2 _
      (Sel.rc (sp := .upper 2) hI hJ) (by
        rintro ⟨q1, q2⟩ ⟨q1', q2'⟩ a1 a2 a3 a4 e
        have e1 : q1 = 0 := by simp only at a1; omega
        have e2 : q1' = 0 := by simp only at a3; omega
        subst e1 e2
        simp only at a2 a4 e
        have b1 : q2 = 0 ∨ q2 = 1 := by omega
        have b2 : q2' = 0 ∨ q2' = 1 := by omega
        rcases b1 with rfl | rfl <;> rcases b2 with rfl | rfl <;> simp at e ⊢)
    obtain ⟨master', k1, _, _, k2, k3⟩ := h6 (.num 5) _ (.num 5) ⟨Sparsity.dense_canon _ _, rfl⟩ _ (.scalar rfl rfl)
    refine ⟨i, master', h1, k1, fun j hj => k2 (0, 1) (by decide) (by decide) j hj, ?_⟩
    intro j hj hj'
    apply k3
    rintro ⟨q1, q2⟩ a1 a2
    have e1 : q1 = 0 := by simp only at a1; omega
    subst e1
    simp only at a2
    have : q2 = 0 ∨ q2 = 1 := by omega
    rcases this with rfl | rfl
    · exact hj'
    · exact hj
  · exact (C64_out_of_range exStruct exStruct_wf c hc master _ _ hl rfl 2 0 (.inr (.inl (by decide)))).1

/-- Three indices on a matrix raise. -/
example (c : CS) (hc : CS.ofStruct exStruct = .ok c) (master : List ℚ) :
    (⟨c, master, []⟩ : Obj ℚ).getitem [.str "x", .int 0, .int 0, .int 0] = .error .generic := by
  refine (C64_raise exStruct exStruct_wf c hc master [.str "x"] ⟨.dense 2 1, false, none, none⟩
    (.prim (dims := []) (by simp [exStruct]) .nil) rfl [.int 0, .int 0, .int 0] (by simp) ?_ (by simp) ?_).1
  · intro I hI
    simp only [List.mem_cons, List.not_mem_nil, or_false, or_self] at hI
    subst hI
    exact ⟨by rintro ⟨⟩, by rintro f ⟨⟩⟩
  · intro r k f h
    cases h

end CE.St
