import Verif.Struct.LemDict

/-! # Sparsity patterns -/

namespace CE.St

namespace Sparsity

theorem mem_positions {r c : ℕ} {p : ℕ × ℕ} : p ∈ positions r c ↔ p.1 < r ∧ p.2 < c := by
  simp only [positions, List.mem_flatMap, List.mem_map, List.mem_range]
  constructor
  · rintro ⟨j, hj, i, hi, rfl⟩; exact ⟨hi, hj⟩
  · rintro ⟨h1, h2⟩; exact ⟨p.2, h2, p.1, h1, rfl⟩

theorem positions_length (r c : ℕ) : (positions r c).length = r * c := by
  simp [positions, List.length_flatMap, Nat.mul_comm]

theorem positions_nodup (r c : ℕ) : (positions r c).Nodup := by
  rw [positions, List.nodup_flatMap]
  refine ⟨fun j _ => (List.nodup_map_iff (fun a b h => (Prod.ext_iff.1 h).1)).2 List.nodup_range, ?_⟩
  apply List.Pairwise.imp_of_mem (R := fun a b => a ≠ b) ?_ List.nodup_range
  intro a b _ _ hab
  rw [Function.onFun, List.disjoint_left]
  intro x hx hy
  obtain ⟨u, _, rfl⟩ := List.mem_map.1 hx
  obtain ⟨v, _, e⟩ := List.mem_map.1 hy
  exact hab (Prod.ext_iff.1 e).2.symm

theorem positions_succ (r c : ℕ) : positions r (c + 1) = positions r c ++ (List.range r).map fun i => (i, c) := by
  rw [positions, List.range_succ, List.flatMap_append]
  simp [positions]

theorem positions_eq (r c : ℕ) : positions r c = (List.range (r * c)).map fun k => (k % r, k / r) := by
  induction c with
  | zero => simp [positions]
  | succ c ih =>
    rw [positions_succ, ih, Nat.mul_succ, List.range_add, List.map_append, List.map_map]
    congr 1
    apply List.map_congr_left
    intro i hi
    have hi := List.mem_range.1 hi
    have hr : 0 < r := by omega
    simp only [Function.comp]
    rw [Nat.mul_add_mod, Nat.mod_eq_of_lt hi, Nat.mul_add_div hr, Nat.div_eq_of_lt hi, Nat.add_zero]

theorem Canon.nodup {s : Sparsity} (h : s.Canon) : s.nz.Nodup := List.Sublist.nodup h (positions_nodup _ _)

theorem Canon.mem {s : Sparsity} (h : s.Canon) {p : ℕ × ℕ} (hp : p ∈ s.nz) : p.1 < s.rows ∧ p.2 < s.cols :=
  mem_positions.1 (List.Sublist.subset h hp)

theorem dense_canon (r c : ℕ) : (dense r c).Canon := List.Sublist.refl _

theorem ofPred_canon (r c : ℕ) (f : ℕ × ℕ → Bool) : (ofPred r c f).Canon := List.filter_sublist

theorem mem_ofPred {r c : ℕ} {f : ℕ × ℕ → Bool} {p : ℕ × ℕ} :
    p ∈ (ofPred r c f).nz ↔ (p.1 < r ∧ p.2 < c) ∧ f p = true := by
  simp [ofPred, mem_positions]

/-- A canonical pattern with as many nonzeros as elements is dense. -/
theorem Canon.eq_dense {s : Sparsity} (h : s.Canon) (hd : s.isDense = true) : s = dense s.rows s.cols := by
  obtain ⟨r, c, nz⟩ := s
  have hd' : nz.length = r * c := by simpa [isDense] using hd
  have : nz = positions r c := List.Sublist.eq_of_length h (by rw [hd', positions_length])
  rw [this]; rfl

theorem Canon.ext {s t : Sparsity} (hs : s.Canon) (ht : t.Canon) (hr : s.rows = t.rows) (hc : s.cols = t.cols)
    (h : ∀ p, p ∈ s.nz ↔ p ∈ t.nz) : s = t := by
  obtain ⟨r, c, nz⟩ := s
  obtain ⟨r', c', nz'⟩ := t
  simp only at hr hc h
  subst hr hc
  congr 1
  have e1 : nz = (positions r c).filter (· ∈ nz) := by
    exact sublist_eq_filter hs (positions_nodup r c)
  have e2 : nz' = (positions r c).filter (· ∈ nz') := sublist_eq_filter ht (positions_nodup r c)
  rw [e1, e2]
  apply List.filter_congr
  intro x _
  simp [h x]
where
  sublist_eq_filter {l m : List (ℕ × ℕ)} (h : l.Sublist m) (hm : m.Nodup) : l = m.filter (· ∈ l) := by
    induction h with
    | slnil => rfl
    | @cons l m a hlm ih =>
      rw [List.nodup_cons] at hm
      have : a ∉ l := fun ha => hm.1 (hlm.subset ha)
      rw [List.filter_cons_of_neg (by simpa using this)]
      exact ih hm.2
    | @cons_cons l m a hlm ih =>
      rw [List.nodup_cons] at hm
      rw [List.filter_cons_of_pos (by simp)]
      congr 1
      conv_lhs => rw [ih hm.2]
      apply List.filter_congr
      intro x hx
      have : x ≠ a := by rintro rfl; exact hm.1 hx
      simp [this]

theorem T_canon (s : Sparsity) : s.T.Canon := ofPred_canon _ _ _

theorem mem_T {s : Sparsity} (hs : s.Canon) {p : ℕ × ℕ} : p ∈ s.T.nz ↔ (p.2, p.1) ∈ s.nz := by
  rw [T, mem_ofPred]
  constructor
  · rintro ⟨_, h⟩; simpa using h
  · intro h
    have := hs.mem h
    exact ⟨⟨this.2, this.1⟩, by simpa using h⟩

end Sparsity

theorem lookup_zip {α β : Type} [BEq α] [LawfulBEq α] (l : List α) (d : List β) (hl : l.Nodup) (p : α) (v : β) :
    (l.zip d).lookup p = some v ↔ ∃ j : ℕ, l[j]? = some p ∧ d[j]? = some v := by
  induction l generalizing d with
  | nil => simp
  | cons a l ih =>
    rw [List.nodup_cons] at hl
    cases d with
    | nil => simp
    | cons b d =>
      rw [List.zip_cons_cons, List.lookup_cons]
      by_cases h : p = a
      · subst h
        simp only [beq_self_eq_true, cond_true]
        constructor
        · intro e; exact ⟨0, by simp, by simpa using e⟩
        · rintro ⟨j, h1, h2⟩
          cases j with
          | zero => simpa using h2
          | succ j => exact absurd (List.mem_of_getElem? (by simpa using h1)) hl.1
      · have hb : (p == a) = false := by simpa using h
        simp only [hb, cond_false]
        rw [ih d hl.2]
        constructor
        · rintro ⟨j, h1, h2⟩; exact ⟨j + 1, by simpa using h1, by simpa using h2⟩
        · rintro ⟨j, h1, h2⟩
          cases j with
          | zero => exact absurd (by simpa using h1 : a = p).symm h
          | succ j => exact ⟨j, by simpa using h1, by simpa using h2⟩

namespace SMat
variable {V : Type}

theorem nzAt_eq_some {m : SMat V} (h : m.sp.Canon) {p : ℕ × ℕ} {v : V} :
    m.nzAt p = some v ↔ ∃ j : ℕ, m.sp.nz[j]? = some p ∧ m.data[j]? = some v := lookup_zip _ _ h.nodup _ _

theorem nzAt_eq_none {m : SMat V} (h : m.WF) {p : ℕ × ℕ} : m.nzAt p = none ↔ p ∉ m.sp.nz := by
  constructor
  · intro hn hp
    obtain ⟨j, hj⟩ := List.getElem?_of_mem hp
    have hlt : j < m.sp.nz.length := by
      by_contra hc
      rw [List.getElem?_eq_none (by omega)] at hj
      cases hj
    have : m.nzAt p = some (m.data[j]'(by rw [h.2]; exact hlt)) :=
      (nzAt_eq_some h.1).2 ⟨j, hj, List.getElem?_eq_getElem _⟩
    rw [hn] at this
    cases this
  · intro hp
    cases hv : m.nzAt p with
    | none => rfl
    | some v =>
      obtain ⟨j, hj, _⟩ := (nzAt_eq_some h.1).1 hv
      exact absurd (List.mem_of_getElem? hj) hp

theorem at'_eq [Zero V] {m : SMat V} (h : m.sp.Canon) {j : ℕ} {p : ℕ × ℕ} {v : V} (h1 : m.sp.nz[j]? = some p)
    (h2 : m.data[j]? = some v) : m.at' p = v := by
  rw [at', (nzAt_eq_some h).2 ⟨j, h1, h2⟩]; rfl

theorem fill_WF {s : Sparsity} (h : s.Canon) (f : ℕ × ℕ → V) : (fill s f).WF := ⟨h, by simp [fill]⟩

theorem fill_nzAt {s : Sparsity} (h : s.Canon) (f : ℕ × ℕ → V) {p : ℕ × ℕ} (hp : p ∈ s.nz) : (fill s f).nzAt p = some (f p) := by
  obtain ⟨j, hj⟩ := List.getElem?_of_mem hp
  exact (nzAt_eq_some (m := fill s f) h).2 ⟨j, hj, by simp [fill, hj]⟩

theorem fill_at' [Zero V] {s : Sparsity} (h : s.Canon) (f : ℕ × ℕ → V) (p : ℕ × ℕ) :
    (fill s f).at' p = if p ∈ s.nz then f p else 0 := by
  split
  · rename_i hp
    rw [at', fill_nzAt h f hp]; rfl
  · rename_i hp
    rw [at', (nzAt_eq_none (fill_WF h f)).2 hp]; rfl

/-- A well-formed matrix is determined by its pattern and its values. -/
theorem eq_fill [Zero V] {m : SMat V} (h : m.WF) : m = fill m.sp m.at' := by
  obtain ⟨sp, d⟩ := m
  have : d = sp.nz.map (at' ⟨sp, d⟩) := by
    apply List.ext_getElem?
    intro j
    rw [List.getElem?_map]
    by_cases hj : j < sp.nz.length
    · have hj' : j < d.length := by have := h.2; simp only at this; omega
      rw [List.getElem?_eq_getElem hj, List.getElem?_eq_getElem hj', Option.map_some]
      congr 1
      exact (at'_eq (m := ⟨sp, d⟩) h.1 (List.getElem?_eq_getElem hj) (List.getElem?_eq_getElem hj')).symm
    · rw [List.getElem?_eq_none (by have := h.2; simp only at this; omega), List.getElem?_eq_none (by omega)]
      rfl
  rw [fill]
  exact congrArg (SMat.mk sp) this

theorem ext_at' [Zero V] {m n : SMat V} (hm : m.WF) (hn : n.WF) (hs : m.sp = n.sp) (h : ∀ p ∈ m.sp.nz, m.at' p = n.at' p) :
    m = n := by
  rw [eq_fill hm, eq_fill hn]
  unfold fill
  rw [hs] at h ⊢
  congr 1
  exact List.map_congr_left h

end SMat

end CE.St
