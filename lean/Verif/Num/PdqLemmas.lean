import Verif.Num.Pdq
import Verif.Num.PiecewisePolyLemmas

/-! Lemmas about the `Pdq` model. -/

open Polynomial

namespace CE

variable {K : Type} [Field K] [LinearOrder K] [IsStrictOrderedRing K]

/-- A collocation scheme of the given order as returned by `collocationPoints`: `order + 1 >= 2` ascending points in
`[0, 1]` of which the first is 0. -/
structure GoodScheme (cp : List K) (order : ℕ) : Prop where
  len : cp.length = order + 1
  pos : 1 ≤ order
  asc : Ascending cp
  zero : nd cp 0 = 0
  le_one : nd cp order ≤ 1

/-- Collocation point `j` of interval `n`. -/
def gridPoint (cp t : List K) (n j : ℕ) : K := nd cp j * (nd t (n + 1) - nd t n) + nd t n

omit [LinearOrder K] [IsStrictOrderedRing K] in
theorem nd_map {l : List K} (f : K → K) {i : ℕ} (h : i < l.length) : nd (l.map f) i = f (nd l i) := by
  simp only [nd, List.getD_eq_getElem?_getD, List.getElem?_map, List.getElem?_eq_getElem h,
    Option.map_some, Option.getD_some]

/-- The points of interval `n`. -/
def gridPoints (cp t : List K) (n : ℕ) : List K := cp.map fun x => x * (nd t (n + 1) - nd t n) + nd t n

omit [LinearOrder K] [IsStrictOrderedRing K] in
theorem gridPoints_length (cp t : List K) (n : ℕ) : (gridPoints cp t n).length = cp.length := by
  simp [gridPoints]

omit [LinearOrder K] [IsStrictOrderedRing K] in
theorem nd_gridPoints {cp t : List K} {n j : ℕ} (h : j < cp.length) :
    nd (gridPoints cp t n) j = gridPoint cp t n j := by
  rw [gridPoints, nd_map _ h]; rfl

theorem gridPoint_lt {cp t : List K} {order : ℕ} (g : GoodScheme cp order) (ht : Ascending t) {n j k : ℕ}
    (hn : n + 1 < t.length) (hjk : j < k) (hk : k ≤ order) :
    gridPoint cp t n j < gridPoint cp t n k := by
  have hh : 0 < nd t (n + 1) - nd t n := sub_pos.mpr (ht n hn)
  have := g.asc.lt hjk (by rw [g.len]; omega)
  have := mul_lt_mul_of_pos_right this hh
  unfold gridPoint; linarith

theorem gridPoints_asc {cp t : List K} {order : ℕ} (g : GoodScheme cp order) (ht : Ascending t) {n : ℕ}
    (hn : n + 1 < t.length) : Ascending (gridPoints cp t n) := by
  intro i hi
  rw [gridPoints_length, g.len] at hi
  rw [nd_gridPoints (by rw [g.len]; omega), nd_gridPoints (by rw [g.len]; omega)]
  exact gridPoint_lt g ht hn (Nat.lt_succ_self i) (by omega)

theorem gridPoint_zero {cp t : List K} {order : ℕ} (g : GoodScheme cp order) (n : ℕ) :
    gridPoint cp t n 0 = nd t n := by
  simp only [gridPoint, g.zero]; ring

omit [LinearOrder K] [IsStrictOrderedRing K] in
theorem gridPoint_one {cp t : List K} {order : ℕ} (h1 : nd cp order = 1) (n : ℕ) :
    gridPoint cp t n order = nd t (n + 1) := by
  simp only [gridPoint, h1]; ring

theorem gridPoint_lt_next {cp t : List K} {order : ℕ} (g : GoodScheme cp order) (ht : Ascending t) {n j : ℕ}
    (hn : n + 1 < t.length) (hj : j < order) : gridPoint cp t n j < nd t (n + 1) := by
  have h1 := gridPoint_lt g ht hn hj le_rfl
  have hh : 0 < nd t (n + 1) - nd t n := sub_pos.mpr (ht n hn)
  have h2 : gridPoint cp t n order ≤ nd t (n + 1) := by
    have := mul_le_mul_of_nonneg_right g.le_one hh.le
    unfold gridPoint; linarith
  exact lt_of_lt_of_le h1 h2

theorem gridPoint_ge {cp t : List K} {order : ℕ} (g : GoodScheme cp order) (ht : Ascending t) {n j : ℕ}
    (hn : n + 1 < t.length) (hj : j ≤ order) : nd t n ≤ gridPoint cp t n j := by
  rw [← gridPoint_zero g n]
  rcases Nat.eq_zero_or_pos j with rfl | h
  · exact le_rfl
  · exact (gridPoint_lt g ht hn h hj).le

/-- Successful pass of the constructor loop. -/
theorem intervalBasis_ok {cp t : List K} {order : ℕ} (g : GoodScheme cp order) (ht : Ascending t) {n : ℕ}
    (hn : n + 1 < t.length) :
    ∃ b, polynomialBasis (gridPoints cp t n) = .ok b ∧
      Pdq.intervalBasis (.ok cp) t order n = .ok (gridPoints cp t n, b) := by
  have hne : gridPoints cp t n ≠ [] := by
    intro h
    have := gridPoints_length cp t n
    rw [h, g.len] at this; simp at this
  refine ⟨_, polynomialBasis_ok hne, ?_⟩
  have hlen : (gridPoints cp t n).length = order + 1 := by rw [gridPoints_length, g.len]
  unfold Pdq.intervalBasis
  simp only [bind, Except.bind]
  rw [show ((n : ℤ) + 1) = ((n + 1 : ℕ) : ℤ) by push_cast; rfl, pyIndex_nat hn,
    pyIndex_nat (by omega : n < t.length)]
  simp only [← nd_eq_getElem hn, ← nd_eq_getElem (show n < t.length by omega)]
  rw [show (List.map (fun x => x * (nd t (n + 1) - nd t n) + nd t n) cp) = gridPoints cp t n from rfl]
  simp only [polynomialBasis_ok hne]
  rw [if_neg (by simp [hlen]), if_neg (by simp [hlen]), if_neg]
  · rfl
  · rw [not_not, List.all_eq_true]
    intro k hk
    have := gridPoints_asc g ht hn k (by have := List.mem_range.mp hk; change k < (gridPoints cp t n).length - 1 at this; omega)
    exact decide_eq_true this

/-- The loop that writes the blocks of the big differentiation matrix. -/
theorem assemble_fold (order : ℕ) (hpos : 1 ≤ order) (l : List (Basis K))
    (hl : ∀ b ∈ l, b.numPoints = order + 1 ∧ b.D.rows = order + 1 ∧ b.D.cols = order + 1) (A : Mat K)
    (s : ℕ) (hA : ∀ i, s ≤ i → ∀ k, A.e i k = 0) :
    let r := l.foldl (fun (s : Mat K × ℕ) b =>
      (s.1.setBlock s.2 s.2 b.D.dropLastRow, s.2 + (b.numPoints - 1))) (A, s)
    r.1.rows = A.rows ∧ r.1.cols = A.cols ∧ (∀ i < s, ∀ k, r.1.e i k = A.e i k) ∧
      (∀ (n : ℕ) (hn : n < l.length), ∀ j < order, ∀ k, r.1.e (s + n * order + j) k =
        if s + n * order ≤ k ∧ k < s + n * order + (order + 1) then (l[n]).D.e j (k - (s + n * order))
        else 0) ∧ ∀ i, s + l.length * order ≤ i → ∀ k, r.1.e i k = 0 := by
  induction l generalizing A s with
  | nil => simpa using hA
  | cons b l ih =>
    obtain ⟨hb1, hb2, hb3⟩ := hl b (by simp)
    simp only [List.foldl_cons]
    have hs' : s + (b.numPoints - 1) = s + order := by rw [hb1]; rfl
    rw [hs']
    obtain ⟨h1, h2, h3, h4, h5⟩ := ih (fun b' hb' => hl b' (by simp [hb']))
      (A.setBlock s s b.D.dropLastRow) (s + order) (by
        intro i hi k
        simp only [Mat.setBlock, Mat.dropLastRow, hb2]
        rw [if_neg (by omega)]
        exact hA i (by omega) k)
    refine ⟨h1, h2, ?_, ?_, fun i hi k => h5 i (by
      rw [List.length_cons] at hi
      have : s + (l.length + 1) * order = s + order + l.length * order := by ring
      omega) k⟩
    · intro i hi k
      rw [h3 i (by omega) k]
      simp only [Mat.setBlock]
      rw [if_neg (by omega)]
    · intro n hn j hj k
      cases n with
      | zero =>
        simp only [Nat.zero_mul, Nat.add_zero, List.getElem_cons_zero]
        rw [h3 (s + j) (by omega) k]
        simp only [Mat.setBlock, Mat.dropLastRow, hb2, hb3]
        by_cases hk : s ≤ k ∧ k < s + (order + 1)
        · rw [if_pos (by omega), if_pos hk, Nat.add_sub_cancel_left]
        · rw [if_neg (by omega), if_neg hk]
          exact hA _ (by omega) _
      | succ n =>
        have := h4 n (by simpa using hn) j hj k
        rw [show s + order + n * order = s + (n + 1) * order by ring] at this
        simpa only [List.getElem_cons_succ] using this

omit [LinearOrder K] [IsStrictOrderedRing K] in
theorem sum_block (f g : ℕ → K) (a m T : ℕ) (h : a + m ≤ T) :
    ∑ k ∈ Finset.range T, f k * (if a ≤ k ∧ k < a + m then g (k - a) else 0)
      = ∑ k ∈ Finset.range m, f (a + k) * g k := by
  have hsub : (Finset.range m).map (addLeftEmbedding a) ⊆ Finset.range T := by
    intro k hk
    rw [Finset.mem_map] at hk
    obtain ⟨x, hx, rfl⟩ := hk
    simp only [addLeftEmbedding_apply, Finset.mem_range] at hx ⊢; omega
  rw [← Finset.sum_subset hsub]
  · rw [Finset.sum_map]
    apply Finset.sum_congr rfl
    intro k hk
    have := Finset.mem_range.mp hk
    simp only [addLeftEmbedding_apply]
    rw [if_pos (by omega), Nat.add_sub_cancel_left]
  · intro k _ hk
    rw [if_neg, mul_zero]
    rintro ⟨h1, h2⟩
    apply hk
    rw [Finset.mem_map]
    exact ⟨k - a, Finset.mem_range.mpr (by omega), by simp; omega⟩

/-- What a successfully constructed `Pdq` looks like. -/
structure Pdq.Built (p : Pdq K) (cp t : List K) (order : ℕ) : Prop where
  scheme : GoodScheme cp order
  asc : Ascending t
  two : 2 ≤ t.length
  bounds : p.intervalBounds = t
  ord : p.polyOrder = order
  blen : p.basis.length = t.length - 1
  basis : ∀ (n : ℕ) (hn : n < p.basis.length), polynomialBasis (gridPoints cp t n) = .ok p.basis[n]
  plen : p.collocationPoints.length = (t.length - 1) * order + 1
  pts : ∀ n < t.length - 1, ∀ j < order, nd p.collocationPoints (n * order + j) = gridPoint cp t n j
  last : nd p.collocationPoints ((t.length - 1) * order) = gridPoint cp t (t.length - 2) order
  groups : p.collocationGroups = (List.range (t.length - 1)).map fun i => List.range' (i * order) (order + 1)
  drows : p.bigD.rows = (t.length - 1) * order + 1
  dcols : p.bigD.cols = (t.length - 1) * order + 1
  dval : ∀ (n : ℕ) (hn : n < p.basis.length), ∀ j < order, ∀ k, p.bigD.e (n * order + j) k =
    if n * order ≤ k ∧ k < n * order + (order + 1) then (p.basis[n]).D.e j (k - n * order) else 0
  dlast : ∀ hn : t.length - 2 < p.basis.length, ∀ k, p.bigD.e ((t.length - 1) * order) k =
    if (t.length - 2) * order ≤ k ∧ k < (t.length - 2) * order + (order + 1)
      then (p.basis[t.length - 2]).D.e order (k - (t.length - 2) * order) else 0

theorem basis_shape {tau : List K} {b : Basis K} (h : polynomialBasis tau = .ok b) :
    b.tau = tau ∧ b.numPoints = tau.length ∧ b.D.rows = tau.length ∧ b.D.cols = tau.length := by
  unfold polynomialBasis at h
  split at h
  · cases h
  · cases h; exact ⟨rfl, rfl, rfl, rfl⟩

theorem Pdq.new_built {cp t : List K} {order : ℕ} (g : GoodScheme cp order) (ht : Ascending t)
    (h2 : 2 ≤ t.length) : ∃ p, Pdq.new (.ok cp) t order = .ok p ∧ p.Built cp t order := by
  obtain ⟨l, hl, hlen, hall⟩ := mapM_ok' (Pdq.intervalBasis (.ok cp) t order)
    (List.range (t.length - 1)) (fun n b => b.1 = gridPoints cp t n ∧
      polynomialBasis (gridPoints cp t n) = .ok b.2) (by
      intro n hn
      rw [List.mem_range] at hn
      obtain ⟨b, hb1, hb2⟩ := intervalBasis_ok g ht (n := n) (by omega)
      exact ⟨_, hb2, rfl, hb1⟩)
  rw [List.length_range] at hlen
  have hB : ∀ (n : ℕ) (hn : n < l.length), l[n].1 = gridPoints cp t n ∧
      polynomialBasis (gridPoints cp t n) = .ok l[n].2 := by
    intro n hn
    have := (hall n (by rw [List.length_range]; omega) hn).2
    simpa only [List.getElem_range] using this
  have hlast : l.getLast? = some l[l.length - 1] := by
    rw [List.getLast?_eq_getElem?, List.getElem?_eq_getElem (by omega)]
  have hgl : ∀ n, (gridPoints cp t n).length = order + 1 := fun n => by rw [gridPoints_length, g.len]
  have hgne : ∀ n, gridPoints cp t n ≠ [] := fun n h => by have := hgl n; rw [h] at this; simp at this
  set xs := l.map (fun tb => tb.1.dropLast) with hxs
  have hxsl : xs.length = l.length := by simp [hxs]
  have hxe : ∀ (n : ℕ) (hn : n < l.length), xs[n]'(by omega) = (gridPoints cp t n).dropLast := by
    intro n hn
    simp [hxs, (hB n hn).1]
  have hxl : ∀ x ∈ xs, x.length = order := by
    intro x hx
    obtain ⟨i, hi, rfl⟩ := List.mem_iff_getElem.mp hx
    rw [hxe i (by omega), List.length_dropLast, hgl]; rfl
  set lastp := (gridPoints cp t (t.length - 2)).getLast (hgne _) with hlp
  have hlpe : lastp = gridPoint cp t (t.length - 2) order := by
    rw [hlp, List.getLast_eq_getElem, ← nd_gridPoints (by rw [g.len]; omega)]
    rw [nd_eq_getElem (by rw [hgl]; omega)]
    simp [hgl]
  have hflen : xs.flatten.length = (t.length - 1) * order := by
    rw [flatten_length, off_const _ xs order hxl le_rfl, hxsl, hlen]
  set pts := xs.flatten ++ [lastp] with hpts
  have hptl : pts.length = (t.length - 1) * order + 1 := by simp [hpts, hflen]
  have hbl : (l.map Prod.snd).length = t.length - 1 := by simp [hlen]
  have hbasis : ∀ (n : ℕ) (hn : n < (l.map Prod.snd).length),
      polynomialBasis (gridPoints cp t n) = .ok (l.map Prod.snd)[n] := by
    intro n hn
    simp only [List.getElem_map]
    exact (hB n (by simpa using hn)).2
  have hshape : ∀ b ∈ l.map Prod.snd, b.numPoints = order + 1 ∧ b.D.rows = order + 1 ∧
      b.D.cols = order + 1 := by
    intro b hb
    obtain ⟨i, hi, rfl⟩ := List.mem_iff_getElem.mp hb
    obtain ⟨_, h1, h2, h3⟩ := basis_shape (hbasis i hi)
    rw [hgl] at h1 h2 h3
    exact ⟨h1, h2, h3⟩
  have hfold := assemble_fold order g.pos (l.map Prod.snd) hshape
    (⟨pts.length, pts.length, fun _ _ => 0⟩ : Mat K) 0 (fun _ _ _ => rfl)
  simp only [Nat.zero_add] at hfold
  obtain ⟨hf1, hf2, _, hf4, hf5⟩ := hfold
  have hblast : (l.map Prod.snd).getLast? = some l[l.length - 1].2 := by
    rw [List.getLast?_map, hlast]; rfl
  have hasm : ∀ n < t.length - 1, ∀ j < order, ∀ k, (Pdq.assembleD pts.length (l.map Prod.snd)).e
      (n * order + j) k = ((l.map Prod.snd).foldl (fun (s : Mat K × ℕ) b =>
      (s.1.setBlock s.2 s.2 b.D.dropLastRow, s.2 + (b.numPoints - 1)))
        ((⟨pts.length, pts.length, fun _ _ => 0⟩ : Mat K), 0)).1.e (n * order + j) k := by
    intro n hn j hj k
    unfold Pdq.assembleD
    simp only [hblast]
    refine if_neg ?_
    simp only [Mat.lastRow]
    rintro ⟨h1, _⟩
    rw [hptl, Nat.add_sub_cancel] at h1
    have h2 : (n + 1) * order ≤ (t.length - 1) * order := Nat.mul_le_mul_right _ hn
    have h3 : (n + 1) * order = n * order + order := by ring
    omega
  refine ⟨{ basis := l.map Prod.snd, collocationPoints := pts,
            collocationGroups := (List.range (t.length - 1)).map fun i => List.range' (i * order) (order + 1),
            intervalBounds := t, polyOrder := order,
            bigD := Pdq.assembleD pts.length (l.map Prod.snd) }, ?_, ?_⟩
  · unfold Pdq.new
    simp only [bind, Except.bind, hl, hlast]
    have h2 : l[l.length - 1].1 = gridPoints cp t (t.length - 2) := by
      rw [(hB (l.length - 1) (by omega)).1, show l.length - 1 = t.length - 2 by omega]
    rw [h2, pyIndex_last _ (hgne _)]
    rfl
  · refine ⟨g, ht, h2, rfl, rfl, hbl, hbasis, hptl, ?_, ?_, rfl, ?_, ?_, ?_, ?_⟩
    · intro n hn j hj
      have hn' : n < l.length := by omega
      have h1 := nd_flatten xs (n := n) (by omega) (j := j) (by rw [hxe n hn', List.length_dropLast, hgl]; omega)
      rw [off_const _ xs order hxl (by omega), hxe n hn'] at h1
      have hlt : n * order + j < xs.flatten.length := by
        have h3 : (n + 1) * order ≤ (t.length - 1) * order := Nat.mul_le_mul_right _ hn
        have h4 : (n + 1) * order = n * order + order := by ring
        omega
      have h5 : nd pts (n * order + j) = nd xs.flatten (n * order + j) := by
        simp only [nd, List.getD_eq_getElem?_getD, hpts]
        rw [List.getElem?_append_left hlt]
      rw [h5, h1, ← nd_gridPoints (by rw [g.len]; omega)]
      simp only [nd, List.getD_eq_getElem?_getD, List.getElem?_dropLast, hgl]
      rw [if_pos (by omega)]
    · simp only [nd, List.getD_eq_getElem?_getD, hpts]
      rw [List.getElem?_append_right (by omega)]
      simp [hflen, hlpe]
    · unfold Pdq.assembleD
      simp only [hblast]
      exact hf1.trans hptl
    · unfold Pdq.assembleD
      simp only [hblast]
      exact hf2.trans hptl
    · intro n hn j hj k
      simp only at hn ⊢
      rw [hasm n (by omega) j hj k]
      exact hf4 n hn j hj k
    · intro hn k
      simp only at hn ⊢
      have hbl' : (l.map Prod.snd)[t.length - 2] = l[l.length - 1].2 := by
        simp only [List.getElem_map, hlen]
        congr 2
      obtain ⟨hb1, hb2, hb3⟩ := hshape _ (List.getElem_mem hn)
      rw [hbl'] at hb1 hb2 hb3 ⊢
      unfold Pdq.assembleD
      simp only [hblast, Mat.setBlock, Mat.lastRow, hptl, hb1, hb2, hb3, Nat.add_sub_cancel]
      have he : (t.length - 1) * order + 1 - (order + 1) = (t.length - 2) * order := by
        have : (t.length - 1) * order = (t.length - 2) * order + order := by
          rw [show t.length - 1 = t.length - 2 + 1 by omega]; ring
        omega
      rw [he]
      by_cases hk : (t.length - 2) * order ≤ k ∧ k < (t.length - 2) * order + (order + 1)
      · rw [if_pos ⟨le_refl _, Nat.lt_succ_self _, hk.1, hk.2⟩, if_pos hk]
      · rw [if_neg (fun h => hk ⟨h.2.2.1, h.2.2.2⟩), if_neg hk]
        have h0 := hf5 ((t.length - 1) * order) (by rw [List.length_map, hlen]) k
        rw [hptl] at h0
        exact h0

end CE
