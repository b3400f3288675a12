import Verif.Num.FloatPdq
import Verif.Num.PdqLemmas
import Verif.Num.LemFloat3
import Verif.Num.PropsFloat

/-! Lemmas about `Pdq` and `cheb` in floating point. -/

namespace CE

namespace Flt

variable {f : Flt}

/-- The rounded difference is positive exactly if the numbers ascend. -/
theorem rnd_sub_pos {x y : ℝ} : 0 < f.rnd (y - x) ↔ x < y := by
  constructor
  · intro h
    by_contra hc
    have := Rounding.rnd_le_of_isFl (R := f.toRounding) Rounding.isFl_zero (sub_nonpos.mpr (not_lt.mp hc))
    linarith
  · exact fun h => Rounding.rnd_pos (sub_pos.mpr h)

/-- `tau * (b - a) + a` is accurate up to `γ 3 * (|a| + |b - a|)`. -/
theorem scaled_err {a b x : ℝ} (h0 : 0 ≤ x) (h1 : x ≤ 1) : |f.scaled a b x - (a + x * (b - a))| ≤ f.γ 3 * (|a| + |b - a|) := by
  have r1 : f.Rel 2 (f.rnd (x * f.rnd (b - a))) (x * (b - a)) :=
    (Rounding.Rel.rnd _).trans ((Rounding.Rel.refl (R := f.toRounding) x).mul (Rounding.Rel.rnd _))
  have e1 := r1.abs_sub
  have e2 : |f.scaled a b x - (f.rnd (x * f.rnd (b - a)) + a)| ≤ f.γ 1 * |f.rnd (x * f.rnd (b - a)) + a| :=
    (Rounding.Rel.rnd (R := f.toRounding) _).abs_sub
  have e3 : |f.rnd (x * f.rnd (b - a)) + a| ≤ (1 + f.γ 2) * |x * (b - a)| + |a| := (abs_add_le _ _).trans (by linarith [r1.abs_le])
  have e4 : |x * (b - a)| ≤ |b - a| := by
    rw [abs_mul, abs_of_nonneg h0]
    exact mul_le_of_le_one_left (abs_nonneg _) h1
  have g1 := f.γ_nonneg 1
  have g2 := f.γ_nonneg 2
  have g3 := f.one_add_γ_add 1 2
  have g13 : f.γ 1 ≤ f.γ 3 := f.γ_mono (by omega)
  have e5 := mul_le_mul_of_nonneg_left e3 g1
  have e6 := mul_le_mul_of_nonneg_left e4 (f.γ_nonneg 3)
  have e7 := mul_le_mul_of_nonneg_right g13 (abs_nonneg a)
  have e8 : f.γ 1 * ((1 + f.γ 2) * |x * (b - a)| + |a|) + f.γ 2 * |x * (b - a)| = f.γ 1 * |a| + f.γ 3 * |x * (b - a)| := by
    have : f.γ 3 = f.γ 1 * (1 + f.γ 2) + f.γ 2 := by linarith
    rw [this]
    ring
  have e9 := abs_sub_le (f.scaled a b x) (f.rnd (x * f.rnd (b - a)) + a) (a + x * (b - a))
  rw [show f.rnd (x * f.rnd (b - a)) + a - (a + x * (b - a)) = f.rnd (x * f.rnd (b - a)) - x * (b - a) by ring] at e9
  linarith

theorem scaled_zero {a b : ℝ} (ha : f.IsFl a) : f.scaled a b 0 = a := by
  unfold scaled
  rw [zero_mul, f.zero, zero_add]
  exact ha

theorem scaled_one {a b : ℝ} : f.scaled a b 1 = f.rnd (f.rnd (b - a) + a) := by
  unfold scaled
  rw [one_mul, f.idem]

theorem scaled_one_exact {a b : ℝ} (hb : f.IsFl b) (h : f.IsFl (b - a)) : f.scaled a b 1 = b := by
  rw [scaled_one, h, sub_add_cancel]
  exact hb

/-- The points of interval `n`. -/
noncomputable def points (f : Flt) (cp t : List ℝ) (n : ℕ) : List ℝ := cp.map (f.scaled (nd t n) (nd t (n + 1)))

theorem points_length (cp t : List ℝ) (n : ℕ) : (f.points cp t n).length = cp.length := by
  simp [points]

theorem nd_points {cp t : List ℝ} {n j : ℕ} (h : j < cp.length) : nd (f.points cp t n) j = f.scaled (nd t n) (nd t (n + 1)) (nd cp j) := by
  rw [points, nd_map _ h]

/-- One pass of the constructor loop. -/
theorem intervalBasis_iff {cp t : List ℝ} {order : ℕ} (hl : cp.length = order + 1) {n : ℕ} (hn : n + 1 < t.length) :
    ∃ b, f.polynomialBasis (f.points cp t n) = .ok b ∧
      (Ascending (f.points cp t n) → f.intervalBasis (.ok cp) t order n = .ok (f.points cp t n, b)) ∧
      (¬ Ascending (f.points cp t n) → f.intervalBasis (.ok cp) t order n = .error .assertion) := by
  have hlen : (f.points cp t n).length = order + 1 := by rw [points_length, hl]
  have hne : f.points cp t n ≠ [] := by
    intro h
    rw [h] at hlen
    simp at hlen
  refine ⟨_, f.polynomialBasis_ok hne, ?_⟩
  have asc : ((List.range ((f.points cp t n).length - 1)).all fun k => decide (0 < f.rnd (nd (f.points cp t n) (k + 1) - nd (f.points cp t n) k))) = true
      ↔ Ascending (f.points cp t n) := by
    rw [List.all_eq_true]
    simp only [List.mem_range, decide_eq_true_eq, rnd_sub_pos]
    exact ⟨fun h i hi => h i (by omega), fun h i hi => h i (by omega)⟩
  unfold intervalBasis
  simp only [bind, Except.bind]
  rw [show ((n : ℤ) + 1) = ((n + 1 : ℕ) : ℤ) by push_cast; rfl, pyIndex_nat hn, pyIndex_nat (by omega : n < t.length)]
  simp only [← nd_eq_getElem hn, ← nd_eq_getElem (show n < t.length by omega)]
  rw [show List.map (f.scaled (nd t n) (nd t (n + 1))) cp = f.points cp t n from rfl]
  simp only [f.polynomialBasis_ok hne]
  rw [if_neg (by simp [hlen]), if_neg (by simp [hlen])]
  refine ⟨fun h => ?_, fun h => ?_⟩
  · rw [if_neg (not_not.mpr (asc.mpr h))]
    rfl
  · rw [if_pos (fun h' => h (asc.mp h'))]

theorem basis_shape {tau : List ℝ} {b : Basis} (h : f.polynomialBasis tau = .ok b) :
    b.tau = tau ∧ b.D.rows = tau.length ∧ b.D.cols = tau.length := by
  unfold polynomialBasis at h
  split at h
  · cases h
  · cases h
    exact ⟨rfl, rfl, rfl⟩

/-- What a successfully constructed `Pdq` looks like. -/
structure Grid.Built (f : Flt) (p : Grid) (cp t : List ℝ) (order : ℕ) : Prop where
  bounds : p.intervalBounds = t
  ord : p.polyOrder = order
  blen : p.basis.length = t.length - 1
  basis : ∀ (n : ℕ) (hn : n < p.basis.length), f.polynomialBasis (f.points cp t n) = .ok p.basis[n]
  plen : p.collocationPoints.length = (t.length - 1) * order + 1
  pts : ∀ n < t.length - 1, ∀ j < order, nd p.collocationPoints (n * order + j) = f.scaled (nd t n) (nd t (n + 1)) (nd cp j)
  last : nd p.collocationPoints ((t.length - 1) * order) = f.scaled (nd t (t.length - 2)) (nd t (t.length - 1)) (nd cp order)
  groups : p.collocationGroups = (List.range (t.length - 1)).map fun i => List.range' (i * order) (order + 1)
  drows : p.bigD.rows = (t.length - 1) * order + 1
  dcols : p.bigD.cols = (t.length - 1) * order + 1
  dval : ∀ (n : ℕ) (hn : n < p.basis.length), ∀ j < order, ∀ k, p.bigD.e (n * order + j) k =
    if n * order ≤ k ∧ k < n * order + (order + 1) then (p.basis[n]).D.e j (k - n * order) else 0
  dlast : ∀ hn : t.length - 2 < p.basis.length, ∀ k, p.bigD.e ((t.length - 1) * order) k =
    if (t.length - 2) * order ≤ k ∧ k < (t.length - 2) * order + (order + 1)
      then (p.basis[t.length - 2]).D.e order (k - (t.length - 2) * order) else 0

theorem pdqNew_built {cp t : List ℝ} {order : ℕ} (hcl : cp.length = order + 1) (hpos : 1 ≤ order)
    (ht : ∀ n, n + 1 < t.length → Ascending (f.points cp t n)) (h2 : 2 ≤ t.length) :
    ∃ p, f.pdqNew (.ok cp) t order = .ok p ∧ p.Built f cp t order := by
  obtain ⟨l, hl, hlen, hall⟩ := mapM_ok' (f.intervalBasis (.ok cp) t order)
    (List.range (t.length - 1)) (fun n b => b.1 = f.points cp t n ∧
      f.polynomialBasis (f.points cp t n) = .ok b.2) (by
      intro n hn
      rw [List.mem_range] at hn
      obtain ⟨b, hb1, hb2, -⟩ := f.intervalBasis_iff hcl (t := t) (n := n) (by omega)
      exact ⟨_, hb2 (ht n (by omega)), rfl, hb1⟩)
  rw [List.length_range] at hlen
  have hB : ∀ (n : ℕ) (hn : n < l.length), l[n].1 = f.points cp t n ∧
      f.polynomialBasis (f.points cp t n) = .ok l[n].2 := by
    intro n hn
    have := (hall n (by rw [List.length_range]; omega) hn).2
    simpa only [List.getElem_range] using this
  have hlast : l.getLast? = some l[l.length - 1] := by
    rw [List.getLast?_eq_getElem?, List.getElem?_eq_getElem (by omega)]
  have hgl : ∀ n, (f.points cp t n).length = order + 1 := fun n => by rw [points_length, hcl]
  have hgne : ∀ n, f.points cp t n ≠ [] := fun n h => by have := hgl n; rw [h] at this; simp at this
  set xs := l.map (fun tb => tb.1.dropLast) with hxs
  have hxsl : xs.length = l.length := by simp [hxs]
  have hxe : ∀ (n : ℕ) (hn : n < l.length), xs[n]'(by omega) = (f.points cp t n).dropLast := by
    intro n hn
    simp [hxs, (hB n hn).1]
  have hxl : ∀ x ∈ xs, x.length = order := by
    intro x hx
    obtain ⟨i, hi, rfl⟩ := List.mem_iff_getElem.mp hx
    rw [hxe i (by omega), List.length_dropLast, hgl]; rfl
  set lastp := (f.points cp t (t.length - 2)).getLast (hgne _) with hlp
  have hlpe : lastp = f.scaled (nd t (t.length - 2)) (nd t (t.length - 1)) (nd cp order) := by
    have e := nd_points (f := f) (cp := cp) (t := t) (n := t.length - 2) (j := order) (by rw [hcl]; omega)
    rw [show t.length - 2 + 1 = t.length - 1 by omega] at e
    rw [hlp, List.getLast_eq_getElem, ← e]
    rw [nd_eq_getElem (by rw [hgl]; omega)]
    simp [hgl]
  have hflen : xs.flatten.length = (t.length - 1) * order := by
    rw [flatten_length, off_const _ xs order hxl le_rfl, hxsl, hlen]
  set pts := xs.flatten ++ [lastp] with hpts
  have hptl : pts.length = (t.length - 1) * order + 1 := by simp [hpts, hflen]
  have hbl : (l.map Prod.snd).length = t.length - 1 := by simp [hlen]
  have hbasis : ∀ (n : ℕ) (hn : n < (l.map Prod.snd).length),
      f.polynomialBasis (f.points cp t n) = .ok (l.map Prod.snd)[n] := by
    intro n hn
    simp only [List.getElem_map]
    exact (hB n (by simpa using hn)).2
  set B := (l.map Prod.snd).map Basis.plain with hBdef
  have hBl : B.length = t.length - 1 := by simp [hBdef, hlen]
  have hBe : ∀ (n : ℕ) (hn : n < B.length) (hn' : n < (l.map Prod.snd).length), B[n] = ((l.map Prod.snd)[n]).plain := by
    intro n hn hn'
    simp [hBdef]
  have hshape : ∀ b ∈ B, b.numPoints = order + 1 ∧ b.D.rows = order + 1 ∧ b.D.cols = order + 1 := by
    intro b hb
    obtain ⟨i, hi, rfl⟩ := List.mem_iff_getElem.mp hb
    have hi' : i < (l.map Prod.snd).length := by omega
    obtain ⟨h1, h2, h3⟩ := basis_shape (hbasis i hi')
    rw [hBe i hi hi']
    rw [hgl] at h2 h3
    refine ⟨?_, h2, h3⟩
    show ((l.map Prod.snd)[i]).tau.length = _
    rw [h1, hgl]
  have hfold := assemble_fold order hpos B hshape
    (⟨pts.length, pts.length, fun _ _ => 0⟩ : Mat ℝ) 0 (fun _ _ _ => rfl)
  simp only [Nat.zero_add] at hfold
  obtain ⟨hf1, hf2, _, hf4, hf5⟩ := hfold
  have hblast : B.getLast? = some l[l.length - 1].2.plain := by
    rw [hBdef, List.getLast?_map, List.getLast?_map, hlast]; rfl
  have hasm : ∀ n < t.length - 1, ∀ j < order, ∀ k, (Pdq.assembleD pts.length B).e
      (n * order + j) k = (B.foldl (fun (s : Mat ℝ × ℕ) b =>
      (s.1.setBlock s.2 s.2 b.D.dropLastRow, s.2 + (b.numPoints - 1)))
        ((⟨pts.length, pts.length, fun _ _ => 0⟩ : Mat ℝ), 0)).1.e (n * order + j) k := by
    intro n hn j hj k
    unfold Pdq.assembleD
    simp only [hblast]
    refine if_neg ?_
    simp only [Mat.lastRow]
    rintro ⟨h1, _⟩
    rw [hptl, Nat.add_sub_cancel] at h1
    have h2 : (n + 1) * order ≤ (t.length - 1) * order := Nat.mul_le_mul_right _ hn
    have h3 : (n + 1) * order = n * order + order := by ring
    omega
  refine ⟨{ basis := l.map Prod.snd, collocationPoints := pts,
            collocationGroups := (List.range (t.length - 1)).map fun i => List.range' (i * order) (order + 1),
            intervalBounds := t, polyOrder := order,
            bigD := Pdq.assembleD pts.length B }, ?_, ?_⟩
  · unfold pdqNew
    simp only [bind, Except.bind, hl, hlast]
    have h2 : l[l.length - 1].1 = f.points cp t (t.length - 2) := by
      rw [(hB (l.length - 1) (by omega)).1, show l.length - 1 = t.length - 2 by omega]
    rw [h2, pyIndex_last _ (hgne _)]
    rfl
  · refine ⟨rfl, rfl, hbl, hbasis, hptl, ?_, ?_, rfl, ?_, ?_, ?_, ?_⟩
    · intro n hn j hj
      have hn' : n < l.length := by omega
      have h1 := nd_flatten xs (n := n) (by omega) (j := j) (by rw [hxe n hn', List.length_dropLast, hgl]; omega)
      rw [off_const _ xs order hxl (by omega), hxe n hn'] at h1
      have hlt : n * order + j < xs.flatten.length := by
        have h3 : (n + 1) * order ≤ (t.length - 1) * order := Nat.mul_le_mul_right _ hn
        have h4 : (n + 1) * order = n * order + order := by ring
        omega
      have h5 : nd pts (n * order + j) = nd xs.flatten (n * order + j) := by
        simp only [nd, List.getD_eq_getElem?_getD, hpts]
        rw [List.getElem?_append_left hlt]
      rw [h5, h1, ← nd_points (by rw [hcl]; omega)]
      simp only [nd, List.getD_eq_getElem?_getD, List.getElem?_dropLast, hgl]
      rw [if_pos (by omega)]
    · simp only [nd, List.getD_eq_getElem?_getD, hpts]
      rw [List.getElem?_append_right (by omega)]
      simp [hflen, hlpe]
    · unfold Pdq.assembleD
      simp only [hblast]
      exact hf1.trans hptl
    · unfold Pdq.assembleD
      simp only [hblast]
      exact hf2.trans hptl
    · intro n hn j hj k
      simp only at hn ⊢
      rw [hasm n (by omega) j hj k]
      rw [hf4 n (by omega) j hj k, hBe n (by omega) hn]
      rfl
    · intro hn k
      simp only at hn ⊢
      have hbl' : (l.map Prod.snd)[t.length - 2] = l[l.length - 1].2 := by
        simp only [List.getElem_map, hlen]
        congr 2
      obtain ⟨hb1, hb2, hb3⟩ := hshape _ (List.getElem_mem (show t.length - 2 < B.length by omega))
      rw [hBe _ _ hn, hbl'] at hb1 hb2 hb3
      rw [hbl']
      unfold Pdq.assembleD
      simp only [hblast, Mat.setBlock, Mat.lastRow, hptl, hb1, hb2, hb3, Nat.add_sub_cancel]
      have he : (t.length - 1) * order + 1 - (order + 1) = (t.length - 2) * order := by
        have : (t.length - 1) * order = (t.length - 2) * order + order := by
          rw [show t.length - 1 = t.length - 2 + 1 by omega]; ring
        omega
      rw [he]
      by_cases hk : (t.length - 2) * order ≤ k ∧ k < (t.length - 2) * order + (order + 1)
      · rw [if_pos ⟨le_refl _, Nat.lt_succ_self _, hk.1, hk.2⟩, if_pos hk]
        rfl
      · rw [if_neg (fun h => hk ⟨h.2.2.1, h.2.2.2⟩), if_neg hk]
        have h0 := hf5 ((t.length - 1) * order) (by rw [hBl]) k
        rw [hptl] at h0
        exact h0

end Flt

end CE
