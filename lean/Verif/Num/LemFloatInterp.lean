import Verif.Num.LemFloatPdq
import Verif.Num.LemFloat2
import Verif.Num.PropsPdq3

/-! # Lemmas on `Pdq.interpolator` with rounding errors -/

open Polynomial

namespace CE

namespace Flt

variable {f : Flt}

/-- A constructed interpolator. -/
structure Interpolator.Built (f : Flt) (I : Interpolator) (p : Grid) (c : String) (N order a m : ℕ) : Prop where
  pdq : I.pdq = p
  cont : I.continuity = c
  groups : I.groups = (List.range N).map fun i => List.range' (i * order + a) m
  blen : I.basis.length = N
  basis : ∀ (n : ℕ) (hn : n < I.basis.length),
    f.polynomialBasis ((List.range' (n * order + a) m).map (nd p.collocationPoints)) = .ok I.basis[n]

theorem interpolator_ok {p : Grid} {cp t : List ℝ} {order : ℕ} (w : p.Built f cp t order) (hpos : 1 ≤ order) (c : String) {a m : ℕ}
    (hc : modeShape order c = some (a, m)) : ∃ I, f.interpolator p c = .ok I ∧ I.Built f p c (t.length - 1) order a m := by
  have ham : a + m ≤ order + 1 ∧ 1 ≤ m := by
    unfold modeShape at hc
    split_ifs at hc <;> · cases hc; omega
  have hg : interpolatorGroups p.collocationGroups c
      = .ok ((List.range (t.length - 1)).map fun i => List.range' (i * order + a) m) := by
    unfold interpolatorGroups
    rw [w.groups]
    rw [mapM_ok _ _ (fun g => if c = "both" then g else if c = "left" then g.tail else g.dropLast)]
    · rw [List.map_map]
      congr 1
      apply List.map_congr_left
      intro i _
      simp only [Function.comp]
      unfold modeShape at hc
      split_ifs at hc ⊢
      · cases hc; rfl
      · cases hc; rw [List.tail_range']; rfl
      · cases hc; rw [List.range'_1_concat, List.dropLast_concat]; rfl
    · intro g _
      unfold modeShape at hc
      split_ifs at hc ⊢ <;> rfl
  obtain ⟨l, hl, hlen, hall⟩ := mapM_ok' (fun g => do
      let pts ← fancyIndex p.collocationPoints g
      f.polynomialBasis pts) ((List.range (t.length - 1)).map fun i => List.range' (i * order + a) m)
    (fun g b => f.polynomialBasis (g.map (nd p.collocationPoints)) = .ok b) (by
      intro g hg
      rw [List.mem_map] at hg
      obtain ⟨i, hi, rfl⟩ := hg
      have hi := List.mem_range.mp hi
      have hle : (i + 1) * order ≤ (t.length - 1) * order := Nat.mul_le_mul_right _ hi
      have he : (i + 1) * order = i * order + order := by ring
      have hne : (List.range' (i * order + a) m).map (nd p.collocationPoints) ≠ [] := by
        intro h
        have := congrArg List.length h
        simp at this; omega
      refine ⟨_, ?_, f.polynomialBasis_ok hne⟩
      rw [fancyIndex_ok (by
        intro k hk
        rw [List.mem_range'_1] at hk
        rw [w.plen]; omega)]
      exact f.polynomialBasis_ok hne)
  refine ⟨⟨l, p, c, _⟩, ?_, rfl, rfl, rfl, by simpa using hlen, ?_⟩
  · unfold interpolator
    rw [hg]
    simp only
    rw [hl]; rfl
  · intro n hn
    have := (hall n (by rw [← hlen]; exact hn) hn).2
    simpa using this

/-- One query point. -/
theorem interpolatorAt_ok {I : Interpolator} {p : Grid} {cp t : List ℝ} {order a m : ℕ} {c : String} (b : I.Built f p c (t.length - 1) order a m)
    (w : p.Built f cp t order) (hasc : Ascending t) (hpts : Ascending p.collocationPoints) (ham : a + m ≤ order + 1) (hm : 1 ≤ m) (x : Mat ℝ) {n : ℕ}
    {ti : ℝ} (hn : InRight t n ti) (hx : n * order + a + m ≤ x.cols) :
    ∃ V, f.interpolatorAt I x ti = .ok V ∧ V.rows = x.rows ∧ V.cols = 1 ∧
      ∀ r, f.EvalOk ((List.range' (n * order + a) m).map (nd p.collocationPoints))
        (fun j => x.e r ((List.range' (n * order + a) m).getD j 0)) ti (V.e r 0) := by
  have hn1 : n + 1 < t.length := hn.1
  have hi := clip_searchsorted hasc .right hn
  have hng : n < I.groups.length := by rw [b.groups]; simp; omega
  have hnb : n < I.basis.length := by rw [b.blen]; omega
  have hgn : I.groups[n] = List.range' (n * order + a) m := by simp [b.groups]
  set tau := (List.range' (n * order + a) m).map (nd p.collocationPoints) with htau
  have hle : (n + 1) * order ≤ (t.length - 1) * order := Nat.mul_le_mul_right _ (by omega)
  have he : (n + 1) * order = n * order + order := by ring
  have hd : tau.Nodup := (subrange_asc hpts (by rw [w.plen]; omega)).nodup
  have hl : tau.length = m := by simp [htau]
  have hne : tau ≠ [] := by intro h; rw [h] at hl; simp at hl; omega
  have hfc : x.fancyCols (List.range' (n * order + a) m)
      = .ok ⟨x.rows, m, fun i j => x.e i ((List.range' (n * order + a) m).getD j 0)⟩ := by
    unfold Mat.fancyCols
    rw [if_pos (by
      rw [List.all_eq_true]
      intro k hk
      rw [List.mem_range'_1] at hk
      exact decide_eq_true (by omega)), List.length_range']
  obtain ⟨L, V, hL, hV, hr, hcol, hval⟩ := dot_ok hne hd _ (b.basis n hnb)
    ⟨x.rows, m, fun i j => x.e i ((List.range' (n * order + a) m).getD j 0)⟩ hl.symm [ti] (by simp)
  refine ⟨V, ?_, hr, hcol, fun r => hval 0 (by simp) r⟩
  unfold interpolatorAt
  simp only [b.pdq, w.bounds, hi]
  rw [pyIndex_nat hng, hgn]
  simp only [bind, Except.bind]
  rw [hfc, pyIndex_nat hnb]
  simp only [hL]
  exact hV

/-- All query points: the options 'both' and 'right', whose groups stay inside the data. -/
theorem interpolatorCall_ok {p : Grid} {cp t : List ℝ} {order : ℕ} (w : p.Built f cp t order) (hpos : 1 ≤ order) (h2 : 2 ≤ t.length)
    (hasc : Ascending t) (hpts : Ascending p.collocationPoints) (c : String)
    {m : ℕ} (hc : modeShape order c = some (0, m)) (x : Mat ℝ) (hx : x.cols = (t.length - 2) * order + m) (q : List ℝ) (hq : q ≠ []) :
    ∃ I V, f.interpolator p c = .ok I ∧ f.interpolatorCall I x q = .ok V ∧ V.rows = x.rows ∧ V.cols = q.length ∧
      ∀ i < q.length, ∀ n, InRight t n (nd q i) → ∀ r,
        f.EvalOk ((List.range' (n * order) m).map (nd p.collocationPoints)) (fun j => x.e r ((List.range' (n * order) m).getD j 0))
          (nd q i) (V.e r i) := by
  obtain ⟨f', hf, b⟩ := interpolator_ok w hpos c hc
  have hm : (c = "both" ∧ m = order + 1) ∨ (c = "right" ∧ m = order) := by
    unfold modeShape at hc
    split_ifs at hc with h1 h2 h3
    · cases hc; exact Or.inl ⟨h1, rfl⟩
    · cases hc
    · cases hc; exact Or.inr ⟨h3, rfl⟩
  obtain ⟨l, hl, hlen, hall⟩ := mapM_ok' (f.interpolatorAt f' x) q
    (fun ti V => V.rows = x.rows ∧ V.cols = 1 ∧ ∀ n, InRight t n ti → ∀ r,
      f.EvalOk ((List.range' (n * order) m).map (nd p.collocationPoints)) (fun j => x.e r ((List.range' (n * order) m).getD j 0)) ti (V.e r 0)) (by
      intro ti _
      obtain ⟨n, hn⟩ := exists_inSide h2 .right ti
      have hn1 : n + 1 < t.length := hn.1
      have hle : n * order ≤ (t.length - 2) * order := Nat.mul_le_mul_right _ (by omega)
      obtain ⟨V, hV, hr, hc, hv⟩ := interpolatorAt_ok b w hasc hpts (by omega) (by omega) x hn (by omega)
      exact ⟨V, hV, hr, hc, fun k hk => by rw [inSide_unique (s := .right) hasc hk hn]; exact hv⟩)
  have hmem : ∀ A ∈ l, A.rows = x.rows ∧ A.cols = 1 := by
    intro A hA
    obtain ⟨i, hi, rfl⟩ := List.mem_iff_getElem.mp hA
    exact ⟨(hall i (by omega) hi).2.1, (hall i (by omega) hi).2.2.1⟩
  have hne : l ≠ [] := by intro h; subst h; exact hq (List.length_eq_zero_iff.mp (by simpa using hlen.symm))
  refine ⟨f', Mat.hcat x.rows l, hf, ?_, hcat_rows _ _, ?_, ?_⟩
  · unfold interpolatorCall
    have he : (t.length - 1) * order = (t.length - 2) * order + order := by
      rw [show t.length - 1 = (t.length - 2) + 1 by omega]; ring
    have hexp : (if f'.continuity = "both" then f'.pdq.collocationPoints.length
        else f'.pdq.collocationPoints.length - 1) = x.cols := by
      rw [b.pdq, b.cont, w.plen]
      rcases hm with ⟨rfl, rfl⟩ | ⟨rfl, rfl⟩
      · rw [if_pos rfl]; omega
      · rw [if_neg (by decide)]; omega
    simp only [hexp, ne_eq, not_true_eq_false, ↓reduceIte, hl, bind, Except.bind]
    exact hstack_ok hne (fun A hA => (hmem A hA).1)
  · rw [hcat_cols, off_const _ l 1 (fun A hA => (hmem A hA).2) le_rfl, mul_one, hlen]
  · intro k hk n hn r
    have hk' : k < l.length := by omega
    have := hcat_e x.rows l hk' (j := 0) (by rw [(hmem _ (List.getElem_mem hk')).2]; exact one_pos) r
    rw [off_const _ l 1 (fun A hA => (hmem A hA).2) hk'.le, mul_one, add_zero] at this
    rw [this]
    have hx : nd q k = q[k] := nd_eq_getElem hk
    rw [hx] at hn ⊢
    exact (hall k hk hk').2.2.2 n hn r

/-- The Lagrange polynomials of a part of the points. -/
theorem lag_subrange (pts : List ℝ) (c0 m : ℕ) {j : ℕ} (hj : j < m) :
    Lagrange.basis (Finset.range m) (nd ((List.range' c0 m).map (nd pts))) j = Lagrange.basis (Finset.range m) (fun k => nd pts (c0 + k)) j := by
  unfold Lagrange.basis
  refine Finset.prod_congr rfl fun k hk => ?_
  have hk' := Finset.mem_range.mp (Finset.mem_of_mem_erase hk)
  rw [nd_subrange _ _ _ _ hj, nd_subrange _ _ _ _ hk']

end Flt

end CE
