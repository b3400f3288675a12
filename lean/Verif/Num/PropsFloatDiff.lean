import Verif.Num.LemFloatDiff
import Verif.Num.PropsFloatPdq
import Verif.Num.PropsFloat4

/-!
# Differentiation with rounding errors (C123)

`PiecewisePoly.derivative()` and `Pdq.derivative(y)` in floating point: C14 and C18 with rounding errors.
-/

open Polynomial

namespace CE

namespace Flt

variable {f : Flt}

/-- **C123** `derivative()` with rounding errors succeeds, and its coefficients are the derivatives, at the nodes, of the polynomials that
interpolate the given ones, up to rounding errors relative to `∑ |D[j,k]|*(|c[k]| + |c[j]|)/h`, where the diagonal is left out. -/
theorem C123_derivative (pp : Piecewise) (tau : List ℝ) (R : ℕ) (w : pp.WF f tau R) :
    ∃ dpp, f.pwDerivative pp = .ok dpp ∧ dpp.intervals = pp.intervals ∧ dpp.WF f tau R ∧
      ∀ (n : ℕ) (c c' : Mat ℝ), pp.coefficients[n]? = some c → dpp.coefficients[n]? = some c' → ∀ r < R, ∀ P : ℝ[X], P.degree < tau.length →
      (∀ j < tau.length, P.eval (nd pp.intervals n + (nd pp.intervals (n + 1) - nd pp.intervals n) * nd tau j) = c.e r j) →
      ∀ j < tau.length,
        let D := fun k => (derivative (Lagrange.basis (Finset.range tau.length) (nd tau) k)).eval (nd tau j)
        |c'.e r j - (derivative P).eval (nd pp.intervals n + (nd pp.intervals (n + 1) - nd pp.intervals n) * nd tau j)| ≤
          (1 / (1 - f.u) ^ (6 * tau.length + 2) - 1) * (∑ k ∈ (Finset.range tau.length).erase j, |D k| * (|c.e r k| + |c.e r j|)) /
            (nd pp.intervals (n + 1) - nd pp.intervals n) := by
  obtain ⟨b, hb, hbr, hbc, hD⟩ := f.C112_differentiation tau w.ne w.nodup
  have hbe : pp.basis = b := by
    have := w.basis
    rw [hb] at this
    cases this
    rfl
  have hlen := w.len
  have htwo := w.two
  have ht1 : 1 ≤ tau.length := List.length_pos_iff.mpr w.ne
  obtain ⟨l, hl, hll, hall⟩ := mapM_ok' (fun ci : Mat ℝ × ℕ => f.pwDerivativeAt pp ci.2 ci.1)
    pp.coefficients.zipIdx (fun ci d => d.rows = R ∧ d.cols = tau.length ∧ ∀ r j,
      d.e r j = f.rnd (f.dot ci.1 b.D.T r j / f.rnd (nd pp.intervals (ci.2 + 1) - nd pp.intervals ci.2))) (by
      rintro ⟨c, i⟩ hci
      have hmem := List.mem_zipIdx hci
      simp only [Nat.zero_add, Nat.sub_zero] at hmem
      have hi : i < pp.coefficients.length := hmem.2.1
      have hc : c ∈ pp.coefficients := by rw [hmem.2.2]; exact List.getElem_mem _
      refine ⟨⟨c.rows, tau.length, fun r j => f.rnd (f.dot c b.D.T r j / f.rnd (nd pp.intervals (i + 1) - nd pp.intervals i))⟩, ?_,
        w.rows c hc, rfl, fun r j => rfl⟩
      unfold pwDerivativeAt matDot
      rw [hbe, if_pos (by rw [w.cols c hc]; exact hbc.symm)]
      simp only [bind, Except.bind, pure, Except.pure]
      rw [show ((i : ℤ) + 1) = ((i + 1 : ℕ) : ℤ) by push_cast; rfl, pyIndex_nat (by omega : i + 1 < pp.intervals.length),
        pyIndex_nat (by omega : i < pp.intervals.length), ← nd_eq_getElem, ← nd_eq_getElem]
      simp only [Mat.T, hbr])
  rw [List.length_zipIdx] at hll
  have hget : ∀ (n : ℕ) (hn : n < l.length), (l[n]).rows = R ∧ (l[n]).cols = tau.length ∧ ∀ r j,
      (l[n]).e r j = f.rnd (f.dot (pp.coefficients[n]) b.D.T r j / f.rnd (nd pp.intervals (n + 1) - nd pp.intervals n)) := by
    intro n hn
    have h := (hall n (by rw [List.length_zipIdx]; omega) hn).2
    simp only [List.getElem_zipIdx, Nat.zero_add] at h
    exact h
  refine ⟨⟨pp.intervals, l, pp.basis⟩, ?_, rfl, ⟨w.ne, w.nodup, w.basis, w.asc, w.two, by simp only; omega, ?_, ?_⟩, ?_⟩
  · unfold pwDerivative
    rw [hl]
    simp only [bind, Except.bind]
    rw [if_neg (by omega), if_neg (by omega)]
    rfl
  · intro c hc
    obtain ⟨i, hi, rfl⟩ := List.mem_iff_getElem.mp hc
    exact (hget i hi).1
  · intro c hc
    obtain ⟨i, hi, rfl⟩ := List.mem_iff_getElem.mp hc
    exact (hget i hi).2.1
  intro n c c' hc hc' r hr P hP hv j hj D
  obtain ⟨hn, rfl⟩ := List.getElem?_eq_some_iff.mp hc
  obtain ⟨hn', rfl⟩ := List.getElem?_eq_some_iff.mp hc'
  have hcols := w.cols _ (List.getElem_mem hn)
  have hh := sub_pos.mpr (w.asc n (by omega))
  obtain ⟨d1, d2, -⟩ := hD j hj
  have hdot := f.toRounding.dotOf_err (f.dot_spec pp.coefficients[n] b.D.T r j)
  rw [List.length_map, List.length_range, List.map_map, List.map_map, hcols, list_range_sum, list_range_sum] at hdot
  obtain ⟨e1, e2⟩ := Rounding.diffDot_err (R := f.toRounding) (a := 5 * tau.length) (b := tau.length) hj
    (D := D) (D' := fun k => b.D.e j k) (c := fun k => (pp.coefficients[n]).e r k) (y := f.dot pp.coefficients[n] b.D.T r j)
    (sum_derivative_basis w.ne w.nodup _)
    (fun k hk hkj => (d1 k hk hkj).trans (mul_le_mul_of_nonneg_right (f.γ_mono (by omega)) (abs_nonneg _))) d2 hdot
  have e3 := Rounding.div_err (R := f.toRounding) hh e1 e2
  have hex : (∑ k ∈ Finset.range tau.length, (pp.coefficients[n]).e r k * D k) / (nd pp.intervals (n + 1) - nd pp.intervals n) =
      (derivative P).eval (nd pp.intervals n + (nd pp.intervals (n + 1) - nd pp.intervals n) * nd tau j) := by
    rw [← diff_affine' w.nodup _ _ hh.ne' hP hj]
    congr 1
    refine Finset.sum_congr rfl fun k hk => ?_
    rw [hv k (Finset.mem_range.mp hk), diffEntry_eq w.nodup hj (Finset.mem_range.mp hk)]
  rw [(hget n (by omega)).2.2 r j, ← hex]
  refine e3.trans (le_of_eq ?_)
  rw [show 5 * tau.length + tau.length + 2 = 6 * tau.length + 2 by ring]
  rfl

/-- **C123** Differentiation of data that carry errors of at most `η`: the coefficients of the derivative carry errors of at most
`(B*η + γ*2*B*C)/h`, where `B` bounds the sums of the absolute values of the rows of the differentiation matrix, `C` the data, `h` the lengths of
the intervals from below, and `γ` is of the size of the rounding errors. -/
theorem C123_near (pp : PiecewisePoly ℝ) (pp' : Piecewise) (tau : List ℝ) (R : ℕ) (w : pp.WF tau R) (η : ℝ) (hn : f.Near tau pp pp' η)
    (B C h : ℝ) (h0 : 0 < h) (hh : ∀ n, n + 1 < pp.intervals.length → h ≤ nd pp.intervals (n + 1) - nd pp.intervals n)
    (hB : ∀ j < tau.length, ∑ k ∈ Finset.range tau.length,
      |(derivative (Lagrange.basis (Finset.range tau.length) (nd tau) k)).eval (nd tau j)| ≤ B)
    (hC : ∀ c ∈ pp'.coefficients, ∀ r < R, ∀ j < tau.length, |c.e r j| ≤ C) :
    ∃ dpp dpp', pp.derivative = .ok dpp ∧ f.pwDerivative pp' = .ok dpp' ∧ dpp.WF tau R ∧
      f.Near tau dpp dpp' ((B * η + (1 / (1 - f.u) ^ (6 * tau.length + 2) - 1) * (2 * B * C)) / h) := by
  obtain ⟨dpp, hd, hiv, hw, hpiece, -⟩ := C14_derivative pp tau R w
  have w' := hn.wf w
  obtain ⟨dpp', hd', hiv', hw', hval⟩ := C123_derivative pp' tau R w'
  have hcs : ∀ (n : ℕ) (c c' : Mat ℝ), dpp.coefficients[n]? = some c → dpp'.coefficients[n]? = some c' → c'.rows = c.rows ∧ c'.cols = c.cols := by
    intro n c c' h1 h2
    have m1 := List.mem_of_getElem? h1
    have m2 := List.mem_of_getElem? h2
    rw [hw.rows c m1, hw.cols c m1, hw'.rows c' m2, hw'.cols c' m2]
    exact ⟨rfl, rfl⟩
  refine ⟨dpp, dpp', hd, hd', hw, by rw [hiv', hiv, hn.intervals], hw'.basis, ?_, hcs, ?_⟩
  · have := hw.len
    have := hw'.len
    rw [hiv', hn.intervals] at this
    rw [hiv] at *
    omega
  intro n c c' h1 h2 r hr j hj
  rw [hw.rows c (List.mem_of_getElem? h1)] at hr
  rw [hw.cols c (List.mem_of_getElem? h1)] at hj
  obtain ⟨hn1, rfl⟩ := List.getElem?_eq_some_iff.mp h1
  have hl1 := hw.len
  have hl2 := w.len
  rw [hiv] at hl1
  have hn2 : n < pp.coefficients.length := by omega
  have hn3 : n < pp'.coefficients.length := by rw [hn.len]; exact hn2
  obtain ⟨P, hP⟩ := w.exists_piece (n := n) (by omega) r
  have hP' := hpiece n r P hP
  obtain ⟨c0, e0, hdeg, hv0⟩ := hP
  rw [List.getElem?_eq_getElem hn2] at e0
  cases e0
  obtain ⟨c1, e1, -, hv1⟩ := hP'
  rw [h1] at e1
  cases e1
  have wq : PiecewisePoly.WF ⟨pp.intervals, pp'.coefficients, pp.basis⟩ tau R :=
    ⟨w.ne, w.nodup, w.basis, w.asc, w.two, by simp only [hn.len]; exact w.len, w'.rows, w'.cols⟩
  obtain ⟨Q, c2, e2, hdegQ, hv2⟩ := wq.exists_piece (n := n) (by simp only; omega) r
  simp only at e2 hv2
  rw [List.getElem?_eq_getElem hn3] at e2
  cases e2
  have hlt := sub_pos.mpr (w.asc n (by omega))
  have key := hval n _ _ (List.getElem?_eq_getElem hn3) h2 r hr Q hdegQ (by rw [hn.intervals]; exact hv2) j hj
  simp only at key
  rw [hn.intervals] at key
  set H := nd pp.intervals (n + 1) - nd pp.intervals n with hH
  set a := nd pp.intervals n with ha
  have hhn := hh n (by omega)
  rw [← hH] at hhn
  rw [← hv1 j hj]
  simp only [hiv]
  rw [← ha, ← hH]
  set D := fun k => (derivative (Lagrange.basis (Finset.range tau.length) (nd tau) k)).eval (nd tau j) with hD
  have dP := diff_affine' w.nodup a H hlt.ne' hdeg hj
  have dQ := diff_affine' w.nodup a H hlt.ne' hdegQ hj
  have hB0 : 0 ≤ B := (Finset.sum_nonneg fun _ _ => abs_nonneg _).trans (hB j hj)
  have hC0 : 0 ≤ C := (abs_nonneg _).trans (hC _ (List.getElem_mem hn3) r hr j hj)
  have hη : ∀ k < tau.length, |(pp'.coefficients[n]).e r k - (pp.coefficients[n]).e r k| ≤ η := fun k hk =>
    hn.close n _ _ (List.getElem?_eq_getElem hn2) (List.getElem?_eq_getElem hn3) r (by rw [w.rows _ (List.getElem_mem hn2)]; exact hr) k
      (by rw [w.cols _ (List.getElem_mem hn2)]; exact hk)
  have hη0 : 0 ≤ η := (abs_nonneg _).trans (hη j hj)
  have e1 : |(derivative Q).eval (a + H * nd tau j) - (derivative P).eval (a + H * nd tau j)| ≤ B * η / H := by
    rw [← dP, ← dQ, ← sub_div, abs_div, abs_of_pos hlt, ← Finset.sum_sub_distrib]
    refine div_le_div_of_nonneg_right ?_ hlt.le
    refine (Finset.abs_sum_le_sum_abs _ _).trans (le_trans ?_ (mul_le_mul_of_nonneg_right (hB j hj) hη0))
    rw [Finset.sum_mul]
    refine Finset.sum_le_sum fun k hk => ?_
    have hk' := Finset.mem_range.mp hk
    rw [← sub_mul, abs_mul, diffEntry_eq w.nodup hj hk', hv0 k hk', hv2 k hk', mul_comm]
    exact mul_le_mul_of_nonneg_left (hη k hk') (abs_nonneg _)
  have e2 : ∑ k ∈ (Finset.range tau.length).erase j, |D k| * (|(pp'.coefficients[n]).e r k| + |(pp'.coefficients[n]).e r j|) ≤ 2 * B * C := by
    have hb : ∑ k ∈ (Finset.range tau.length).erase j, |D k| ≤ B :=
      (Finset.sum_le_sum_of_subset_of_nonneg (Finset.erase_subset _ _) fun _ _ _ => abs_nonneg _).trans (hB j hj)
    have : ∑ k ∈ (Finset.range tau.length).erase j, |D k| * (|(pp'.coefficients[n]).e r k| + |(pp'.coefficients[n]).e r j|) ≤
        (∑ k ∈ (Finset.range tau.length).erase j, |D k|) * (2 * C) := by
      rw [Finset.sum_mul]
      refine Finset.sum_le_sum fun k hk => mul_le_mul_of_nonneg_left ?_ (abs_nonneg _)
      have h3 := hC _ (List.getElem_mem hn3) r hr k (Finset.mem_range.mp (Finset.mem_of_mem_erase hk))
      have h4 := hC _ (List.getElem_mem hn3) r hr j hj
      linarith
    have h5 := mul_le_mul_of_nonneg_right hb (by linarith : (0 : ℝ) ≤ 2 * C)
    linarith
  have e3 := mul_le_mul_of_nonneg_left e2 (f.γ_nonneg (6 * tau.length + 2))
  have e4 : |c'.e r j - (derivative Q).eval (a + H * nd tau j)| ≤ f.γ (6 * tau.length + 2) * (2 * B * C) / H :=
    key.trans (div_le_div_of_nonneg_right e3 hlt.le)
  have e5 := abs_sub_le (c'.e r j) ((derivative Q).eval (a + H * nd tau j)) ((derivative P).eval (a + H * nd tau j))
  have e6 : f.γ (6 * tau.length + 2) * (2 * B * C) / H + B * η / H ≤ (B * η + f.γ (6 * tau.length + 2) * (2 * B * C)) / h := by
    rw [← add_div, add_comm]
    refine div_le_div_of_nonneg_left ?_ h0 hhn
    exact add_nonneg (mul_nonneg hB0 hη0) (mul_nonneg (f.γ_nonneg _) (mul_nonneg (mul_nonneg zero_le_two hB0) hC0))
  exact (e5.trans (add_le_add e4 e1)).trans e6

/-- **C123** Values of the computed derivative: they differ from those of the derivative of the exact object at most by `Λ` times the error of the
coefficients, plus the rounding errors of the evaluation. -/
theorem C123_values (pp : PiecewisePoly ℝ) (pp' : Piecewise) (tau : List ℝ) (R : ℕ) (w : pp.WF tau R) (η : ℝ) (hn : f.Near tau pp pp' η)
    (B C h : ℝ) (h0 : 0 < h) (hh : ∀ n, n + 1 < pp.intervals.length → h ≤ nd pp.intervals (n + 1) - nd pp.intervals n)
    (hB : ∀ j < tau.length, ∑ k ∈ Finset.range tau.length,
      |(derivative (Lagrange.basis (Finset.range tau.length) (nd tau) k)).eval (nd tau j)| ≤ B)
    (hC : ∀ c ∈ pp'.coefficients, ∀ r < R, ∀ j < tau.length, |c.e r j| ≤ C)
    (Λ Λ' : ℝ) (hΛ : ∀ x, 0 ≤ x → x ≤ 1 →
      ∑ j ∈ Finset.range tau.length, |(Lagrange.basis (Finset.range tau.length) (nd tau) j).eval x| ≤ Λ)
    (hΛ' : ∀ x, 0 ≤ x → x ≤ 1 →
      ∑ j ∈ Finset.range tau.length, |(derivative (Lagrange.basis (Finset.range tau.length) (nd tau) j)).eval x| ≤ Λ')
    (hE : (1 / (1 - f.u) ^ (3 * tau.length + 1) - 1) * Λ < 1)
    (cont : String) (side : Side) (hs : PiecewisePoly.parseSide cont = .ok side) (ts : List ℝ) (hts : ts ≠ []) :
    ∃ dpp V', f.pwDerivative pp' = .ok dpp ∧ f.call dpp ts cont = .ok V' ∧ V'.rows = R ∧ V'.cols = ts.length ∧
      ∀ k < ts.length, ∀ n, InSide side pp.intervals n (nd ts k) →
      nd pp.intervals n ≤ nd ts k → nd ts k ≤ nd pp.intervals (n + 1) → ∀ r < R, ∀ P, IsPiece tau pp n r P →
      ∀ c', dpp.coefficients[n]? = some c' → ∀ C', (∀ j < tau.length, |c'.e r j| ≤ C') →
      let E := (1 / (1 - f.u) ^ (3 * tau.length + 1) - 1) * Λ
      |V'.e r k - (derivative P).eval (nd ts k)| ≤
        Λ * ((B * η + (1 / (1 - f.u) ^ (6 * tau.length + 2) - 1) * (2 * B * C)) / h) +
        (1 / (1 - f.u) ^ tau.length * (1 + 2 * E / (1 - E)) - 1) * (C' * Λ) + (1 / (1 - f.u) ^ 3 - 1) * (C' * Λ') := by
  obtain ⟨dpp, dpp', hd, hd', hw, hnear⟩ := C123_near pp pp' tau R w η hn B C h h0 hh hB hC
  obtain ⟨V, V', hV, hV', hr, hc, hval⟩ := C115_evaluation dpp dpp' tau R hw _ hnear Λ Λ' hΛ hΛ' hE cont side hs ts hts
  obtain ⟨dpp2, hd2, hiv, -, -, hex⟩ := C14_derivative pp tau R w
  rw [hd] at hd2
  cases hd2
  refine ⟨dpp', V', hd', hV', hr, hc, fun k hk n hin h1 h2 r hr' P hP c' hc' C' hC' => ?_⟩
  intro E
  have h3 := hval k hk n (by rw [hiv]; exact hin) (by rw [hiv]; exact h1) (by rw [hiv]; exact h2) c' hc' r hr' C' hC'
  have hVe : V.e r k = (derivative P).eval (nd ts k) := by
    have hm : cont = "left" ∧ side = .left ∨ cont = "right" ∧ side = .right := by
      unfold PiecewisePoly.parseSide at hs
      split at hs
      · exact .inl ⟨rfl, (Except.ok.inj hs).symm⟩
      · exact .inr ⟨rfl, (Except.ok.inj hs).symm⟩
      · cases hs
    rcases hm with ⟨rfl, rfl⟩ | ⟨rfl, rfl⟩
    · obtain ⟨V2, e1, -, -, e2⟩ := (hex ts hts).2
      rw [hV] at e1
      cases e1
      exact e2 k hk n hin r P hP
    · obtain ⟨V2, e1, -, -, e2⟩ := (hex ts hts).1
      rw [hV] at e1
      cases e1
      exact e2 k hk n hin r P hP
  rw [← hVe]
  exact h3

/-- **C123** With `u = 0` the derivative is that of the exact model. -/
theorem C123_exact (h : f.u = 0) (tau : List ℝ) (hne : tau ≠ []) (iv : List ℝ) (cs : List (Mat ℝ)) :
    ∃ b b', f.polynomialBasis tau = .ok b ∧ CE.polynomialBasis tau = .ok b' ∧
      f.pwDerivative ⟨iv, cs, b⟩ = (PiecewisePoly.derivative ⟨iv, cs, b'⟩).map fun q => ⟨q.intervals, q.coefficients, b⟩ := by
  obtain ⟨b, b', h1, h2, -, hD, -⟩ := C111_exact h tau hne []
  refine ⟨b, b', h1, h2, ?_⟩
  have hat : ∀ i c, f.pwDerivativeAt ⟨iv, cs, b⟩ i c = PiecewisePoly.derivativeAt ⟨iv, cs, b'⟩ i c := by
    intro i c
    unfold pwDerivativeAt PiecewisePoly.derivativeAt
    simp only [rnd_exact h, hD, matDot_exact h]
  unfold pwDerivative PiecewisePoly.derivative PiecewisePoly.new
  simp only [hat]
  generalize (cs.zipIdx.mapM fun ci => PiecewisePoly.derivativeAt ⟨iv, cs, b'⟩ ci.2 ci.1) = m
  rcases m with e' | l
  · rfl
  · simp only [bind, Except.bind]
    by_cases g1 : iv.length > 1
    · by_cases g2 : l.length = iv.length - 1
      · simp [g1, g2, pure, Except.pure, Except.map]
      · simp [g1, g2, Except.map]
    · simp [g1, Except.map]

/-- **C123** `Pdq.derivative(y)` with rounding errors: for values at the collocation points of a computed grid, column `n*order + j` of the result is
the derivative, at the computed point `j` of interval `n`, of the polynomial that interpolates the values of the interval, up to rounding errors
that do not depend on the number of intervals.  The end of an inner interval is the one computed for this interval, it need not be the first
point of the next one. -/
theorem C123_pdq (cp t : List ℝ) (order : ℕ) (g : GoodScheme cp order) (hfl : ∀ x ∈ t, f.IsFl x) (p : Grid)
    (hp : f.pdqNew (.ok cp) t order = .ok p) (y : Mat ℝ) (hy : y.cols = (t.length - 1) * order + 1) :
    ∃ V, Grid.derivative f p y = .ok V ∧ V.rows = y.rows ∧ V.cols = (t.length - 1) * order ∧
    ∀ n < t.length - 1, ∃ x : List ℝ, x.length = order + 1 ∧ Ascending x ∧
      (∀ j < order, nd x j = nd p.collocationPoints (n * order + j)) ∧
      (n + 2 = t.length → nd x order = nd p.collocationPoints ((t.length - 1) * order)) ∧
      (∀ j ≤ order, |nd x j - (nd t n + nd cp j * (nd t (n + 1) - nd t n))| ≤
        (1 / (1 - f.u) ^ 3 - 1) * (|nd t n| + (nd t (n + 1) - nd t n))) ∧
      ∀ r, ∀ j < order, ∀ P : ℝ[X], P.degree < order + 1 → (∀ k ≤ order, P.eval (nd x k) = y.e r (n * order + k)) →
        let D := fun k => (derivative (Lagrange.basis (Finset.range (order + 1)) (nd x) k)).eval (nd x j)
        |V.e r (n * order + j) - (derivative P).eval (nd x j)| ≤ (1 / (1 - f.u) ^ (6 * order + 6) - 1) *
          ∑ k ∈ (Finset.range (order + 1)).erase j, |D k| * (|y.e r (n * order + k)| + |y.e r (n * order + j)|) := by
  obtain ⟨-, -, -, hDr, hDc, -, -, -, -, -, hrow⟩ := C117_grid_partial cp t order g hfl p hp
  have hpos := g.pos
  refine ⟨⟨y.rows, (t.length - 1) * order, f.dot y p.bigD.dropLastRow.T⟩, ?_, rfl, rfl, fun n hn => ?_⟩
  · unfold Grid.derivative csMtimes
    rw [if_pos (by rw [hy]; exact hDc.symm)]
    simp only [Mat.T, Mat.dropLastRow, hDr, Nat.add_sub_cancel]
  obtain ⟨x, hx, hxa, hx1, hx2, hx3, hxD⟩ := hrow n hn
  refine ⟨x, hx, hxa, hx1, hx2, hx3, fun r j hj P hP hv => ?_⟩
  intro D
  obtain ⟨hz, hoff, hdiag⟩ := hxD j hj.le (fun h => absurd h (by omega))
  have hle : n * order + order + 1 ≤ (t.length - 1) * order + 1 := by
    have := Nat.mul_le_mul_right order (show n + 1 ≤ t.length - 1 by omega)
    rw [Nat.add_mul, one_mul] at this
    omega
  have hsupp : ∀ F : ℕ → ℝ, (∀ k, p.bigD.e (n * order + j) k = 0 → F k = 0) →
      ∑ k ∈ Finset.range ((t.length - 1) * order + 1), F k = ∑ k ∈ Finset.range (order + 1), F (n * order + k) := by
    intro F hF
    rw [← Finset.sum_image (s := Finset.range (order + 1)) (g := fun k => n * order + k) (f := F) (fun a _ b _ h => by simpa using h)]
    symm
    refine Finset.sum_subset (fun k hk => ?_) (fun k _ hk => hF k (hz k fun h => hk ?_))
    · obtain ⟨i, hi, rfl⟩ := Finset.mem_image.mp hk
      have := Finset.mem_range.mp hi
      exact Finset.mem_range.mpr (by omega)
    · exact Finset.mem_image.mpr ⟨k - n * order, Finset.mem_range.mpr (by omega), by omega⟩
  have hdot := (Rounding.dotOf_err_nz (f.dot_spec y p.bigD.dropLastRow.T r (n * order + j))).2
  rw [List.map_map, List.map_map, hy, list_range_sum, list_range_sum] at hdot
  have hcount : (((List.range ((t.length - 1) * order + 1)).map fun k => (y.e r k, p.bigD.dropLastRow.T.e k (n * order + j))).countP
      fun q => decide (q.1 * q.2 ≠ 0)) ≤ order + 1 := by
    rw [List.countP_map]
    refine le_trans (List.countP_mono_left (p := _) (q := fun k => decide (n * order ≤ k ∧ k ≤ n * order + order)) fun k _ hk => ?_) ?_
    · rw [Function.comp_apply, decide_eq_true_eq] at hk
      rw [decide_eq_true_eq]
      by_contra hc
      exact hk (by simp only [Mat.T, Mat.dropLastRow, hz k hc, mul_zero])
    · rw [List.countP_eq_length_filter]
      have hnd : ((List.range ((t.length - 1) * order + 1)).filter fun k => decide (n * order ≤ k ∧ k ≤ n * order + order)).Nodup :=
        List.nodup_range.filter _
      rw [← List.toFinset_card_of_nodup hnd]
      refine (Finset.card_le_card (t := Finset.Icc (n * order) (n * order + order)) fun k hk => ?_).trans (by simp; omega)
      rw [List.mem_toFinset, List.mem_filter, decide_eq_true_eq] at hk
      exact Finset.mem_Icc.mpr hk.2
  have s1 : ∑ k ∈ Finset.range ((t.length - 1) * order + 1), ((fun q : ℝ × ℝ => q.1 * q.2) ∘
      fun k => (y.e r k, p.bigD.dropLastRow.T.e k (n * order + j))) k =
      ∑ k ∈ Finset.range (order + 1), y.e r (n * order + k) * p.bigD.e (n * order + j) (n * order + k) :=
    hsupp (fun k => y.e r k * p.bigD.e (n * order + j) k) fun k hk => by rw [hk, mul_zero]
  have s2 : ∑ k ∈ Finset.range ((t.length - 1) * order + 1), ((fun q : ℝ × ℝ => |q.1 * q.2|) ∘
      fun k => (y.e r k, p.bigD.dropLastRow.T.e k (n * order + j))) k =
      ∑ k ∈ Finset.range (order + 1), |y.e r (n * order + k) * p.bigD.e (n * order + j) (n * order + k)| :=
    hsupp (fun k => |y.e r k * p.bigD.e (n * order + j) k|) fun k hk => by simp only [hk, mul_zero, abs_zero]
  rw [s1, s2] at hdot
  have hdot' := hdot.trans (mul_le_mul_of_nonneg_right (f.γ_mono hcount) (Finset.sum_nonneg fun _ _ => abs_nonneg _))
  have hxne : x ≠ [] := by intro h; rw [h] at hx; simp at hx
  have h0 := sum_derivative_basis hxne hxa.nodup (nd x j)
  have hPv := sum_mul_derivative_basis_eval hxa.nodup (p := P) (by rw [hx]; exact_mod_cast hP) (nd x j)
  rw [hx] at h0 hPv
  obtain ⟨-, e2⟩ := Rounding.diffDot_err (R := f.toRounding) (a := 5 * order + 5) (b := order + 1) (n := order + 1) (j := j) (by omega)
    (D := D) (D' := fun k => p.bigD.e (n * order + j) (n * order + k)) (c := fun k => y.e r (n * order + k))
    (y := f.dot y p.bigD.dropLastRow.T r (n * order + j)) h0
    (fun k hk hkj => (hoff k (by omega) hkj).trans (mul_le_mul_of_nonneg_right (f.γ_mono (by omega)) (abs_nonneg _))) hdiag hdot'
  have hex : ∑ k ∈ Finset.range (order + 1), y.e r (n * order + k) * D k = (derivative P).eval (nd x j) := by
    rw [← hPv]
    refine Finset.sum_congr rfl fun k hk => ?_
    rw [hv k (by have := Finset.mem_range.mp hk; omega), mul_comm]
  rw [← hex]
  refine e2.trans (le_of_eq ?_)
  rw [show 5 * order + 5 + (order + 1) = 6 * order + 6 by ring]
  rfl

/-! ## Constants -/

/-- Inner products with fused multiplications and additions. -/
noncomputable def fmaDot (R : Rounding) : List (ℝ × ℝ) → ℝ
  | [] => 0
  | [x] => R.rnd (x.1 * x.2)
  | x :: y :: l => R.rnd (x.1 * x.2 + fmaDot R (y :: l))

theorem fmaDot_spec (R : Rounding) : ∀ l, DotOf R l (fmaDot R l)
  | [] => .nil
  | [x] => .one x.1 x.2
  | x :: y :: l => DotOf.fma (l := y :: l) x.1 x.2 (by simp) (fmaDot_spec R (y :: l))

/-- Double precision with inner products by fused multiplications and additions. -/
noncomputable def doubleFma : Flt :=
  { double with
    dot := fun A B i j => fmaDot double.toRounding ((List.range A.cols).map fun k => (A.e i k, B.e k j))
    dot_spec := fun _ _ _ _ => fmaDot_spec _ _ }

/-- The double nearest to 4/3. -/
noncomputable def fourThirds : ℝ := 6004799503160661 / 2 ^ 52

theorem rnd_four_thirds : double.rnd (4 / 3) = fourThirds ∧ double.rnd (-(4 / 3)) = -fourThirds := by
  constructor
  · have := roundTo_eq (p := 53) (x := 4 / 3) 0 6004799503160661 (by rw [abs_of_pos] <;> norm_num) (by rw [abs_of_pos] <;> norm_num)
      (by rw [abs_lt]; constructor <;> norm_num)
    show roundTo 53 _ = _
    rw [this]
    unfold fourThirds
    norm_num
  · have := roundTo_eq (p := 53) (x := -(4 / 3)) 0 (-6004799503160661) (by rw [abs_of_neg] <;> norm_num) (by rw [abs_of_neg] <;> norm_num)
      (by rw [abs_lt]; constructor <;> norm_num)
    show roundTo 53 _ = _
    rw [this]
    unfold fourThirds
    norm_num

theorem double_fix (m e : ℤ) (hm : |m| ≤ 2 ^ 53) {x : ℝ} (hx : x = m * 2 ^ e) : double.rnd x = x := by
  rw [hx]
  exact roundTo_fix (p := 53) (by norm_num) m e hm

/-- The constant 5 on the interval from 0 to 1 with the nodes 0 and 3/4. -/
noncomputable def exConst : Piecewise :=
  ⟨[0, 1], [⟨1, 2, fun _ _ => 5⟩], ⟨[0, 3 / 4], ⟨2, 2, doubleFma.diffEntry [0, 3 / 4] ((List.range 2).map (doubleFma.lamAt [0, 3 / 4]))⟩,
    (List.range 2).map (doubleFma.lamAt [0, 3 / 4])⟩⟩

theorem exConst_wf : exConst.WF doubleFma [0, 3 / 4] 1 where
  ne := by simp
  nodup := by norm_num
  basis := doubleFma.polynomialBasis_ok (by simp)
  asc := by
    intro n hn
    have : n = 0 := by simp [exConst] at hn; omega
    subst this
    simp [exConst, nd]
  two := by simp [exConst]
  len := by simp [exConst]
  rows := by simp [exConst]
  cols := by simp [exConst]

theorem exConst_row : exConst.basis.D.e 0 0 = -fourThirds ∧ exConst.basis.D.e 0 1 = fourThirds := by
  have n34 : double.rnd (0 - 3 / 4) = -(3 / 4) := by
    rw [show (0 : ℝ) - 3 / 4 = -(3 / 4) by norm_num]
    exact double_fix (-3) (-2) (by norm_num) (by norm_num)
  have p34 : double.rnd (3 / 4 - 0) = 3 / 4 := by
    rw [show (3 : ℝ) / 4 - 0 = 3 / 4 by norm_num]
    exact double_fix 3 (-2) (by norm_num) (by norm_num)
  have l0 : doubleFma.lamAt [0, 3 / 4] 0 = -fourThirds := by
    show double.rnd (1 / double.rnd (0 - 3 / 4)) = _
    rw [n34, show (1 : ℝ) / -(3 / 4) = -(4 / 3) by norm_num, rnd_four_thirds.2]
  have l1 : doubleFma.lamAt [0, 3 / 4] 1 = fourThirds := by
    show double.rnd (1 / double.rnd (3 / 4 - 0)) = _
    rw [p34, show (1 : ℝ) / (3 / 4) = 4 / 3 by norm_num, rnd_four_thirds.1]
  have q : doubleFma.diffQuot [0, 3 / 4] ((List.range 2).map (doubleFma.lamAt [0, 3 / 4])) 0 1 = fourThirds := by
    show double.rnd (double.rnd (doubleFma.lamAt [0, 3 / 4] 1 / doubleFma.lamAt [0, 3 / 4] 0) / double.rnd (0 - 3 / 4)) = _
    have hne : fourThirds ≠ 0 := by unfold fourThirds; norm_num
    have m1 : double.rnd (-1) = -1 := double_fix (-1) 0 (by norm_num) (by norm_num)
    rw [l0, l1, n34, div_neg fourThirds, div_self hne, m1,
      show (-1 : ℝ) / -(3 / 4) = 4 / 3 by norm_num, rnd_four_thirds.1]
  refine ⟨?_, ?_⟩
  · show -doubleFma.diffQuot [0, 3 / 4] ((List.range 2).map (doubleFma.lamAt [0, 3 / 4])) 0 1 = _
    rw [q]
  · exact q

/-- **C123** The derivative of a constant need not be exactly zero: for the constant 5, doubles and inner products by fused multiplications and
additions the computed derivative at the first node is `-2^-52`. -/
theorem C123_constant_refuted : exConst.WF doubleFma [0, 3 / 4] 1 ∧ (∀ c ∈ exConst.coefficients, ∀ r j, c.e r j = 5) ∧
    ∃ (dpp : Piecewise) (c' : Mat ℝ), doubleFma.pwDerivative exConst = .ok dpp ∧ dpp.coefficients[0]? = some c' ∧ c'.e 0 0 = -(1 / 2 ^ 52) := by
  refine ⟨exConst_wf, by simp [exConst], ⟨[0, 1], [⟨1, 2, fun r j => double.rnd (doubleFma.dot ⟨1, 2, fun _ _ => 5⟩ exConst.basis.D.T r j /
    double.rnd (1 - 0))⟩], exConst.basis⟩, _, rfl, rfl, ?_⟩
  show double.rnd (double.rnd (5 * exConst.basis.D.e 0 0 + double.rnd (5 * exConst.basis.D.e 0 1)) / double.rnd (1 - 0)) = _
  rw [exConst_row.1, exConst_row.2]
  have h5 : double.rnd (5 * fourThirds) = 7505999378950826 / 2 ^ 50 := by
    have := roundTo_eq (p := 53) (x := 5 * fourThirds) 2 7505999378950826 (by unfold fourThirds; rw [abs_of_pos] <;> norm_num)
      (by unfold fourThirds; rw [abs_of_pos] <;> norm_num) (by unfold fourThirds; rw [abs_lt]; constructor <;> norm_num)
    show roundTo 53 _ = _
    rw [this]
    norm_num
  have h6 : double.rnd (-(1 / 2 ^ 52)) = -(1 / 2 ^ 52) := double_fix (-1) (-52) (by norm_num) (by norm_num)
  rw [h5, show 5 * -fourThirds + 7505999378950826 / 2 ^ 50 = -(1 / 2 ^ 52) by unfold fourThirds; norm_num, h6, sub_zero,
    show double.rnd 1 = 1 from double.one, div_one, h6]

/-! ## Non-vacuity -/

theorem deriv_basis_one (x : ℕ → ℝ) (z : ℝ) : (derivative (Lagrange.basis (Finset.range 2) x 1)).eval z = (x 1 - x 0)⁻¹ := by
  simp [Lagrange.basis, Lagrange.basisDivisor, show (Finset.range 2).erase 1 = {0} by decide]

theorem degree_linear (a b : ℝ) : (C a + C b * X).degree < ((2 : ℕ) : WithBot ℕ) := by
  refine lt_of_le_of_lt (degree_add_le _ _) ?_
  rw [max_lt_iff]
  refine ⟨lt_of_le_of_lt degree_C_le (by norm_num), lt_of_le_of_lt (degree_C_mul_X_le _) ?_⟩
  exact_mod_cast (by norm_num : (1 : ℕ) < 2)

/-- The derivative of the piecewise linear function with the values 2 and 5 at -1 and 0.1, with doubles. -/
example : ∃ (dpp : Piecewise) (c' : Mat ℝ), double.pwDerivative exPw = .ok dpp ∧ dpp.coefficients[0]? = some c' ∧
    |c'.e 0 0 - 3 / (tenth + 1)| ≤ 100 / 2 ^ 53 := by
  obtain ⟨dpp, hd, hiv, hw, h⟩ := C123_derivative exPw [0, 1] 1 exPw_wf
  have hlen : 0 < dpp.coefficients.length := by
    have := hw.len
    have := hw.two
    omega
  refine ⟨dpp, _, hd, List.getElem?_eq_getElem hlen, ?_⟩
  have ht : tenth + 1 ≠ 0 := by unfold tenth; norm_num
  have h1 := h 0 _ _ rfl (List.getElem?_eq_getElem hlen) 0 (by norm_num) (C (2 + 3 / (tenth + 1)) + C (3 / (tenth + 1)) * X) (degree_linear _ _) (by
    intro j hj
    have : j = 0 ∨ j = 1 := by simp at hj; omega
    rcases this with rfl | rfl
    · simp [nd, exPw]
    · simp [nd, exPw]
      field_simp
      ring) 0 (by simp)
  simp only [List.length_cons, List.length_nil, Nat.reduceAdd, Nat.reduceMul, show (Finset.range 2).erase 0 = {1} by decide, Finset.sum_singleton,
    deriv_basis_one, derivative_add, derivative_C, derivative_C_mul, derivative_X, eval_add, eval_mul, eval_C, eval_zero, eval_one, zero_add,
    mul_one, show double.u = 1 / 2 ^ 53 from rfl, show nd exPw.intervals 0 = -1 from rfl, show nd exPw.intervals 1 = tenth from rfl] at h1
  refine h1.trans ?_
  norm_num [nd, tenth]

/-- `Pdq([-1, 0.1], 1).derivative` of the values 2 and 5 with doubles: the slope between the computed points -1 and 0.10000000000000009. -/
example : ∃ (p : Grid) (V : Mat ℝ), double.pdqNew (.ok [0, 1]) [-1, tenth] 1 = .ok p ∧
    Grid.derivative double p ⟨1, 2, fun _ j => nd [2, 5] j⟩ = .ok V ∧ V.cols = 1 ∧
    |V.e 0 0 - 3 / (225179981368525 / 2 ^ 51 + 1)| ≤ 100 / 2 ^ 53 := by
  have g : GoodScheme [(0 : ℝ), 1] 1 := ⟨rfl, by norm_num, by
    intro i hi
    have hi : i = 0 := by simp at hi; omega
    subst hi
    norm_num [nd], rfl, le_of_eq rfl⟩
  obtain ⟨p, hp, -⟩ := C117_separated (f := double) _ [-1, tenth] 1 g exT_fl (by simp) (by
    intro i hi
    have hi : i = 0 := by simp at hi; omega
    subst hi
    norm_num [nd, tenth]) (by
    intro n hn j hj
    have hn : n = 0 := by simp at hn; omega
    have hj : j = 0 := by omega
    subst hn hj
    norm_num [nd, tenth, show double.u = 1 / 2 ^ 53 from rfl])
  obtain ⟨V, hV, -, hVc, h⟩ := C123_pdq [0, 1] [-1, tenth] 1 g exT_fl p hp ⟨1, 2, fun _ j => nd [2, 5] j⟩ rfl
  obtain ⟨x, -, -, hx1, hx2, -, hx⟩ := h 0 (by simp)
  refine ⟨p, V, hp, hV, hVc, ?_⟩
  have hend := (C117_end_refuted _ 1 g rfl p hp).1
  obtain ⟨-, -, -, -, -, -, -, hpts, htf, -⟩ := C117_grid_partial _ _ 1 g exT_fl p hp
  have x0 : nd x 0 = -1 := by
    rw [hx1 0 (by norm_num)]
    exact (hpts 0 (by simp)).1
  have x1 : nd x 1 = 225179981368525 / 2 ^ 51 := by
    rw [hx2 (by simp)]
    rw [htf] at hend
    exact Except.ok.inj hend
  have h1 := hx 0 0 (by norm_num) (C (2 + 3 / (nd x 1 - nd x 0)) + C (3 / (nd x 1 - nd x 0)) * X) (by exact_mod_cast degree_linear _ _) (by
    intro k hk
    have : k = 0 ∨ k = 1 := by omega
    rcases this with rfl | rfl
    · simp only [eval_add, eval_mul, eval_C, eval_X, x0, x1]
      norm_num [nd]
    · simp only [eval_add, eval_mul, eval_C, eval_X, x0, x1]
      norm_num [nd])
  simp only [Nat.reduceAdd, Nat.reduceMul, zero_mul, add_zero, show (Finset.range 2).erase 0 = {1} by decide, Finset.sum_singleton,
    deriv_basis_one, derivative_add, derivative_C, derivative_C_mul, derivative_X, eval_add, eval_mul, eval_C, eval_zero, eval_one, zero_add,
    mul_one, show double.u = 1 / 2 ^ 53 from rfl, x0, x1, sub_neg_eq_add] at h1
  refine h1.trans ?_
  norm_num [nd]

end Flt

end CE
