import Verif.Num.PiecewisePolyLemmas

/-!
# Properties C12–C16: `PiecewisePoly`

Specification vocabulary (defined in `ArraysLemmas`, `PiecewisePolyLemmas`):
* `InRight t n x` / `InLeft t n x`: `x` lies in interval `n` of the grid (`[t_n, t_{n+1})` resp. `(t_n, t_{n+1}]`,
  first and last interval extended to infinity);
* `IsPiece tau pp n r P`: `P` (a polynomial in absolute time) interpolates row `r` of `coefficients[n]` at the images of
  the nodes in interval `n`;
* `PiecewisePoly.WF pp tau R`: a well-formed object.
-/

open Polynomial

namespace CE

variable {K : Type*} [Field K] [LinearOrder K] [IsStrictOrderedRing K]

/-- Evaluation at a list of points, both modes. -/
theorem call_ok {pp : PiecewisePoly K} {tau : List K} {R : ℕ} (w : pp.WF tau R) (cont : String)
    (s : Side) (hs : PiecewisePoly.parseSide cont = .ok s) (t : List K) (ht : t ≠ []) :
    ∃ V, pp.call t cont = .ok V ∧ V.rows = R ∧ V.cols = t.length ∧
      ∀ k < t.length, ∀ n, InSide s pp.intervals n (nd t k) →
        ∀ r P, IsPiece tau pp n r P → V.e r k = P.eval (nd t k) := by
  obtain ⟨l, hl, hlen, hall⟩ := mapM_ok' (pp.callAt s) t
    (fun x V => V.rows = R ∧ V.cols = 1 ∧ ∀ n, InSide s pp.intervals n x →
      ∀ r P, IsPiece tau pp n r P → V.e r 0 = P.eval x) (by
      intro x _
      obtain ⟨n, hn⟩ := exists_inSide w.two s x
      obtain ⟨V, hV, hr, hc, hv⟩ := w.callAt_ok s hn
      exact ⟨V, hV, hr, hc, fun m hm => by rw [inSide_unique w.asc hm hn]; exact hv⟩)
  have hmem : ∀ A ∈ l, A.rows = R ∧ A.cols = 1 := by
    intro A hA
    obtain ⟨i, hi, rfl⟩ := List.mem_iff_getElem.mp hA
    exact ⟨(hall i (by omega) hi).2.1, (hall i (by omega) hi).2.2.1⟩
  have hne : l ≠ [] := by intro h; subst h; exact ht (List.length_eq_zero_iff.mp (by simpa using hlen.symm))
  refine ⟨Mat.hcat R l, ?_, hcat_rows _ _, ?_, ?_⟩
  · simp only [PiecewisePoly.call, hs, hl, bind, Except.bind]
    exact hstack_ok hne (fun A hA => (hmem A hA).1)
  · rw [hcat_cols, off_const _ l 1 (fun A hA => (hmem A hA).2) le_rfl, mul_one, hlen]
  · intro k hk n hn r P hP
    have hk' : k < l.length := by omega
    have := hcat_e R l hk' (j := 0) (by rw [(hmem _ (List.getElem_mem hk')).2]; exact one_pos) r
    rw [off_const _ l 1 (fun A hA => (hmem A hA).2) hk'.le, mul_one, add_zero] at this
    rw [this]
    have hx : nd t k = t[k] := nd_eq_getElem hk
    rw [hx] at hn ⊢
    exact (hall k hk hk').2.2.2 n hn r P hP

/-- **C12** Interval selection for `continuity='right'` (the default) and `'left'`; points outside the grid use the first
or the last interval.  Each point lies in exactly one interval of either convention, and the piece is unique. -/
theorem C12_interval_selection (pp : PiecewisePoly K) (tau : List K) (R : ℕ) (w : pp.WF tau R)
    (t : List K) (ht : t ≠ []) :
    (∃ V, pp.call t = .ok V ∧ pp.call t "right" = .ok V ∧ V.rows = R ∧ V.cols = t.length ∧
      ∀ k < t.length, ∀ n, InRight pp.intervals n (nd t k) →
        ∀ r P, IsPiece tau pp n r P → V.e r k = P.eval (nd t k)) ∧
    (∃ V, pp.call t "left" = .ok V ∧ V.rows = R ∧ V.cols = t.length ∧
      ∀ k < t.length, ∀ n, InLeft pp.intervals n (nd t k) →
        ∀ r P, IsPiece tau pp n r P → V.e r k = P.eval (nd t k)) ∧
    (∀ x, (∃! n, InRight pp.intervals n x) ∧ ∃! n, InLeft pp.intervals n x) ∧
    (∀ n, n + 1 < pp.intervals.length → ∀ r, ∃! P, IsPiece tau pp n r P) := by
  refine ⟨?_, ?_, ?_, ?_⟩
  · obtain ⟨V, h1, h2, h3, h4⟩ := call_ok w "right" .right rfl t ht
    exact ⟨V, h1, h1, h2, h3, h4⟩
  · exact call_ok w "left" .left rfl t ht
  · intro x
    obtain ⟨n, hn⟩ := exists_inSide w.two .right x
    obtain ⟨m, hm⟩ := exists_inSide w.two .left x
    exact ⟨⟨n, hn, fun n' h => inSide_unique (s := .right) w.asc h hn⟩,
      ⟨m, hm, fun n' h => inSide_unique (s := .left) w.asc h hm⟩⟩
  · intro n hn r
    obtain ⟨P, hP⟩ := w.exists_piece hn r
    refine ⟨P, hP, ?_⟩
    intro Q hQ
    obtain ⟨c, hc, hPd, hPv⟩ := hP
    obtain ⟨c', hc', hQd, hQv⟩ := hQ
    rw [hc] at hc'; cases hc'
    have hpos := w.h_pos hn
    refine Polynomial.eq_of_degrees_lt_of_eval_finset_eq
      ((Finset.range tau.length).image fun j => nd pp.intervals n +
        (nd pp.intervals (n + 1) - nd pp.intervals n) * nd tau j) ?_ ?_ ?_
    · rw [Finset.card_image_of_injOn, Finset.card_range]; exact hQd
      intro i hi j hj hij
      have : nd tau i = nd tau j := by
        simp only at hij
        have := add_left_cancel hij
        exact mul_left_cancel₀ hpos.ne' this
      exact nd_injOn w.nodup hi hj this
    · rw [Finset.card_image_of_injOn, Finset.card_range]; exact hPd
      intro i hi j hj hij
      have : nd tau i = nd tau j := by
        simp only at hij
        have := add_left_cancel hij
        exact mul_left_cancel₀ hpos.ne' this
      exact nd_injOn w.nodup hi hj this
    · intro x hx
      obtain ⟨j, hj, rfl⟩ := Finset.mem_image.mp hx
      rw [hQv j (Finset.mem_range.mp hj), hPv j (Finset.mem_range.mp hj)]

/-- **C12** At an interior bound `t_n` the 'right' mode uses interval `n` and the 'left' mode interval `n-1`. -/
theorem C12_interior_bound (pp : PiecewisePoly K) (tau : List K) (R : ℕ) (w : pp.WF tau R)
    (n : ℕ) (h0 : 0 < n) (hn : n + 1 < pp.intervals.length) :
    ∃ VR VL, pp.call [nd pp.intervals n] "right" = .ok VR ∧ pp.call [nd pp.intervals n] "left" = .ok VL ∧
      ∀ r P Q, IsPiece tau pp n r P → IsPiece tau pp (n - 1) r Q →
        VR.e r 0 = P.eval (nd pp.intervals n) ∧ VL.e r 0 = Q.eval (nd pp.intervals n) := by
  obtain ⟨VR, h1, _, _, h2⟩ := call_ok w "right" .right rfl [nd pp.intervals n] (by simp)
  obtain ⟨VL, h3, _, _, h4⟩ := call_ok w "left" .left rfl [nd pp.intervals n] (by simp)
  refine ⟨VR, VL, h1, h3, fun r P Q hP hQ => ⟨?_, ?_⟩⟩
  · exact h2 0 (by simp) n ⟨hn, Or.inr le_rfl, Or.inr (w.asc n hn)⟩ r P hP
  · refine h4 0 (by simp) (n - 1) ⟨by omega, Or.inr ?_, Or.inr ?_⟩ r Q hQ
    · exact w.asc.lt (by omega) (by omega)
    · rw [show n - 1 + 1 = n by omega]; exact le_rfl

/-- **C12** Any other mode raises ValueError. -/
theorem C12_invalid_mode (pp : PiecewisePoly K) (t : List K) (m : String) (h1 : m ≠ "left")
    (h2 : m ≠ "right") : pp.call t m = .error .value := by
  simp only [PiecewisePoly.call]
  have : PiecewisePoly.parseSide m = .error .value := by
    unfold PiecewisePoly.parseSide
    split <;> simp_all
  rw [this]

omit [IsStrictOrderedRing K] in
/-- **C12** The constructor accepts exactly at least one interval with one coefficient matrix per interval, and stores
its arguments unchanged. -/
theorem C12_ctor (iv : List K) (cs : List (Mat K)) (b : Basis K) :
    (∀ pp, PiecewisePoly.new iv cs b = .ok pp ↔
      (2 ≤ iv.length ∧ cs.length + 1 = iv.length) ∧ pp.intervals = iv ∧ pp.coefficients = cs ∧ pp.basis = b) ∧
    ((∃ e, PiecewisePoly.new iv cs b = .error e) ↔ ¬ (2 ≤ iv.length ∧ cs.length + 1 = iv.length)) := by
  unfold PiecewisePoly.new
  by_cases h1 : iv.length > 1
  · by_cases h2 : cs.length = iv.length - 1
    · rw [if_neg (not_not.mpr h1), if_neg (not_not.mpr h2)]
      refine ⟨fun pp => ?_, ⟨fun ⟨_, h⟩ => (by cases h), fun h => absurd ⟨h1, by omega⟩ h⟩⟩
      obtain ⟨i, c, b'⟩ := pp
      simp only [Except.ok.injEq, PiecewisePoly.mk.injEq]
      constructor
      · rintro ⟨rfl, rfl, rfl⟩; exact ⟨by omega, rfl, rfl, rfl⟩
      · rintro ⟨_, rfl, rfl, rfl⟩; exact ⟨rfl, rfl, rfl⟩
    · rw [if_neg (not_not.mpr h1), if_pos h2]
      exact ⟨fun pp => ⟨fun h => by simp at h, fun h => by omega⟩, ⟨fun _ => by omega, fun _ => ⟨_, rfl⟩⟩⟩
  · rw [if_pos h1]
    exact ⟨fun pp => ⟨fun h => by simp at h, fun h => by omega⟩, ⟨fun _ => by omega, fun _ => ⟨_, rfl⟩⟩⟩

/-- **C12** A well-formed object fails only for an invalid mode or without query points. -/
theorem C12_total (pp : PiecewisePoly K) (tau : List K) (R : ℕ) (w : pp.WF tau R) (t : List K) (m : String) :
    (∃ e, pp.call t m = .error e) ↔ t = [] ∨ (m ≠ "left" ∧ m ≠ "right") := by
  constructor
  · rintro ⟨e, he⟩
    by_contra hn
    push Not at hn
    obtain ⟨ht, hm⟩ := hn
    by_cases h : m = "left"
    · subst h
      obtain ⟨V, h1, _⟩ := call_ok w "left" .left rfl t ht
      rw [h1] at he; cases he
    · have := hm h
      subst this
      obtain ⟨V, h1, _⟩ := call_ok w "right" .right rfl t ht
      rw [h1] at he; cases he
  · rintro (rfl | ⟨h1, h2⟩)
    · unfold PiecewisePoly.call
      split
      · exact ⟨_, rfl⟩
      · exact ⟨.value, rfl⟩
    · exact ⟨_, C12_invalid_mode pp t m h1 h2⟩

/-- **C13** The data are reproduced: at the image of node `j` in interval `n` the value is column `j` of
`coefficients[n]`, and on interval `n` the value is a polynomial in `t` of degree at most the order. -/
theorem C13_reproduces_data (pp : PiecewisePoly K) (tau : List K) (R : ℕ) (w : pp.WF tau R)
    (n : ℕ) (hn : n + 1 < pp.intervals.length) (c : Mat K) (hc : pp.coefficients[n]? = some c) :
    (∀ j < tau.length, ∀ x,
      x = nd pp.intervals n + (nd pp.intervals (n + 1) - nd pp.intervals n) * nd tau j →
      InRight pp.intervals n x →
      ∃ V, pp.call [x] = .ok V ∧ V.rows = R ∧ V.cols = 1 ∧ ∀ r, V.e r 0 = c.e r j) ∧
    ∀ r, ∃ P : K[X], P.degree < tau.length ∧ ∀ x, InRight pp.intervals n x →
      ∃ V, pp.call [x] = .ok V ∧ V.e r 0 = P.eval x := by
  constructor
  · intro j hj x hx hin
    obtain ⟨V, h1, h2, h3, h4⟩ := call_ok w "right" .right rfl [x] (by simp)
    refine ⟨V, h1, h2, h3, fun r => ?_⟩
    obtain ⟨P, hP⟩ := w.exists_piece hn r
    have h5 := h4 0 (by simp) n hin r P hP
    obtain ⟨c', hc', _, hv⟩ := hP
    rw [hc] at hc'; cases hc'
    rw [h5, ← hv j hj, ← hx]
    rfl
  · intro r
    obtain ⟨P, hP⟩ := w.exists_piece hn r
    refine ⟨P, hP.choose_spec.2.1, fun x hx => ?_⟩
    obtain ⟨V, h1, _, _, h4⟩ := call_ok w "right" .right rfl [x] (by simp)
    exact ⟨V, h1, h4 0 (by simp) n hx r P hP⟩

omit [LinearOrder K] [IsStrictOrderedRing K] in
/-- The derivative matrix applied to node values, in absolute time. -/
theorem diff_affine' [DecidableEq K] {tau : List K} (hd : tau.Nodup) (a h : K) (hh : h ≠ 0)
    {p : K[X]} (hp : p.degree < tau.length) {j : ℕ} (hj : j < tau.length) :
    (∑ k ∈ Finset.range tau.length, p.eval (a + h * nd tau k) *
      diffEntry tau ((List.range tau.length).map (lamAt tau)) j k) / h
      = (derivative p).eval (a + h * nd tau j) := by
  have := sum_mul_derivative_basis_eval hd (degree_comp_linear_lt h a hp) (nd tau j)
  simp only [eval_comp, eval_add, eval_mul, eval_C, eval_X, derivative_comp, derivative_add,
    derivative_C_mul, derivative_X, derivative_C, mul_one, add_zero] at this
  rw [div_eq_iff hh, add_comm a (h * nd tau j), mul_comm _ h, ← this]
  apply Finset.sum_congr rfl
  intro k hk
  rw [diffEntry_eq hd hj (Finset.mem_range.mp hk), mul_comm, add_comm a]

/-- **C14** `derivative()` is a well-formed `PiecewisePoly` on the same intervals, and wherever `pp` follows the polynomial
`P`, it takes (in either mode) the value of the derivative of `P`. -/
theorem C14_derivative (pp : PiecewisePoly K) (tau : List K) (R : ℕ) (w : pp.WF tau R) :
    ∃ dpp, pp.derivative = .ok dpp ∧ dpp.intervals = pp.intervals ∧ dpp.WF tau R ∧
      (∀ n r P, IsPiece tau pp n r P → IsPiece tau dpp n r (derivative P)) ∧
      ∀ (t : List K), t ≠ [] →
        (∃ V, dpp.call t "right" = .ok V ∧ V.rows = R ∧ V.cols = t.length ∧ ∀ k < t.length, ∀ n,
          InRight pp.intervals n (nd t k) → ∀ r P, IsPiece tau pp n r P →
            V.e r k = (derivative P).eval (nd t k)) ∧
        (∃ V, dpp.call t "left" = .ok V ∧ V.rows = R ∧ V.cols = t.length ∧ ∀ k < t.length, ∀ n,
          InLeft pp.intervals n (nd t k) → ∀ r P, IsPiece tau pp n r P →
            V.e r k = (derivative P).eval (nd t k)) := by
  have hb := w.basis
  rw [polynomialBasis_ok w.ne] at hb
  injection hb with hb
  have hD : pp.basis.D = ⟨tau.length, tau.length, diffEntry tau ((List.range tau.length).map (lamAt tau))⟩ := by
    rw [← hb]
  obtain ⟨l, hl, hlen, hall⟩ := mapM_ok' (fun ci : Mat K × ℕ => pp.derivativeAt ci.2 ci.1)
    pp.coefficients.zipIdx (fun ci d => d.rows = R ∧ d.cols = tau.length ∧ ∀ r, ∀ j,
      d.e r j = (∑ k ∈ Finset.range tau.length, ci.1.e r k *
        diffEntry tau ((List.range tau.length).map (lamAt tau)) j k)
          / (nd pp.intervals (ci.2 + 1) - nd pp.intervals ci.2)) (by
      rintro ⟨c, i⟩ hci
      have hmem := List.mem_zipIdx hci
      simp only [Nat.zero_add, Nat.sub_zero] at hmem
      have hi : i < pp.coefficients.length := hmem.2.1
      have hc : c ∈ pp.coefficients := by rw [hmem.2.2]; exact List.getElem_mem _
      have hl2 := w.len
      refine ⟨⟨c.rows, tau.length, fun r j => (∑ k ∈ Finset.range c.cols, c.e r k *
        diffEntry tau ((List.range tau.length).map (lamAt tau)) j k)
          / (pp.intervals[i + 1] - pp.intervals[i])⟩, ?_, ?_⟩
      · unfold PiecewisePoly.derivativeAt Mat.dot
        rw [if_pos (by rw [w.cols c hc, hD]; rfl), hD]
        simp only [bind, Except.bind, pure, Except.pure]
        rw [show ((i : ℤ) + 1) = ((i + 1 : ℕ) : ℤ) by push_cast; rfl,
          pyIndex_nat (by omega : i + 1 < pp.intervals.length),
          pyIndex_nat (by omega : i < pp.intervals.length)]
        rfl
      · refine ⟨w.rows c hc, rfl, ?_⟩
        intro r j
        simp only [w.cols c hc, nd_eq_getElem (show i < pp.intervals.length by omega),
          nd_eq_getElem (show i + 1 < pp.intervals.length by omega)])
  rw [List.length_zipIdx] at hlen
  have hl2 := w.len
  have hget : ∀ (n : ℕ) (hn : n < l.length), (l[n]).rows = R ∧ (l[n]).cols = tau.length ∧
      ∀ r j, (l[n]).e r j = (∑ k ∈ Finset.range tau.length, (pp.coefficients[n]).e r k *
        diffEntry tau ((List.range tau.length).map (lamAt tau)) j k)
          / (nd pp.intervals (n + 1) - nd pp.intervals n) := by
    intro n hn
    have h := (hall n (by rw [List.length_zipIdx]; omega) hn).2
    simp only [List.getElem_zipIdx, Nat.zero_add] at h
    exact h
  have hW : PiecewisePoly.WF ⟨pp.intervals, l, pp.basis⟩ tau R := by
    refine ⟨w.ne, w.nodup, w.basis, w.asc, w.two, by simp only; omega, ?_, ?_⟩
    · intro c hc
      obtain ⟨i, hi, rfl⟩ := List.mem_iff_getElem.mp hc
      exact (hget i hi).1
    · intro c hc
      obtain ⟨i, hi, rfl⟩ := List.mem_iff_getElem.mp hc
      exact (hget i hi).2.1
  have hpiece : ∀ n r P, IsPiece tau pp n r P →
      IsPiece tau (⟨pp.intervals, l, pp.basis⟩ : PiecewisePoly K) n r (derivative P) := by
    rintro n r P ⟨c, hc, hdeg, hv⟩
    have hn : n < pp.coefficients.length := by
      by_contra hcon
      rw [List.getElem?_eq_none (by omega)] at hc; cases hc
    rw [List.getElem?_eq_getElem hn] at hc; cases hc
    refine ⟨l[n]'(by omega), by simp [show n < l.length by omega], lt_of_le_of_lt
      degree_derivative_le hdeg, ?_⟩
    intro j hj
    rw [(hget n (by omega)).2.2 r j, ← diff_affine' w.nodup _ _ (w.h_pos (by omega)).ne' hdeg hj]
    congr 1
    apply Finset.sum_congr rfl
    intro k hk
    rw [hv k (Finset.mem_range.mp hk)]
  refine ⟨⟨pp.intervals, l, pp.basis⟩, ?_, rfl, hW, hpiece, ?_⟩
  · unfold PiecewisePoly.derivative
    rw [hl]
    simp only [bind, Except.bind, PiecewisePoly.new]
    have h2 := w.two
    rw [if_neg (by omega), if_neg (by omega)]
  · intro t ht
    obtain ⟨V, h1, h2, h3, h4⟩ := call_ok hW "right" .right rfl t ht
    obtain ⟨V', h1', h2', h3', h4'⟩ := call_ok hW "left" .left rfl t ht
    exact ⟨⟨V, h1, h2, h3, fun k hk n hn r P hP => h4 k hk n hn r _ (hpiece n r P hP)⟩,
      ⟨V', h1', h2', h3', fun k hk n hn r P hP => h4' k hk n hn r _ (hpiece n r P hP)⟩⟩

end CE
