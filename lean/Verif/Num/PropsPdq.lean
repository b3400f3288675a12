import Verif.Num.PdqLemmas
import Verif.Num.PropsCheb

/-!
# Properties C17, C18: the `Pdq` grid and `Pdq.derivative`

Specification vocabulary: `GoodScheme cp order` (order + 1 >= 2 ascending points in [0, 1] starting with 0),
`Ascending t` (strictly ascending list), `PiecewisePolynomial t order f` (below).
-/

open Polynomial

namespace CE

variable {K : Type} [Field K] [LinearOrder K] [IsStrictOrderedRing K]

theorem mapM_inv {α β : Type*} (f : α → Except PyErr β) (l : List α) {r : List β} (h : l.mapM f = .ok r) :
    ∀ a ∈ l, ∃ b, f a = .ok b := by
  induction l generalizing r with
  | nil => simp
  | cons a l ih =>
    rw [List.mapM_cons] at h
    simp only [bind, Except.bind] at h
    cases hf : f a with
    | error e => rw [hf] at h; cases h
    | ok b =>
      rw [hf] at h
      simp only at h
      cases hm : l.mapM f with
      | error e => rw [hm] at h; cases h
      | ok r' =>
        intro x hx
        rcases List.mem_cons.mp hx with rfl | hx
        · exact ⟨b, hf⟩
        · exact ih hm x hx

omit [IsStrictOrderedRing K] in
/-- **C17** A grid without intervals raises UnboundLocalError (the loop variable `t_i` is used after the loop). -/
theorem C17_no_intervals (cp : Except PyErr (List K)) (order : ℕ) (t : List K) (ht : t.length ≤ 1) :
    Pdq.new cp t order = .error .name := by
  unfold Pdq.new
  rw [show t.length - 1 = 0 by omega]
  rfl

/-- **C17** The constructor succeeds exactly for ascending grids with at least one interval. -/
theorem C17_ctor (cp : List K) (order : ℕ) (g : GoodScheme cp order) (t : List K) :
    (∃ p, Pdq.new (.ok cp) t order = .ok p) ↔ 2 ≤ t.length ∧ Ascending t := by
  constructor
  · rintro ⟨p, hp⟩
    unfold Pdq.new at hp
    simp only [bind, Except.bind] at hp
    cases hm : (List.range (t.length - 1)).mapM (Pdq.intervalBasis (.ok cp) t order) with
    | error e => rw [hm] at hp; cases hp
    | ok l =>
      rw [hm] at hp
      simp only at hp
      have h2 : 2 ≤ t.length := by
        by_contra hc
        rw [show t.length - 1 = 0 by omega] at hm
        simp only [List.range_zero, List.mapM_nil, pure, Except.pure, Except.ok.injEq] at hm
        subst hm
        simp at hp
      refine ⟨h2, ?_⟩
      intro i hi
      obtain ⟨b, hb⟩ := mapM_inv _ _ hm i (by simp; omega)
      unfold Pdq.intervalBasis at hb
      simp only [bind, Except.bind] at hb
      rw [show ((i : ℤ) + 1) = ((i + 1 : ℕ) : ℤ) by push_cast; rfl, pyIndex_nat hi,
        pyIndex_nat (by omega : i < t.length)] at hb
      simp only [← nd_eq_getElem hi, ← nd_eq_getElem (show i < t.length by omega)] at hb
      rw [show (List.map (fun x => x * (nd t (i + 1) - nd t i) + nd t i) cp) = gridPoints cp t i from rfl] at hb
      split at hb
      · cases hb
      · split at hb
        · cases hb
        · split at hb
          · cases hb
          · split at hb
            · cases hb
            · next h =>
              rw [not_not, List.all_eq_true] at h
              have h1 := h 0 (by rw [List.mem_range, gridPoints_length, g.len]; have := g.pos; omega)
              have h1 := of_decide_eq_true h1
              rw [nd_gridPoints (by rw [g.len]; omega), nd_gridPoints (by rw [g.len]; have := g.pos; omega),
                gridPoint_zero g] at h1
              unfold gridPoint at h1
              have hc : 0 < nd cp (0 + 1) := by
                have := g.asc 0 (by rw [g.len]; have := g.pos; omega)
                rwa [g.zero] at this
              have : 0 < nd t (i + 1) - nd t i := by
                by_contra hcon
                have := mul_nonpos_of_nonneg_of_nonpos hc.le (not_lt.mp hcon)
                linarith
              linarith
  · rintro ⟨h2, ht⟩
    obtain ⟨p, hp, _⟩ := Pdq.new_built g ht h2
    exact ⟨p, hp⟩

theorem Pdq.built_of_ok {cp : List K} {order : ℕ} (g : GoodScheme cp order) {t : List K} {p : Pdq K}
    (h : Pdq.new (.ok cp) t order = .ok p) : p.Built cp t order := by
  obtain ⟨h2, ht⟩ := (C17_ctor cp order g t).mp ⟨p, h⟩
  obtain ⟨p', hp', hb⟩ := Pdq.new_built g ht h2
  rw [h] at hp'; cases hp'; exact hb

/-- Position of a collocation point: interval and index in the interval. -/
theorem split_pos {N order i : ℕ} (h : 1 ≤ order) (hi : i < N * order) :
    ∃ n j, n < N ∧ j < order ∧ i = n * order + j :=
  ⟨i / order, i % order, Nat.div_lt_of_lt_mul (by rwa [Nat.mul_comm]), Nat.mod_lt _ (by omega),
    by rw [Nat.mul_comm, Nat.div_add_mod]⟩

theorem Pdq.Built.bound {p : Pdq K} {cp t : List K} {order : ℕ} (w : p.Built cp t order) {n : ℕ}
    (hn : n < t.length - 1) : nd p.collocationPoints (n * order) = nd t n := by
  have := w.pts n hn 0 w.scheme.pos
  rwa [add_zero, gridPoint_zero w.scheme] at this

theorem Pdq.Built.points_asc {p : Pdq K} {cp t : List K} {order : ℕ} (w : p.Built cp t order) :
    Ascending p.collocationPoints := by
  intro i hi
  rw [w.plen] at hi
  have hpos := w.scheme.pos
  have h2 := w.two
  obtain ⟨n, j, hn, hj, rfl⟩ := split_pos hpos (show i < (t.length - 1) * order by omega)
  rw [w.pts n hn j hj]
  rcases Nat.lt_or_ge (j + 1) order with h | h
  · rw [add_assoc, w.pts n hn (j + 1) h]
    exact gridPoint_lt w.scheme w.asc (by omega) (Nat.lt_succ_self j) h.le
  · have hjo : j + 1 = order := by omega
    have he : n * order + j + 1 = (n + 1) * order := by rw [add_assoc, hjo]; ring
    rw [he]
    rcases Nat.lt_or_ge (n + 1) (t.length - 1) with h' | h'
    · rw [w.bound h']
      exact gridPoint_lt_next w.scheme w.asc (by omega) hj
    · have : n + 1 = t.length - 1 := by omega
      rw [this, w.last, show t.length - 2 = n by omega]
      exact gridPoint_lt w.scheme w.asc (by omega) hj le_rfl

theorem Pdq.Built.tf_eq {p : Pdq K} {cp t : List K} {order : ℕ} (w : p.Built cp t order)
    (h1 : nd cp order = 1) : nd p.collocationPoints ((t.length - 1) * order) = nd t (t.length - 1) := by
  rw [w.last, gridPoint_one h1]
  have := w.two
  congr 1; omega

/-- **C17** The grid: number of points, strictly ascending, every interval bound is a point. -/
theorem C17_grid (cp : List K) (order : ℕ) (g : GoodScheme cp order) (t : List K) (p : Pdq K)
    (hp : Pdq.new (.ok cp) t order = .ok p) :
    p.numIntervals = t.length - 1 ∧ p.intervalBounds = t ∧ p.polyOrder = order ∧
    p.collocationPoints.length = (t.length - 1) * order + 1 ∧
    (∀ i j, i < j → j < p.collocationPoints.length → nd p.collocationPoints i < nd p.collocationPoints j) ∧
    (∀ k < t.length - 1, nd p.collocationPoints (k * order) = nd t k) ∧
    (∀ k < t.length - 1, ∀ j < order,
      nd p.collocationPoints (k * order + j) = nd t k + (nd t (k + 1) - nd t k) * nd cp j) ∧
    p.t0 = .ok (nd t 0) ∧
    (nd cp order = 1 →
      nd p.collocationPoints ((t.length - 1) * order) = nd t (t.length - 1) ∧
      p.tf = .ok (nd t (t.length - 1)) ∧ p.intervalLength = .ok (nd t (t.length - 1) - nd t 0)) := by
  have w := Pdq.built_of_ok g hp
  have h2 := w.two
  have hne : p.collocationPoints ≠ [] := by intro h; have := w.plen; rw [h] at this; simp at this
  have h0 : p.t0 = .ok (nd t 0) := by
    have := w.bound (n := 0) (by omega)
    unfold Pdq.t0
    have h := pyIndex_nat (l := p.collocationPoints) (n := 0) (by rw [w.plen]; omega)
    rw [show ((0 : ℕ) : ℤ) = 0 from rfl] at h
    rw [h, ← nd_eq_getElem, ← this, Nat.zero_mul]
  have hlast : p.collocationPoints.getLast hne = nd p.collocationPoints ((t.length - 1) * order) := by
    rw [List.getLast_eq_getElem, nd_eq_getElem (by rw [w.plen]; omega)]
    simp [w.plen]
  refine ⟨by rw [Pdq.numIntervals, w.bounds], w.bounds, w.ord, w.plen, ?_, fun k hk => w.bound hk, ?_, h0, ?_⟩
  · intro i j hij hj
    exact w.points_asc.lt hij hj
  · intro k hk j hj
    rw [w.pts k hk j hj, gridPoint]; ring
  · intro h1
    have htf : p.tf = .ok (nd t (t.length - 1)) := by
      rw [Pdq.tf, pyIndex_last _ hne, hlast, w.tf_eq h1]
    refine ⟨w.tf_eq h1, htf, ?_⟩
    have ha : pyIndex p.collocationPoints (-1) = .ok (nd t (t.length - 1)) := htf
    have hb : pyIndex p.collocationPoints 0 = .ok (nd t 0) := h0
    rw [Pdq.intervalLength, ha, hb]; rfl

/-- `f` is a continuous function that is a polynomial of degree at most `order` on every interval of the grid
(the pieces live on closed intervals, hence agree at the common ends). -/
def PiecewisePolynomial (t : List K) (order : ℕ) (f : K → K) : Prop :=
  ∀ n, n + 1 < t.length → ∃ P : K[X], P.natDegree ≤ order ∧ ∀ x, nd t n ≤ x → x ≤ nd t (n + 1) → f x = P.eval x

/-- Row of the big differentiation matrix applied to a row of values. -/
theorem Pdq.Built.derivative_ok {p : Pdq K} {cp t : List K} {order : ℕ} (w : p.Built cp t order) (y : Mat K)
    (hy : y.cols = (t.length - 1) * order + 1) :
    ∃ d, p.derivative y = .ok d ∧ d.rows = y.rows ∧ d.cols = (t.length - 1) * order ∧
      ∀ r, ∀ (n : ℕ) (hn : n < p.basis.length), ∀ j < order, d.e r (n * order + j)
        = ∑ k ∈ Finset.range (order + 1), y.e r (n * order + k) * (p.basis[n]).D.e j k := by
  refine ⟨⟨y.rows, p.bigD.rows - 1, fun i j => ∑ k ∈ Finset.range y.cols, y.e i k * p.bigD.e j k⟩, ?_, rfl, ?_, ?_⟩
  · unfold Pdq.derivative csMtimes
    rw [if_pos (by rw [hy]; exact w.dcols.symm)]
    rfl
  · rw [w.drows]; rfl
  · intro r n hn j hj
    simp only
    have hle : (n + 1) * order ≤ (t.length - 1) * order := Nat.mul_le_mul_right _ (by rw [← w.blen]; omega)
    have he : (n + 1) * order = n * order + order := by ring
    rw [← sum_block (fun k => y.e r k) (fun k => (p.basis[n]).D.e j k) (n * order) (order + 1) y.cols (by omega)]
    apply Finset.sum_congr rfl
    intro k _
    rw [w.dval n hn j hj k]

/-- **C18** Shapes: with as many columns as collocation points the result has one column less; another number of columns
raises RuntimeError, except that a 1x1 argument is multiplied into the transposed differentiation matrix and gives a result
with as many rows as there are points. -/
theorem C18_shape (cp : List K) (order : ℕ) (g : GoodScheme cp order) (t : List K) (p : Pdq K)
    (hp : Pdq.new (.ok cp) t order = .ok p) (y : Mat K) :
    (y.cols = p.collocationPoints.length →
      ∃ d, p.derivative y = .ok d ∧ d.rows = y.rows ∧ d.cols + 1 = p.collocationPoints.length) ∧
    (y.cols ≠ p.collocationPoints.length → ¬ (y.rows = 1 ∧ y.cols = 1) → p.derivative y = .error .runtime) ∧
    (y.rows = 1 → y.cols = 1 → ∃ d, p.derivative y = .ok d ∧ d.rows = p.collocationPoints.length ∧
      d.cols + 1 = p.collocationPoints.length ∧
      ∀ i < d.rows, ∀ j < d.cols, d.e i j = y.e 0 0 * p.bigD.e j i) := by
  have w := Pdq.built_of_ok g hp
  have h2 := w.two
  have hpos := g.pos
  have hpl := w.plen
  have hge : 1 ≤ (t.length - 1) * order := Nat.mul_pos (by omega) hpos
  have hrows : p.bigD.dropLastRow.T.rows = p.collocationPoints.length := by
    show p.bigD.cols = _
    rw [w.dcols, hpl]
  have hcols : p.bigD.dropLastRow.T.cols + 1 = p.collocationPoints.length := by
    show p.bigD.rows - 1 + 1 = _
    rw [w.drows, hpl]
    rfl
  refine ⟨fun h => ?_, fun h h' => ?_, fun h h' => ?_⟩
  · rw [Pdq.derivative, csMtimes, if_pos (by rw [hrows, h])]
    exact ⟨_, rfl, rfl, hcols⟩
  · rw [Pdq.derivative, csMtimes, if_neg (by rw [hrows]; exact h), if_neg h', if_neg]
    rintro ⟨h3, _⟩
    omega
  · rw [Pdq.derivative, csMtimes, if_neg (by rw [hrows]; omega), if_pos ⟨h, h'⟩]
    exact ⟨_, rfl, hrows, hcols, fun _ _ _ _ => rfl⟩

/-- **C18** (partial: the end point of the scheme is 1, or there is a single interval; otherwise false, see
`C18_refuted_legendre`). -/
theorem C18_derivative_partial (cp : List K) (order : ℕ) (g : GoodScheme cp order) (t : List K) (p : Pdq K)
    (hp : Pdq.new (.ok cp) t order = .ok p) (h1 : nd cp order = 1 ∨ t.length = 2)
    (y : Mat K) (f : ℕ → K → K) (hf : ∀ r < y.rows, PiecewisePolynomial t order (f r))
    (hcols : y.cols = p.collocationPoints.length)
    (hval : ∀ r < y.rows, ∀ i < y.cols, y.e r i = f r (nd p.collocationPoints i)) :
    ∃ d, p.derivative y = .ok d ∧ d.rows = y.rows ∧ d.cols + 1 = p.collocationPoints.length ∧
      ∀ r < y.rows, ∀ i < d.cols, ∀ n, n + 1 < t.length →
        nd t n ≤ nd p.collocationPoints i → nd p.collocationPoints i < nd t (n + 1) →
        ∀ P : K[X], P.natDegree ≤ order → (∀ x, nd t n ≤ x → x ≤ nd t (n + 1) → f r x = P.eval x) →
          d.e r i = (derivative P).eval (nd p.collocationPoints i) := by
  have w := Pdq.built_of_ok g hp
  have hpos := g.pos
  rw [w.plen] at hcols
  obtain ⟨d, hd, hr, hc, hval'⟩ := w.derivative_ok y hcols
  refine ⟨d, hd, hr, by rw [hc, w.plen], ?_⟩
  intro r hrr i hi n hn hle hlt P hP hPf
  rw [hc] at hi
  obtain ⟨m, j, hm, hj, rfl⟩ := split_pos hpos hi
  have hpt := w.pts m hm j hj
  -- the interval is the one of the point
  have hmn : m = n := by
    rw [hpt] at hle hlt
    have hge := gridPoint_ge g w.asc (n := m) (j := j) (by omega) hj.le
    have hlt' := gridPoint_lt_next g w.asc (n := m) (by omega) hj
    have a1 : m < n + 1 := (w.asc.lt_iff (by omega) hn).mp (lt_of_le_of_lt hge hlt)
    have a2 : n < m + 1 := (w.asc.lt_iff (by omega) (by omega)).mp (lt_of_le_of_lt hle hlt')
    omega
  subst hmn
  have hmb : m < p.basis.length := by rw [w.blen]; exact hm
  rw [hval' r m hmb j hj]
  -- values at all points of the interval
  have hgp : ∀ k ≤ order, nd p.collocationPoints (m * order + k) = gridPoint cp t m k := by
    intro k hk
    rcases Nat.lt_or_eq_of_le hk with h | h
    · exact w.pts m hm k h
    · subst h
      have he : m * k + k = (m + 1) * k := by ring
      rw [he]
      rcases h1 with h1 | h1
      · rw [gridPoint_one h1]
        rcases Nat.lt_or_ge (m + 1) (t.length - 1) with h' | h'
        · exact w.bound h'
        · rw [show m + 1 = t.length - 1 by omega]; exact w.tf_eq h1
      · have : m = 0 := by omega
        subst this
        have := w.last
        rw [h1] at this
        simpa using this
  have hyv : ∀ k ≤ order, y.e r (m * order + k) = P.eval (gridPoint cp t m k) := by
    intro k hk
    have hle' : (m + 1) * order ≤ (t.length - 1) * order := Nat.mul_le_mul_right _ hm
    have he : (m + 1) * order = m * order + order := by ring
    rw [hval r hrr _ (by omega), hgp k hk]
    refine hPf _ (gridPoint_ge g w.asc hn hk) ?_
    rcases Nat.lt_or_eq_of_le hk with h | h
    · exact (gridPoint_lt_next g w.asc hn h).le
    · subst h
      have hh : 0 < nd t (m + 1) - nd t m := sub_pos.mpr (w.asc m hn)
      have := mul_le_mul_of_nonneg_right g.le_one hh.le
      unfold gridPoint; linarith
  -- the exact differentiation matrix of the interval
  have hgl : (gridPoints cp t m).length = order + 1 := by rw [gridPoints_length, g.len]
  have hgne : gridPoints cp t m ≠ [] := by intro h; rw [h] at hgl; simp at hgl
  obtain ⟨b, hb, _, _, hD, _⟩ := C03_differentiation_matrix (gridPoints cp t m) hgne
    (gridPoints_asc g w.asc hn).nodup
  have hbb := w.basis m hmb
  rw [hbb] at hb
  cases hb
  have hdeg : P.degree < (gridPoints cp t m).length := by
    rw [hgl]
    refine lt_of_le_of_lt degree_le_natDegree ?_
    exact_mod_cast Nat.lt_succ_of_le hP
  have := hD P hdeg j (by rw [hgl]; omega)
  rw [hgl, nd_gridPoints (by rw [g.len]; omega)] at this
  rw [hpt, ← this]
  apply Finset.sum_congr rfl
  intro k hk
  have hk' : k ≤ order := by have := Finset.mem_range.mp hk; omega
  rw [hyv k hk', nd_gridPoints (by rw [g.len]; omega), mul_comm]

/-- **C18** (the final point): the last row of the differentiation matrix gives the derivative at the last collocation point,
without a condition on the scheme.  (`derivative` itself leaves this row out.) -/
theorem C18_last_row (cp : List K) (order : ℕ) (g : GoodScheme cp order) (t : List K) (p : Pdq K)
    (hp : Pdq.new (.ok cp) t order = .ok p) (f : K → K) (P : K[X]) (hP : P.natDegree ≤ order)
    (hPf : ∀ x, nd t (t.length - 2) ≤ x → x ≤ nd t (t.length - 1) → f x = P.eval x) :
    ∑ k ∈ Finset.range p.collocationPoints.length,
        f (nd p.collocationPoints k) * p.bigD.e (p.collocationPoints.length - 1) k =
      (derivative P).eval (nd p.collocationPoints (p.collocationPoints.length - 1)) := by
  have w := Pdq.built_of_ok g hp
  have h2 := w.two
  set m := t.length - 2 with hm
  have hmt : t.length - 1 = m + 1 := by omega
  have hmb : m < p.basis.length := by rw [w.blen]; omega
  have hn : m + 1 < t.length := by omega
  have hl : (t.length - 1) * order = m * order + order := by rw [hmt]; ring
  have hgp : ∀ k ≤ order, nd p.collocationPoints (m * order + k) = gridPoint cp t m k := by
    intro k hk
    rcases Nat.lt_or_eq_of_le hk with h | h
    · exact w.pts m (by omega) k h
    · subst h
      rw [← hl]
      exact w.last
  have hyv : ∀ k ≤ order, f (nd p.collocationPoints (m * order + k)) = P.eval (gridPoint cp t m k) := by
    intro k hk
    rw [hgp k hk]
    refine hPf _ (gridPoint_ge g w.asc hn hk) ?_
    rw [hmt]
    rcases Nat.lt_or_eq_of_le hk with h | h
    · exact (gridPoint_lt_next g w.asc hn h).le
    · subst h
      have hh : 0 < nd t (m + 1) - nd t m := sub_pos.mpr (w.asc m hn)
      have := mul_le_mul_of_nonneg_right g.le_one hh.le
      unfold gridPoint; linarith
  have hgl : (gridPoints cp t m).length = order + 1 := by rw [gridPoints_length, g.len]
  have hgne : gridPoints cp t m ≠ [] := by intro h; rw [h] at hgl; simp at hgl
  obtain ⟨b, hb, _, _, hD, _⟩ := C03_differentiation_matrix (gridPoints cp t m) hgne
    (gridPoints_asc g w.asc hn).nodup
  have hbb := w.basis m hmb
  rw [hbb] at hb
  cases hb
  have hdeg : P.degree < (gridPoints cp t m).length := by
    rw [hgl]
    refine lt_of_le_of_lt degree_le_natDegree ?_
    exact_mod_cast Nat.lt_succ_of_le hP
  have hlast := hD P hdeg order (by rw [hgl]; omega)
  rw [hgl, nd_gridPoints (by rw [g.len]; omega)] at hlast
  rw [w.plen, Nat.add_sub_cancel, w.last, ← hlast]
  rw [Finset.sum_congr rfl fun k _ => by rw [w.dlast hmb k],
    sum_block (fun k => f (nd p.collocationPoints k)) (fun k => (p.basis[m]).D.e order k) (m * order) (order + 1) _ (by omega)]
  apply Finset.sum_congr rfl
  intro k hk
  have hk' : k ≤ order := by have := Finset.mem_range.mp hk; omega
  rw [hyv k hk', nd_gridPoints (by rw [g.len]; omega), mul_comm]

/-- Chebyshev points are a good scheme that ends in 1, so C17-C21 apply to the default scheme of `Pdq`. -/
theorem chebyshev_goodScheme (n : ℕ) (hn : 1 ≤ n) :
    GoodScheme (chebyshevPoints n) n ∧ nd (chebyshevPoints n) n = 1 := by
  obtain ⟨t, ht, hl, h0, h⟩ := C06_chebyshev_points (fun _ _ => .error .value) n
  simp only [collocationPoints, if_pos, Except.ok.injEq] at ht
  subst ht
  obtain ⟨h1, hlt, _⟩ := h hn
  exact ⟨⟨hl, hn, fun i hi => hlt i (i + 1) (Nat.lt_succ_self i) (by omega), h0, h1.le⟩, h1⟩

/-- **C18** for the default scheme, without side condition. -/
theorem C18_derivative_chebyshev (ext : ℕ → String → Except PyErr (List ℝ)) (order : ℕ) (ho : 1 ≤ order)
    (t : List ℝ) (p : Pdq ℝ) (hp : Pdq.new (collocationPoints ext order "chebyshev") t order = .ok p)
    (y : Mat ℝ) (f : ℕ → ℝ → ℝ) (hf : ∀ r < y.rows, PiecewisePolynomial t order (f r))
    (hcols : y.cols = p.collocationPoints.length)
    (hval : ∀ r < y.rows, ∀ i < y.cols, y.e r i = f r (nd p.collocationPoints i)) :
    ∃ d, p.derivative y = .ok d ∧ d.rows = y.rows ∧ d.cols + 1 = p.collocationPoints.length ∧
      ∀ r < y.rows, ∀ i < d.cols, ∀ n, n + 1 < t.length →
        nd t n ≤ nd p.collocationPoints i → nd p.collocationPoints i < nd t (n + 1) →
        ∀ P : ℝ[X], P.natDegree ≤ order → (∀ x, nd t n ≤ x → x ≤ nd t (n + 1) → f r x = P.eval x) →
          d.e r i = (derivative P).eval (nd p.collocationPoints i) :=
  C18_derivative_partial _ order (chebyshev_goodScheme order ho).1 t p hp
    (Or.inl (chebyshev_goodScheme order ho).2) y f hf hcols hval

/-! ## Examples and refutation -/

/-- Points of the Gauss-Legendre scheme with one point, as `collocationPoints(1, 'legendre')` returns them. -/
def legendre1 : List ℚ := [0, 1 / 2]

theorem legendre1_good : GoodScheme legendre1 1 := by
  refine ⟨rfl, le_rfl, ?_, rfl, by simp [legendre1, nd]; norm_num⟩
  intro i hi
  have : i = 0 := by simp [legendre1] at hi; omega
  subst this; simp [legendre1, nd]

theorem asc012 : Ascending ([0, 1, 2] : List ℚ) := by
  intro i hi
  have : i = 0 ∨ i = 1 := by simp at hi; omega
  rcases this with rfl | rfl <;> simp [nd]

/-- **C18** is false for schemes whose last point is not 1: on the grid `[0, 1, 2]` with `collocationPoints(1,'legendre')`
the values of the linear function `x ↦ x` at the collocation points `[0, 1, 3/2]` get the derivative 2 at 0. -/
theorem C18_refuted_legendre :
    ∃ p, Pdq.new (.ok legendre1) [0, 1, 2] 1 = .ok p ∧ p.collocationPoints = [0, 1, 3 / 2] ∧
      ∃ d, p.derivative (⟨1, 3, fun _ i => nd p.collocationPoints i⟩ : Mat ℚ) = .ok d ∧
        d.e 0 0 = 2 ∧ (derivative (X : ℚ[X])).eval 0 = 1 := by
  obtain ⟨p, hp, w⟩ := Pdq.new_built legendre1_good asc012 (by simp)
  have hpts : p.collocationPoints = [0, 1, 3 / 2] := by
    have hl : p.collocationPoints.length = 3 := w.plen
    have h0 := w.pts 0 (by simp) 0 one_pos
    have h1 := w.pts 1 (by simp) 0 one_pos
    have h2 := w.last
    simp only [gridPoint, legendre1, nd, List.length_cons, List.length_nil] at h0 h1 h2
    match hpp : p.collocationPoints, hl with
    | [a, b, c], _ =>
      rw [hpp] at h0 h1 h2
      norm_num at h0 h1 h2
      rw [h0, h1, h2]
  refine ⟨p, hp, hpts, ?_⟩
  obtain ⟨d, hd, _, _, hv⟩ := w.derivative_ok (⟨1, 3, fun _ i => nd p.collocationPoints i⟩ : Mat ℚ) rfl
  refine ⟨d, hd, ?_, by simp⟩
  have hb0 : 0 < p.basis.length := by rw [w.blen]; simp
  have := hv 0 0 hb0 0 one_pos
  have hb := w.basis 0 hb0
  rw [Nat.zero_mul, Nat.add_zero] at this
  rw [this, hpts]
  have hne : gridPoints legendre1 [0, 1, 2] 0 ≠ [] := by simp [gridPoints, legendre1]
  rw [polynomialBasis_ok hne] at hb
  have hD := congrArg (fun x => match x with | Except.ok b => b.D.e 0 1 | Except.error _ => 0) hb
  simp only at hD
  rw [Finset.sum_range_succ, Finset.sum_range_succ, Finset.sum_range_zero]
  simp only [nd, List.getD_cons_zero, List.getD_cons_succ, zero_add, zero_mul, one_mul, Nat.zero_mul]
  rw [← hD]
  simp [gridPoints, legendre1, diffEntry, lamAt, nd, List.range_succ]

/-- Hypotheses of C17/C18 are met by the Chebyshev scheme of order 3 on a non-uniform grid. -/
example : GoodScheme (chebyshevPoints 3) 3 ∧ nd (chebyshevPoints 3) 3 = 1 ∧
    Ascending ([0, 1, 4] : List ℝ) ∧ ∃ p, Pdq.new (.ok (chebyshevPoints 3)) [0, 1, 4] 3 = .ok p := by
  have h : Ascending ([0, 1, 4] : List ℝ) := by
    intro i hi
    have : i = 0 ∨ i = 1 := by simp at hi; omega
    rcases this with rfl | rfl <;> simp [nd]
  have g := chebyshev_goodScheme 3 (by omega)
  exact ⟨g.1, g.2, h, (C17_ctor _ 3 g.1 _).mpr ⟨by simp, h⟩⟩

/-- A piecewise polynomial function that is not a polynomial: `|x - 1|` on the grid `[0, 1, 2]`. -/
example : PiecewisePolynomial ([0, 1, 2] : List ℚ) 1 (fun x => |x - 1|) := by
  intro n hn
  have : n = 0 ∨ n = 1 := by simp at hn; omega
  rcases this with rfl | rfl
  · refine ⟨1 - X, (natDegree_sub_le _ _).trans (by simp), ?_⟩
    intro x _ h
    simp only [nd, List.getD_cons_succ, List.getD_cons_zero] at h
    change |x - 1| = _
    rw [abs_of_nonpos (by linarith)]; simp
  · refine ⟨X - 1, (natDegree_sub_le _ _).trans (by simp), ?_⟩
    intro x h _
    simp only [nd, List.getD_cons_succ, List.getD_cons_zero] at h
    change |x - 1| = _
    rw [abs_of_nonneg (by linarith)]; simp

/-- On `[0, 1, 3]` with the points `0, 1/2, 1` the last row of the matrix applied to the squares of the collocation points
gives 6, the derivative of `x^2` at 3. -/
example : ∃ p, Pdq.new (.ok ([0, 1 / 2, 1] : List ℚ)) [0, 1, 3] 2 = .ok p ∧ p.collocationPoints.length = 5 ∧
    ∑ k ∈ Finset.range 5, nd p.collocationPoints k ^ 2 * p.bigD.e 4 k = 6 := by
  have g : GoodScheme ([0, 1 / 2, 1] : List ℚ) 2 := by
    refine ⟨rfl, by omega, ?_, rfl, by simp [nd]⟩
    intro i hi
    have : i = 0 ∨ i = 1 := by simp at hi; omega
    rcases this with rfl | rfl <;> norm_num [nd]
  have ha : Ascending ([0, 1, 3] : List ℚ) := by
    intro i hi
    have : i = 0 ∨ i = 1 := by simp at hi; omega
    rcases this with rfl | rfl <;> norm_num [nd]
  obtain ⟨p, hp⟩ := (C17_ctor _ 2 g [0, 1, 3]).mpr ⟨by simp, ha⟩
  have w := Pdq.built_of_ok g hp
  have hl : p.collocationPoints.length = 5 := w.plen
  have h := C18_last_row _ 2 g _ p hp (fun x => x ^ 2) (X ^ 2) (by simp) (fun x _ _ => by simp)
  have h3 : nd p.collocationPoints 4 = 3 := by
    have := w.last
    norm_num [gridPoint, nd] at this
    simpa [nd] using this
  rw [hl] at h
  refine ⟨p, hp, hl, h.trans ?_⟩
  rw [h3]
  simp
  norm_num

/-- The points 0, 1/2, 1 as a scheme of order 2. -/
theorem exGood : GoodScheme ([0, 1 / 2, 1] : List ℚ) 2 := by
  refine ⟨rfl, by omega, ?_, rfl, by simp [nd]⟩
  intro i hi
  have : i = 0 ∨ i = 1 := by simp at hi; omega
  rcases this with rfl | rfl <;> norm_num [nd]

/-- The scheme on the grid `[0, 1, 3]`: the collocation points 0, 1/2, 1, 2, 3. -/
theorem exPdq : ∃ p, Pdq.new (.ok ([0, 1 / 2, 1] : List ℚ)) [0, 1, 3] 2 = .ok p ∧ p.collocationPoints.length = 5 ∧
    ∀ k < 5, nd p.collocationPoints k = nd ([0, 1/2, 1, 2, 3] : List ℚ) k := by
  have ha : Ascending ([0, 1, 3] : List ℚ) := by
    intro i hi
    have : i = 0 ∨ i = 1 := by simp at hi; omega
    rcases this with rfl | rfl <;> norm_num [nd]
  obtain ⟨p, hp⟩ := (C17_ctor _ 2 exGood [0, 1, 3]).mpr ⟨by simp, ha⟩
  obtain ⟨-, -, -, h4, -, -, h7, -, h9⟩ := C17_grid _ 2 exGood _ p hp
  refine ⟨p, hp, h4, fun k hk => ?_⟩
  have e0 := h7 0 (by decide) 0 (by decide)
  have e1 := h7 0 (by decide) 1 (by decide)
  have e2 := h7 1 (by decide) 0 (by decide)
  have e3 := h7 1 (by decide) 1 (by decide)
  have e4 := (h9 rfl).1
  have : k = 0 ∨ k = 1 ∨ k = 2 ∨ k = 3 ∨ k = 4 := by omega
  rcases this with rfl | rfl | rfl | rfl | rfl
  · exact e0.trans (by norm_num [nd])
  · exact e1.trans (by norm_num [nd])
  · exact e2.trans (by norm_num [nd])
  · exact e3.trans (by norm_num [nd])
  · exact e4.trans (by norm_num [nd])

/-- C17: a grid of one point. -/
example : Pdq.new (.ok ([0, 1 / 2, 1] : List ℚ)) [7] 2 = .error .name := C17_no_intervals _ _ _ (by decide)

/-- C18: the derivative of `x^2` at 0, 1/2, 1, 2 from its values at 0, 1/2, 1, 2, 3; three columns instead of five raise. -/
example : ∃ p d, Pdq.new (.ok ([0, 1 / 2, 1] : List ℚ)) [0, 1, 3] 2 = .ok p ∧
    p.derivative (⟨1, 5, fun _ i => nd p.collocationPoints i ^ 2⟩ : Mat ℚ) = .ok d ∧ d.cols = 4 ∧ d.e 0 1 = 1 ∧ d.e 0 3 = 4 ∧
    p.derivative (⟨1, 3, fun _ _ => 1⟩ : Mat ℚ) = .error .runtime := by
  obtain ⟨p, hp, hl, hpt⟩ := exPdq
  obtain ⟨d, h1, -, h3, h4⟩ := C18_derivative_partial _ 2 exGood _ p hp (.inl rfl)
    (⟨1, 5, fun _ i => nd p.collocationPoints i ^ 2⟩ : Mat ℚ) (fun _ x => x ^ 2)
    (fun r _ n _ => ⟨X ^ 2, by simp, fun x _ _ => by simp⟩) hl.symm (fun r _ i _ => rfl)
  refine ⟨p, d, hp, h1, by omega, ?_, ?_, (C18_shape _ 2 exGood _ p hp _).2.1 (by rw [hl]; decide) (by simp)⟩
  · rw [h4 0 Nat.one_pos 1 (by omega) 0 (by decide) (by rw [hpt 1 (by decide)]; norm_num [nd]) (by rw [hpt 1 (by decide)]; norm_num [nd])
      (X ^ 2) (by simp) (fun x _ _ => by simp), hpt 1 (by decide)]
    norm_num [nd]
  · rw [h4 0 Nat.one_pos 3 (by omega) 1 (by decide) (by rw [hpt 3 (by decide)]; norm_num [nd]) (by rw [hpt 3 (by decide)]; norm_num [nd])
      (X ^ 2) (by simp) (fun x _ _ => by simp), hpt 3 (by decide)]
    norm_num [nd]

/-- C18, Chebyshev points: the derivative of `x` is 1 everywhere. -/
example (ext : ℕ → String → Except PyErr (List ℝ)) : ∃ p d, Pdq.new (collocationPoints ext 3 "chebyshev") [0, 1, 4] 3 = .ok p ∧
    p.derivative (⟨1, 7, fun _ i => nd p.collocationPoints i⟩ : Mat ℝ) = .ok d ∧ d.cols = 6 ∧ d.e 0 0 = 1 := by
  have ha : Ascending ([0, 1, 4] : List ℝ) := by
    intro i hi
    have : i = 0 ∨ i = 1 := by simp at hi; omega
    rcases this with rfl | rfl <;> simp [nd]
  have g := (chebyshev_goodScheme 3 (by omega)).1
  obtain ⟨p, hp⟩ := (C17_ctor _ 3 g [0, 1, 4]).mpr ⟨by simp, ha⟩
  obtain ⟨-, -, -, h4, -, h6, -⟩ := C17_grid _ 3 g _ p hp
  have h0 : nd p.collocationPoints 0 = 0 := h6 0 (by decide)
  have hc : collocationPoints ext 3 "chebyshev" = .ok (chebyshevPoints 3) := rfl
  obtain ⟨d, d1, -, d3, d4⟩ := C18_derivative_chebyshev ext 3 (by decide) [0, 1, 4] p (by rw [hc]; exact hp)
    (⟨1, 7, fun _ i => nd p.collocationPoints i⟩ : Mat ℝ) (fun _ x => x) (fun r _ n _ => ⟨X, by simp, fun x _ _ => by simp⟩) h4.symm
    (fun r _ i _ => rfl)
  have d3 : d.cols + 1 = 7 := d3.trans h4
  refine ⟨p, d, by rw [hc]; exact hp, d1, by omega, ?_⟩
  rw [d4 0 Nat.one_pos 0 (by omega) 0 (by decide) (by rw [h0]; simp [nd]) (by rw [h0]; simp [nd]) X (by simp) (fun x _ _ => by simp)]
  simp

end CE
