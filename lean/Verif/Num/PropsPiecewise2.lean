import Verif.Num.PropsPiecewise
import Mathlib.Algebra.Order.Archimedean.Basic
import Mathlib.Data.Rat.Floor

/-!
# Properties C15, C16: `PiecewisePoly.poly` and `PiecewisePoly.discretize`
-/

open Polynomial

namespace CE

variable {K : Type*} [Field K] [LinearOrder K] [IsStrictOrderedRing K]

omit [LinearOrder K] [IsStrictOrderedRing K] in
theorem eval_rescale_list (h : K) (l : List K) (s : K) :
    (Poly1d.listPoly (List.zipWith (fun c (k : ℕ) => c / h ^ k) l (List.range l.length).reverse)).eval s
      = (Poly1d.listPoly l).eval (s / h) := by
  induction l with
  | nil => simp
  | cons c l ih =>
    rw [List.length_cons, List.range_succ, List.reverse_append, List.reverse_cons, List.reverse_nil,
      List.nil_append, List.cons_append, List.nil_append, List.zipWith_cons_cons,
      Poly1d.listPoly_cons, Poly1d.listPoly_cons, eval_add, eval_add, ih]
    simp only [List.length_zipWith, List.length_reverse, List.length_range, min_self, eval_mul, eval_C,
      eval_pow, eval_X, div_pow]
    ring

/-- Common part of C15: the composed polynomials. -/
theorem compose_pieces {pp : PiecewisePoly K} {tau : List K} {R : ℕ} (w : pp.WF tau R) {n : ℕ}
    (hn : n + 1 < pp.intervals.length) :
    ∃ c qs, pyIndex pp.coefficients n = .ok c ∧ pp.basis.compose c = .ok qs ∧ qs.length = R ∧
      ∀ (r : ℕ) (hr : r < qs.length) (P : K[X]), IsPiece tau pp n r P →
        (qs[r]).coef.length = P.natDegree + 1 ∧
        ∀ x, (qs[r]).eval x
          = P.eval (nd pp.intervals n + (nd pp.intervals (n + 1) - nd pp.intervals n) * x) := by
  have hn' : n < pp.coefficients.length := by have := w.len; omega
  have hcols := w.cols _ (List.getElem_mem hn')
  choose g hg htr hgp using fun i => composeRow_ok w.ne _ w.basis pp.coefficients[n] hcols.le i
  refine ⟨pp.coefficients[n], (List.range pp.coefficients[n].rows).map g, pyIndex_nat hn',
    mapM_ok _ _ g (fun i _ => hg i), by simp [w.rows _ (List.getElem_mem hn')], ?_⟩
  intro r hr P hP
  simp only [List.getElem_map, List.getElem_range]
  have hget : pp.coefficients[n]? = some pp.coefficients[n] := by simp [hn']
  obtain ⟨c', hc', hdeg, hv⟩ := hP
  rw [hget] at hc'; cases hc'
  set a := nd pp.intervals n
  set h := nd pp.intervals (n + 1) - nd pp.intervals n
  have hh : 0 < h := w.h_pos hn
  have hq : (g r).toPoly = P.comp (C h * X + C a) := by
    rw [hgp, eq_sum_basis w.nodup (degree_comp_linear_lt h a hdeg), hcols]
    apply Finset.sum_congr rfl
    intro j hj
    rw [← hv j (Finset.mem_range.mp hj)]
    simp only [eval_comp, eval_add, eval_mul, eval_C, eval_X]
    rw [add_comm a]
  constructor
  · rw [Poly1d.coef_length_of_trimmed (htr r), hq, natDegree_comp, natDegree_linear hh.ne', mul_one]
  · intro x
    rw [Poly1d.eval_eq, hq]
    simp only [eval_comp, eval_add, eval_mul, eval_C, eval_X]
    rw [add_comm a]

/-- **C15 (partial)** `poly(n)` returns the local polynomials `p[r](s) = pp(t_n + s)[r]` **provided** every row's
interpolating polynomial on this interval has full degree `order`.  Missing from the full claim: rows whose
polynomial has a lower degree, for which the code raises (next theorem). -/
theorem C15_poly_partial (pp : PiecewisePoly K) (tau : List K) (R : ℕ) (w : pp.WF tau R) (n : ℕ)
    (hn : n + 1 < pp.intervals.length)
    (hfull : ∀ r < R, ∀ P, IsPiece tau pp n r P → P.natDegree = tau.length - 1) :
    ∃ ps, pp.poly n = .ok ps ∧ ps.length = R ∧
      ∀ (r : ℕ) (hr : r < ps.length) (s : K),
        (∀ P, IsPiece tau pp n r P → (ps[r]).eval s = P.eval (nd pp.intervals n + s)) ∧
        (InRight pp.intervals n (nd pp.intervals n + s) →
          ∃ V, pp.call [nd pp.intervals n + s] = .ok V ∧ V.e r 0 = (ps[r]).eval s) := by
  obtain ⟨c, qs, hc, hqs, hlen, hq⟩ := compose_pieces w hn
  have hord : pp.basis.order = tau.length - 1 := by
    have hb := w.basis
    rw [polynomialBasis_ok w.ne] at hb
    injection hb with hb
    rw [← hb]; rfl
  set h := nd pp.intervals (n + 1) - nd pp.intervals n with hhdef
  have hh : 0 < h := w.h_pos hn
  obtain ⟨ps, hps, hpl, hall⟩ := mapM_ok' (fun p_i => do
      let b ← pyIndex pp.intervals (n + 1)
      let a ← pyIndex pp.intervals n
      PiecewisePoly.rescale (b - a) pp.basis.order p_i) qs
    (fun q p => ∀ s, p.eval s = q.eval (s / h)) (by
      intro q hqm
      obtain ⟨r, hr, rfl⟩ := List.mem_iff_getElem.mp hqm
      obtain ⟨P, hP⟩ := w.exists_piece hn r
      have hl := (hq r hr P hP).1
      rw [hfull r (by omega) P hP, ← hord] at hl
      refine ⟨⟨List.zipWith (fun c (k : ℕ) => c / h ^ k) qs[r].coef
        (List.range (pp.basis.order + 1)).reverse⟩, ?_, ?_⟩
      · simp only [bind, Except.bind]
        rw [show ((n : ℤ) + 1) = ((n + 1 : ℕ) : ℤ) by push_cast; rfl, pyIndex_nat hn,
          pyIndex_nat (by omega : n < pp.intervals.length)]
        simp only [PiecewisePoly.rescale, hl, ↓reduceIte, hhdef, nd_eq_getElem hn,
          nd_eq_getElem (show n < pp.intervals.length by omega)]
      · intro s
        rw [Poly1d.eval_eq, Poly1d.eval_eq, ← hl]
        exact eval_rescale_list h _ s)
  have hval : ∀ (r : ℕ) (hr : r < ps.length) (s : K), ∀ P, IsPiece tau pp n r P →
      (ps[r]).eval s = P.eval (nd pp.intervals n + s) := by
    intro r hr s P hP
    rw [(hall r (by omega) hr).2, (hq r (by omega) P hP).2]
    congr 1
    field_simp
  refine ⟨ps, ?_, by omega, ?_⟩
  · unfold PiecewisePoly.poly
    rw [hc]
    simp only [bind, Except.bind]
    rw [hqs]
    exact hps
  · intro r hr s
    refine ⟨hval r hr s, fun hin => ?_⟩
    obtain ⟨V, h1, _, _, h4⟩ := call_ok w "right" .right rfl [nd pp.intervals n + s] (by simp)
    obtain ⟨P, hP⟩ := w.exists_piece hn r
    refine ⟨V, h1, ?_⟩
    rw [h4 0 (by simp) n hin r P hP, hval r hr s P hP]
    rfl

/-- **C15, refutation of the full claim**: if on interval `n` some row's polynomial has degree below the order (for example
a constant component), `poly(n)` raises ValueError. -/
theorem C15_low_degree_raises (pp : PiecewisePoly K) (tau : List K) (R : ℕ) (w : pp.WF tau R) (n : ℕ)
    (hn : n + 1 < pp.intervals.length) (r : ℕ) (hr : r < R) (P : K[X]) (hP : IsPiece tau pp n r P)
    (hlow : P.natDegree < tau.length - 1) : pp.poly n = .error .value := by
  obtain ⟨c, qs, hc, hqs, hlen, hq⟩ := compose_pieces w hn
  have hord : pp.basis.order = tau.length - 1 := by
    have hb := w.basis
    rw [polynomialBasis_ok w.ne] at hb
    injection hb with hb
    rw [← hb]; rfl
  have hraise : ∀ l : List (Poly1d K), (∃ q ∈ l, q.coef.length ≠ pp.basis.order + 1) →
      (l.mapM fun p_i => do
        let b ← pyIndex pp.intervals (n + 1)
        let a ← pyIndex pp.intervals n
        PiecewisePoly.rescale (b - a) pp.basis.order p_i) = .error .value := by
    intro l
    induction l with
    | nil => simp
    | cons q l ih =>
      rintro ⟨q', hq', hne⟩
      rw [List.mapM_cons]
      simp only [bind, Except.bind]
      rw [show ((n : ℤ) + 1) = ((n + 1 : ℕ) : ℤ) by push_cast; rfl, pyIndex_nat hn,
        pyIndex_nat (by omega : n < pp.intervals.length)]
      simp only [PiecewisePoly.rescale]
      by_cases hql : q.coef.length = pp.basis.order + 1
      · simp only [hql, ↓reduceIte]
        rcases List.mem_cons.mp hq' with rfl | hm
        · exact absurd hql hne
        · have := ih ⟨q', hm, hne⟩
          simp only [bind, Except.bind] at this
          rw [show ((n : ℤ) + 1) = ((n + 1 : ℕ) : ℤ) by push_cast; rfl, pyIndex_nat hn,
            pyIndex_nat (by omega : n < pp.intervals.length)] at this
          simp only [PiecewisePoly.rescale] at this
          rw [this]
      · simp only [hql, ↓reduceIte]
  unfold PiecewisePoly.poly
  rw [hc]
  simp only [bind, Except.bind]
  rw [hqs]
  refine hraise qs ⟨qs[r]'(by omega), List.getElem_mem _, ?_⟩
  rw [(hq r (by omega) P hP).1, hord]
  omega

/-- **C15** (negative interval numbers): `poly(-k)` takes the coefficients of interval `N - k` (the `k`-th from the end) but the length of
the next interval (for `k = 1`: minus the length of the whole grid), since there is one bound more than there are intervals. So the result
is the polynomial of this interval with another time scale. -/
theorem C15_negative (pp : PiecewisePoly K) (tau : List K) (R : ℕ) (w : pp.WF tau R) (k : ℕ) (hk : 1 ≤ k)
    (hk' : k < pp.intervals.length) (H : K)
    (hH : H = if k = 1 then nd pp.intervals 0 - nd pp.intervals (pp.intervals.length - 1)
      else nd pp.intervals (pp.intervals.length - k + 1) - nd pp.intervals (pp.intervals.length - k))
    (hfull : ∀ r < R, ∀ P, IsPiece tau pp (pp.intervals.length - 1 - k) r P → P.natDegree = tau.length - 1) :
    H ≠ 0 ∧ ∃ ps, pp.poly (-k) = .ok ps ∧ ps.length = R ∧
      ∀ (r : ℕ) (hr : r < ps.length) (s : K) (P : K[X]), IsPiece tau pp (pp.intervals.length - 1 - k) r P →
        (ps[r]).eval s = P.eval (nd pp.intervals (pp.intervals.length - 1 - k) +
          s * ((nd pp.intervals (pp.intervals.length - k) - nd pp.intervals (pp.intervals.length - 1 - k)) / H)) := by
  obtain ⟨L, hL⟩ : ∃ L, pp.intervals.length = L := ⟨_, rfl⟩
  rw [hL] at hk' hH hfull ⊢
  have hn : L - 1 - k + 1 < pp.intervals.length := by omega
  have hcl : pp.coefficients.length = L - 1 := by have := w.len; omega
  obtain ⟨c, qs, hc, hqs, hlen, hq⟩ := compose_pieces w hn
  have hc' : pyIndex pp.coefficients (-k) = .ok c := by
    rw [← hc]
    unfold pyIndex
    rw [hcl]
    have e1 : (if -(k : ℤ) < 0 then -(k : ℤ) + ((L - 1 : ℕ) : ℤ) else -k) = ((L - 1 - k : ℕ) : ℤ) := by
      rw [if_pos (by omega)]; omega
    have e2 : (if ((L - 1 - k : ℕ) : ℤ) < 0 then ((L - 1 - k : ℕ) : ℤ) + ((L - 1 : ℕ) : ℤ) else (L - 1 - k : ℕ)) = ((L - 1 - k : ℕ) : ℤ) := by
      rw [if_neg (by omega)]
    rw [e1, e2]
  have ha : pyIndex pp.intervals (-k) = .ok (nd pp.intervals (L - k)) := by
    have e := pyIndex_nat (l := pp.intervals) (n := L - k) (by omega)
    rw [nd_eq_getElem (by omega), ← e]
    unfold pyIndex
    rw [hL]
    have e1 : (if -(k : ℤ) < 0 then -(k : ℤ) + (L : ℤ) else -k) = ((L - k : ℕ) : ℤ) := by
      rw [if_pos (by omega)]; omega
    have e2 : (if ((L - k : ℕ) : ℤ) < 0 then ((L - k : ℕ) : ℤ) + (L : ℤ) else (L - k : ℕ)) = ((L - k : ℕ) : ℤ) := by
      rw [if_neg (by omega)]
    rw [e1, e2]
  have hab : ∃ b, pyIndex pp.intervals (-k + 1) = .ok b ∧ b - nd pp.intervals (L - k) = H := by
    by_cases h1 : k = 1
    · subst h1
      refine ⟨nd pp.intervals 0, ?_, by rw [hH, if_pos rfl]⟩
      have e := pyIndex_nat (l := pp.intervals) (n := 0) (by omega)
      rw [nd_eq_getElem (by omega)]
      exact e
    · refine ⟨nd pp.intervals (L - k + 1), ?_, by rw [hH, if_neg h1]⟩
      have e := pyIndex_nat (l := pp.intervals) (n := L - k + 1) (by omega)
      rw [nd_eq_getElem (by omega), ← e]
      unfold pyIndex
      rw [hL]
      have e1 : (if -(k : ℤ) + 1 < 0 then -(k : ℤ) + 1 + (L : ℤ) else -k + 1) = ((L - k + 1 : ℕ) : ℤ) := by
        rw [if_pos (by omega)]; omega
      have e2 : (if ((L - k + 1 : ℕ) : ℤ) < 0 then ((L - k + 1 : ℕ) : ℤ) + (L : ℤ) else (L - k + 1 : ℕ)) = ((L - k + 1 : ℕ) : ℤ) := by
        rw [if_neg (by omega)]
      rw [e1, e2]
  obtain ⟨b, hb, hbH⟩ := hab
  have hH0 : H ≠ 0 := by
    rw [hH]
    split
    · have := w.asc.lt (i := 0) (j := L - 1) (by omega) (by omega)
      exact (sub_neg.2 this).ne
    · exact (w.h_pos (n := L - k) (by omega)).ne'
  have hord : pp.basis.order = tau.length - 1 := by
    have hb := w.basis
    rw [polynomialBasis_ok w.ne] at hb
    injection hb with hb
    rw [← hb]; rfl
  obtain ⟨ps, hps, hpl, hall⟩ := mapM_ok' (fun p_i => do
      let b ← pyIndex pp.intervals (-(k : ℤ) + 1)
      let a ← pyIndex pp.intervals (-(k : ℤ))
      PiecewisePoly.rescale (b - a) pp.basis.order p_i) qs
    (fun q p => ∀ s, p.eval s = q.eval (s / H)) (by
      intro q hqm
      obtain ⟨r, hr, rfl⟩ := List.mem_iff_getElem.mp hqm
      obtain ⟨P, hP⟩ := w.exists_piece hn r
      have hl := (hq r hr P hP).1
      rw [hfull r (by omega) P hP, ← hord] at hl
      refine ⟨⟨List.zipWith (fun c (k : ℕ) => c / H ^ k) qs[r].coef
        (List.range (pp.basis.order + 1)).reverse⟩, ?_, ?_⟩
      · simp only [bind, Except.bind]
        rw [hb, ha]
        simp only [PiecewisePoly.rescale, hl, ↓reduceIte, hbH]
      · intro s
        rw [Poly1d.eval_eq, Poly1d.eval_eq, ← hl]
        exact eval_rescale_list H _ s)
  refine ⟨hH0, ps, ?_, by omega, ?_⟩
  · unfold PiecewisePoly.poly
    rw [hc']
    simp only [bind, Except.bind]
    rw [hqs]
    exact hps
  · intro r hr s P hP
    rw [(hall r (by omega) hr).2, (hq r (by omega) P hP).2]
    rw [show L - 1 - k + 1 = L - k by omega]
    congr 1
    ring

/-- **C15** (interval numbers out of range) raise IndexError. -/
theorem C15_out_of_range (pp : PiecewisePoly K) (tau : List K) (R : ℕ) (w : pp.WF tau R) (n : ℤ)
    (hn : n < -((pp.intervals.length : ℤ) - 1) ∨ (pp.intervals.length : ℤ) - 1 ≤ n) : pp.poly n = .error .index := by
  have hcl : (pp.coefficients.length : ℤ) = pp.intervals.length - 1 := by have := w.len; omega
  have h2 := w.two
  unfold PiecewisePoly.poly
  have : pyIndex pp.coefficients n = .error .index := by
    unfold pyIndex
    rcases hn with hn | hn
    · have h0 : n < 0 := by omega
      have h1 : n + pp.coefficients.length < 0 := by omega
      simp only [h0, h1, if_true]
    · have h0 : ¬ n < 0 := by omega
      simp only [h0, if_false]
      rw [List.getElem?_eq_none (by omega)]
  rw [this]
  rfl

/-! ### discretize -/

section
variable [FloorRing K]

/-- `np.arange(0, 1, s)` for `s > 0`. -/
theorem arange01_ok {s : K} (hs : 0 < s) :
    ∃ M : ℕ, 0 < M ∧ arange01 s = .ok ((List.range M).map fun (i : ℕ) => (i : K) * s) ∧
      ((M - 1 : ℕ) : K) * s < 1 ∧ 1 ≤ (M : K) * s := by
  have h1 : (0 : K) < 1 / s := by positivity
  have hc : 0 < ⌈1 / s⌉ := Int.ceil_pos.mpr h1
  have hM : ((⌈1 / s⌉.toNat : ℕ) : ℤ) = ⌈1 / s⌉ := Int.toNat_of_nonneg hc.le
  have hMK : ((⌈1 / s⌉.toNat : ℕ) : K) = (⌈1 / s⌉ : K) := by exact_mod_cast congrArg (Int.cast : ℤ → K) hM
  refine ⟨⌈1 / s⌉.toNat, by omega, by simp [arange01, hs.ne'], ?_, ?_⟩
  · rw [Nat.cast_sub (by omega), hMK, Nat.cast_one]
    have := Int.ceil_lt_add_one (1 / s)
    have h2 : ((⌈1 / s⌉ : K) - 1) < 1 / s := by linarith
    calc ((⌈1 / s⌉ : K) - 1) * s < 1 / s * s := mul_lt_mul_of_pos_right h2 hs
      _ = 1 := by field_simp
  · rw [hMK]
    have := Int.le_ceil (1 / s)
    calc (1 : K) = 1 / s * s := by field_simp
      _ ≤ _ := mul_le_mul_of_nonneg_right this hs.le

/-- Samples of one interval. -/
theorem discretizeAt_ok {pp : PiecewisePoly K} {tau : List K} {R : ℕ} (w : pp.WF tau R) {step : K}
    (hs : 0 < step) {n : ℕ} (hn : n + 1 < pp.intervals.length) :
    ∃ xs y, pp.discretizeAt step n = .ok (xs, y) ∧ 2 ≤ xs.length ∧ y.rows = R ∧ y.cols = xs.length ∧
      nd xs 0 = nd pp.intervals n ∧ nd xs (xs.length - 1) = nd pp.intervals (n + 1) ∧
      (∀ k, k + 1 < xs.length → nd xs k < nd xs (k + 1) ∧ nd xs (k + 1) - nd xs k ≤ step) ∧
      ∀ r P, IsPiece tau pp n r P → ∀ k < xs.length, y.e r k = P.eval (nd xs k) := by
  set a := nd pp.intervals n with ha
  set h := nd pp.intervals (n + 1) - nd pp.intervals n with hhd
  have hh : 0 < h := w.h_pos hn
  have hn' : n < pp.coefficients.length := by have := w.len; omega
  have hsh : 0 < step / h := by positivity
  obtain ⟨M, hM, har, hlt, hge⟩ := arange01_ok hsh
  set s := step / h with hsd
  set T : List K := (List.range M).map fun (i : ℕ) => (i : K) * s with hT
  have hTlen : T.length = M := by simp [hT]
  have hTne : T ≠ [] := by intro h0; rw [h0] at hTlen; simp at hTlen; omega
  have hlast : T.getLast hTne = ((M - 1 : ℕ) : K) * s := by
    rw [List.getLast_eq_getElem]; simp [hT]
  have hndT : ∀ k < M, nd (T ++ [1]) k = (k : K) * s := by
    intro k hk
    simp [nd, List.getD_eq_getElem?_getD, hT, List.getElem?_append, hk]
  have hndM : nd (T ++ [1]) M = 1 := by
    simp [nd, List.getD_eq_getElem?_getD, List.getElem?_append, hTlen]
  obtain ⟨c, L, V, hc, hL, hV, hr, hcol, hval⟩ := w.dot_ok hn (T ++ [1]) (by simp)
  have hcn : pp.coefficients[n] = c := by simpa [hn'] using hc
  have hndx : ∀ k < M + 1, nd ((T ++ [1]).map (fun s => a + s * h)) k = a + nd (T ++ [1]) k * h := by
    intro k hk
    have : k < (T ++ [1]).length := by simp [hTlen, hk]
    simp only [nd, List.getD_eq_getElem?_getD, List.getElem?_map, List.getElem?_eq_getElem this,
      Option.map_some, Option.getD_some]
  have hxl : ((T ++ [1]).map (fun s => a + s * h)).length = M + 1 := by simp [hTlen]
  have hshs : s * h = step := by rw [hsd]; field_simp
  refine ⟨(T ++ [1]).map (fun s => a + s * h), V, ?_, by omega, hr, ?_, ?_, ?_, ?_, ?_⟩
  · unfold PiecewisePoly.discretizeAt
    rw [show ((n : ℤ) + 1) = ((n + 1 : ℕ) : ℤ) by push_cast; rfl,
      pyIndex_nat (by omega : n < pp.intervals.length), pyIndex_nat hn, pyIndex_nat hn']
    simp only [bind, Except.bind]
    rw [← nd_eq_getElem hn, ← nd_eq_getElem (show n < pp.intervals.length by omega), ← hhd, ← hsd, har]
    simp only
    rw [pyIndex_last T hTne, hlast]
    simp only [ne_eq, hlt.ne, not_false_eq_true, ↓reduceIte, hlt, hcn, hL, hV]
    rfl
  · rw [hcol, List.length_map]
  · rw [hndx 0 (by omega), hndT 0 hM]; simp
  · rw [hxl, Nat.add_sub_cancel, hndx M (by omega), hndM, hhd, ha]; ring
  · intro k hk
    rw [hxl] at hk
    rw [hndx k (by omega), hndx (k + 1) (by omega), hndT k (by omega)]
    rcases Nat.lt_or_ge (k + 1) M with h1 | h1
    · rw [hndT (k + 1) h1]
      push_cast
      constructor
      · have : 0 < s * h := by positivity
        linarith
      · have : a + (k + 1 : K) * s * h - (a + k * s * h) = s * h := by ring
        rw [this, hshs]
    · have hkM : k + 1 = M := by omega
      rw [hkM, hndM]
      rw [show M - 1 = k by omega] at hlt
      have hge' : (1 : K) ≤ (k + 1 : K) * s := by
        have : ((k + 1 : ℕ) : K) = (M : K) := by rw [hkM]
        push_cast at this
        rw [this]; exact hge
      constructor
      · have := mul_lt_mul_of_pos_right hlt hh
        linarith
      · rw [← hshs]
        have := mul_le_mul_of_nonneg_right hge' hh.le
        linarith
  · intro r P hP k hk
    rw [hxl] at hk
    rw [hval r P hP k (by simp [hTlen, hk]), hndx k (by omega), mul_comm _ h]

/-- **C16** `discretize(step)`.  The result consists of one block of samples per interval (positions
`o n .. o (n+1) - 1`), each starting and ending at the interval's bounds, strictly ascending inside, with steps at most
`step`; globally `x` is ascending (weakly: inner bounds appear twice), consecutive points are at most `step` apart; `y`
holds the value of the interval's polynomial at each sample. -/
theorem C16_discretize (pp : PiecewisePoly K) (tau : List K) (R : ℕ) (w : pp.WF tau R) (step : K)
    (hs : 0 < step) :
    ∃ x y, ∃ o : ℕ → ℕ, pp.discretize step = .ok (x, y) ∧ y.rows = R ∧ y.cols = x.length ∧
      o 0 = 0 ∧ o (pp.intervals.length - 1) = x.length ∧
      (∀ n, n + 1 < pp.intervals.length →
        o n + 2 ≤ o (n + 1) ∧ nd x (o n) = nd pp.intervals n ∧
        nd x (o (n + 1) - 1) = nd pp.intervals (n + 1) ∧
        (∀ k, o n ≤ k → k + 1 < o (n + 1) → nd x k < nd x (k + 1)) ∧
        ∀ k, o n ≤ k → k < o (n + 1) → ∀ r P, IsPiece tau pp n r P → y.e r k = P.eval (nd x k)) ∧
      nd x 0 = nd pp.intervals 0 ∧
      nd x (x.length - 1) = nd pp.intervals (pp.intervals.length - 1) ∧
      ∀ k, k + 1 < x.length → nd x k ≤ nd x (k + 1) ∧ nd x (k + 1) - nd x k ≤ step := by
  have hN : pp.numIntervals = pp.intervals.length - 1 := rfl
  have h2 := w.two
  obtain ⟨l, hl, hlen, hall⟩ := mapM_ok' (pp.discretizeAt step) (List.range pp.numIntervals)
    (fun n b => 2 ≤ b.1.length ∧ b.2.rows = R ∧ b.2.cols = b.1.length ∧
      nd b.1 0 = nd pp.intervals n ∧ nd b.1 (b.1.length - 1) = nd pp.intervals (n + 1) ∧
      (∀ k, k + 1 < b.1.length → nd b.1 k < nd b.1 (k + 1) ∧ nd b.1 (k + 1) - nd b.1 k ≤ step) ∧
      ∀ r P, IsPiece tau pp n r P → ∀ k < b.1.length, b.2.e r k = P.eval (nd b.1 k)) (by
      intro n hn
      rw [List.mem_range, hN] at hn
      obtain ⟨xs, y, h1, h2⟩ := discretizeAt_ok w hs (n := n) (by omega)
      exact ⟨(xs, y), h1, h2⟩)
  rw [List.length_range, hN] at hlen
  have hB : ∀ (n : ℕ) (hn : n < l.length), 2 ≤ l[n].1.length ∧ l[n].2.rows = R ∧
      l[n].2.cols = l[n].1.length ∧
      nd l[n].1 0 = nd pp.intervals n ∧ nd l[n].1 (l[n].1.length - 1) = nd pp.intervals (n + 1) ∧
      (∀ k, k + 1 < l[n].1.length → nd l[n].1 k < nd l[n].1 (k + 1) ∧
        nd l[n].1 (k + 1) - nd l[n].1 k ≤ step) ∧
      ∀ r P, IsPiece tau pp n r P → ∀ k < l[n].1.length, l[n].2.e r k = P.eval (nd l[n].1 k) := by
    intro n hn
    have := (hall n (by rw [List.length_range, hN]; omega) hn).2
    simpa only [List.getElem_range] using this
  have hlne : l ≠ [] := by intro h0; rw [h0] at hlen; simp at hlen; omega
  set xs := l.map Prod.fst with hxs
  set ys := l.map Prod.snd with hys
  have hxsl : xs.length = l.length := by simp [hxs]
  have hysl : ys.length = l.length := by simp [hys]
  have hoff : ∀ n ≤ l.length, off Mat.cols ys n = off List.length xs n := by
    intro n hn
    induction n with
    | zero => simp [off_zero]
    | succ n ih =>
      rw [off_succ _ _ (by omega), off_succ _ _ (by omega), ih (by omega)]
      simp only [hxs, hys, List.getElem_map, (hB n (by omega)).2.2.1]
  set o := off List.length xs with ho
  have hosucc : ∀ (n : ℕ) (hn : n < l.length), o (n + 1) = o n + l[n].1.length := by
    intro n hn
    rw [ho, off_succ _ _ (by omega)]
    simp [hxs]
  have hx : ∀ (n : ℕ) (hn : n < l.length) (j : ℕ), j < l[n].1.length →
      nd xs.flatten (o n + j) = nd l[n].1 j := by
    intro n hn j hj
    have := nd_flatten xs (n := n) (by omega) (j := j) (by simpa [hxs] using hj)
    rw [ho, this]; simp [hxs]
  have hxlen : xs.flatten.length = o l.length := by rw [flatten_length, hxsl]
  have hblock : ∀ k, k < xs.flatten.length → ∃ (n : ℕ) (hn : n < l.length),
      o n ≤ k ∧ k < o n + l[n].1.length := by
    intro k hk
    rw [flatten_length] at hk
    obtain ⟨n, hn, h1, h2⟩ := exists_block List.length xs hk
    exact ⟨n, by omega, h1, by simpa [hxs] using h2⟩
  have hfirst : ∀ (n : ℕ) (hn : n < l.length), nd xs.flatten (o n) = nd pp.intervals n := by
    intro n hn
    have := hx n hn 0 (by have := (hB n hn).1; omega)
    rw [add_zero] at this
    rw [this, (hB n hn).2.2.2.1]
  have hlastb : ∀ (n : ℕ) (hn : n < l.length), nd xs.flatten (o (n + 1) - 1) = nd pp.intervals (n + 1) := by
    intro n hn
    have h2 := (hB n hn).1
    have := hx n hn (l[n].1.length - 1) (by omega)
    rw [hosucc n hn, Nat.add_sub_assoc (by omega), this, (hB n hn).2.2.2.2.1]
  refine ⟨xs.flatten, Mat.hcat R ys, o, ?_, hcat_rows _ _, ?_, by simp [ho, off_zero], ?_, ?_, ?_, ?_, ?_⟩
  · unfold PiecewisePoly.discretize
    rw [hl]
    simp only [bind, Except.bind]
    rw [hstack_ok (R := R) (by simpa using hlne) (by
      intro A hA
      obtain ⟨b, hb, rfl⟩ := List.mem_map.mp hA
      obtain ⟨i, hi, rfl⟩ := List.mem_iff_getElem.mp hb
      exact (hB i hi).2.1)]
    rfl
  · rw [hcat_cols, hysl, hoff _ le_rfl, hxlen]
  · rw [hxlen, hlen]
  · intro n hn
    have hn' : n < l.length := by omega
    have hb := hB n hn'
    refine ⟨by rw [hosucc n hn']; omega, hfirst n hn', hlastb n hn', ?_, ?_⟩
    · intro k hk1 hk2
      rw [hosucc n hn'] at hk2
      have e1 := hx n hn' (k - o n) (by omega)
      have e2 := hx n hn' (k + 1 - o n) (by omega)
      rw [show o n + (k - o n) = k by omega] at e1
      rw [show o n + (k + 1 - o n) = k + 1 by omega] at e2
      rw [e1, e2, show k + 1 - o n = k - o n + 1 by omega]
      exact (hb.2.2.2.2.2.1 (k - o n) (by omega)).1
    · intro k hk1 hk2 r P hP
      rw [hosucc n hn'] at hk2
      have e1 := hx n hn' (k - o n) (by omega)
      rw [show o n + (k - o n) = k by omega] at e1
      have e2 := hcat_e R ys (n := n) (by omega) (j := k - o n)
        (by simp only [hys, List.getElem_map]; rw [hb.2.2.1]; omega) r
      rw [hoff n (by omega), show o n + (k - o n) = k by omega] at e2
      rw [e1, e2]
      simp only [hys, List.getElem_map]
      exact hb.2.2.2.2.2.2 r P hP _ (by omega)
  · have := hfirst 0 (by omega)
    rwa [ho, off_zero] at this
  · have := hlastb (l.length - 1) (by omega)
    rw [show l.length - 1 + 1 = l.length by omega] at this
    rw [hxlen, this, hlen]
  · intro k hk
    obtain ⟨n, hn, h1, h3⟩ := hblock k (by omega)
    have hb := hB n hn
    have e1 := hx n hn (k - o n) (by omega)
    rw [show o n + (k - o n) = k by omega] at e1
    by_cases hin : k + 1 < o n + l[n].1.length
    · have e2 := hx n hn (k + 1 - o n) (by omega)
      rw [show o n + (k + 1 - o n) = k + 1 by omega] at e2
      rw [e1, e2, show k + 1 - o n = k - o n + 1 by omega]
      have := hb.2.2.2.2.2.1 (k - o n) (by omega)
      exact ⟨this.1.le, this.2⟩
    · have hk1 : k + 1 = o (n + 1) := by rw [hosucc n hn]; omega
      have hnn : n + 1 < l.length := by
        by_contra hc
        have : n + 1 = l.length := by omega
        rw [this, ← hxlen] at hk1
        omega
      have e2 := hfirst (n + 1) hnn
      have e3 := hlastb n hn
      rw [show o (n + 1) - 1 = k by omega] at e3
      rw [hk1, e2, e3]
      exact ⟨le_rfl, by rw [sub_self]; exact hs.le⟩

/-- A non-positive step raises: a negative one gives an empty sample list (IndexError), zero is rejected by numpy. -/
theorem C16_nonpositive_step (pp : PiecewisePoly K) (tau : List K) (R : ℕ) (w : pp.WF tau R) (step : K)
    (hs : step ≤ 0) : ∃ e, pp.discretize step = .error e := by
  have h2 := w.two
  have h0 : ∃ e, pp.discretizeAt step 0 = .error e := by
    unfold PiecewisePoly.discretizeAt
    have hh : 0 < nd pp.intervals (0 + 1) - nd pp.intervals 0 := w.h_pos (by omega)
    rw [nd_eq_getElem (by omega), nd_eq_getElem (by omega)] at hh
    have i0 := pyIndex_nat (l := pp.intervals) (n := 0) (by omega)
    have i1 := pyIndex_nat (l := pp.intervals) (n := 0 + 1) (by omega)
    have i1' : pyIndex pp.intervals (((0:ℕ):ℤ) + 1) = .ok pp.intervals[0 + 1] := i1
    simp only [bind, Except.bind, i0, i1']
    rcases hs.lt_or_eq with hs | hs
    · have hneg : step / (pp.intervals[0 + 1] - pp.intervals[0]) < 0 := div_neg_of_neg_of_pos hs hh
      have hempty : arange01 (step / (pp.intervals[0 + 1] - pp.intervals[0])) = .ok [] := by
        unfold arange01
        rw [if_neg hneg.ne]
        have : ⌈(1 : K) / (step / (pp.intervals[0 + 1] - pp.intervals[0]))⌉.toNat = 0 := by
          rw [Int.toNat_eq_zero, Int.ceil_le]
          simpa using (one_div_neg.mpr hneg).le
        rw [this]; rfl
      rw [hempty]
      exact ⟨_, rfl⟩
    · subst hs
      simp only [zero_div, arange01, ↓reduceIte]
      exact ⟨_, rfl⟩
  obtain ⟨e, he⟩ := h0
  refine ⟨e, ?_⟩
  unfold PiecewisePoly.discretize PiecewisePoly.numIntervals
  rw [show pp.intervals.length - 1 = (pp.intervals.length - 2) + 1 by omega, List.range_succ_eq_map,
    List.mapM_cons, he]
  rfl

end

/-! ## Non-vacuity: a concrete well-formed object over ℚ with two intervals -/

/-- Nodes 0, 1; bounds 0, 1, 3; two rows (the second row is constant on the first interval). -/
def exPP : PiecewisePoly ℚ :=
  { intervals := [0, 1, 3]
    coefficients := [Mat.ofRows 2 [[1, 2], [5, 5]], Mat.ofRows 2 [[2, 7], [5, 9]]]
    basis := (match polynomialBasis ([0, 1] : List ℚ) with | .ok b => b | .error _ => ⟨[], [], ⟨0, 0, fun _ _ => 0⟩, []⟩) }

theorem exPP_wf : exPP.WF [0, 1] 2 where
  ne := by simp
  nodup := by decide +kernel
  basis := by rw [polynomialBasis_ok (by simp)]; simp [exPP, polynomialBasis_ok]
  asc := by
    intro i hi
    have : i = 0 ∨ i = 1 := by simp [exPP] at hi; omega
    rcases this with rfl | rfl <;> simp [exPP, nd]
  two := by simp [exPP]
  len := by simp [exPP]
  rows := by intro c hc; simp [exPP] at hc; rcases hc with rfl | rfl <;> rfl
  cols := by intro c hc; simp [exPP] at hc; rcases hc with rfl | rfl <;> rfl

/-- Test: at the interior bound 1 both modes give the common value of the first row. -/
example : (match exPP.call [1, 2] "right" with | .ok V => [V.e 0 0, V.e 0 1] | .error _ => [])
    = [2, 9/2] := by decide +kernel

/-- A piece of low degree (row 1 on interval 0 is the constant 5): hypotheses of `C15_low_degree_raises`. -/
example : IsPiece [0, 1] exPP 0 1 (C 5) ∧ (C (5:ℚ)).natDegree < ([0, 1] : List ℚ).length - 1 := by
  refine ⟨⟨_, rfl, ?_, ?_⟩, by simp⟩
  · exact lt_of_le_of_lt degree_C_le (by decide)
  · intro j hj
    have : j = 0 ∨ j = 1 := by simp at hj; omega
    rcases this with rfl | rfl <;> simp [Mat.ofRows]

/-- Concrete witness for the refutation of C15: the model run on `exPP` raises ValueError. -/
theorem C15_refuted_witness : exPP.poly 0 = .error .value := by
  refine C15_low_degree_raises exPP [0, 1] 2 exPP_wf 0 (by simp [exPP]) 1 (by norm_num) (C 5) ?_ (by simp)
  refine ⟨_, rfl, lt_of_le_of_lt degree_C_le (by decide), ?_⟩
  intro j hj
  have : j = 0 ∨ j = 1 := by simp at hj; omega
  rcases this with rfl | rfl <;> simp [Mat.ofRows]

/-- `exPP.poly(-1)` runs backwards and too slowly: at 2, the end of the last interval, it is not 7 and 9 (the values of `exPP.poly(1)`
and of the function) but what the function has 4/3 before the start of the interval. -/
example : (match exPP.poly (-1) with | .ok ps => ps.map fun p => p.eval 2 | .error _ => []) = [-4/3, 7/3] ∧
    (match exPP.poly 1 with | .ok ps => ps.map fun p => p.eval 2 | .error _ => []) = [7, 9] ∧
    exPP.intervals = [0, 1, 3] := by decide +kernel

/-- Test: samples with step 3/4. -/
example : (match exPP.discretize (3/4) with | .ok (x, _) => x | .error _ => [])
    = [0, 3/4, 1, 1, 7/4, 5/2, 3] := by decide +kernel

/-- The pieces of row 0 of `exPP`. -/
theorem exPP_pieces : IsPiece [0, 1] exPP 0 0 (C 1 + X) ∧ IsPiece [0, 1] exPP 1 0 (C (5/2) * X - C (1/2)) := by
  refine ⟨⟨_, rfl, ?_, ?_⟩, ⟨_, rfl, ?_, ?_⟩⟩
  · refine lt_of_le_of_lt (degree_add_le _ _) (max_lt (lt_of_le_of_lt degree_C_le (by decide)) ?_)
    rw [degree_X]; decide
  · intro j hj
    have : j = 0 ∨ j = 1 := by simp at hj; omega
    rcases this with rfl | rfl <;> simp [Mat.ofRows, exPP, nd] <;> norm_num
  · refine lt_of_le_of_lt (degree_sub_le _ _) (max_lt (lt_of_le_of_lt (degree_C_mul_X_le _) (by decide)) (lt_of_le_of_lt degree_C_le (by decide)))
  · intro j hj
    have : j = 0 ∨ j = 1 := by simp at hj; omega
    rcases this with rfl | rfl <;> simp [Mat.ofRows, exPP, nd] <;> norm_num

/-- C12: `exPP` at 1/2, 1 and 5 (beyond the last bound), with the intervals closed on the left. -/
example : ∃ V, exPP.call [1/2, 1, 5] = .ok V ∧ V.rows = 2 ∧ V.cols = 3 ∧ V.e 0 0 = 3/2 ∧ V.e 0 1 = 2 ∧ V.e 0 2 = 12 := by
  obtain ⟨⟨V, h1, -, h3, h4, h5⟩, -⟩ := C12_interval_selection exPP [0, 1] 2 exPP_wf [1/2, 1, 5] (by simp)
  refine ⟨V, h1, h3, h4, ?_, ?_, ?_⟩
  · rw [h5 0 (by decide) 0 ⟨by decide, .inl rfl, .inr (by simp [exPP, nd]; norm_num)⟩ 0 _ exPP_pieces.1]
    simp [nd]; norm_num
  · rw [h5 1 (by decide) 1 ⟨by decide, .inr (by simp [exPP, nd]), .inl rfl⟩ 0 _ exPP_pieces.2]
    simp [nd]; norm_num
  · rw [h5 2 (by decide) 1 ⟨by decide, .inr (by simp [exPP, nd]), .inl rfl⟩ 0 _ exPP_pieces.2]
    simp [nd]; norm_num

/-- C12: at the inner bound 1 the two modes use the second and the first interval. -/
example : ∃ VR VL, exPP.call [1] "right" = .ok VR ∧ exPP.call [1] "left" = .ok VL ∧ VR.e 0 0 = 2 ∧ VL.e 0 0 = 2 := by
  obtain ⟨VR, VL, h1, h2, h3⟩ := C12_interior_bound exPP [0, 1] 2 exPP_wf 1 (by decide) (by decide)
  obtain ⟨h4, h5⟩ := h3 0 _ _ exPP_pieces.2 exPP_pieces.1
  refine ⟨VR, VL, h1, h2, ?_, ?_⟩
  · rw [h4]; simp [exPP, nd]; norm_num
  · rw [h5]; simp [exPP, nd]; norm_num

/-- C12: a mode that does not exist, no points at all, and constructor arguments of wrong lengths. -/
example : exPP.call [1, 2] "both" = .error .value ∧ (∃ e, exPP.call [] "left" = .error e) ∧
    (∃ e, PiecewisePoly.new [0, 1, 3] [Mat.ofRows 2 [[1, 2]]] exPP.basis = .error e) ∧
    PiecewisePoly.new exPP.intervals exPP.coefficients exPP.basis = .ok exPP :=
  ⟨C12_invalid_mode _ _ _ (by decide) (by decide), (C12_total exPP _ _ exPP_wf [] "left").2 (.inl rfl),
    (C12_ctor _ _ _).2.2 (by decide), ((C12_ctor _ _ _).1 _).2 ⟨by decide, rfl, rfl, rfl⟩⟩

/-- C13: the second interval of `exPP` begins with its first column. -/
example : ∃ V, exPP.call [1] = .ok V ∧ V.e 0 0 = 2 ∧ V.e 1 0 = 5 := by
  obtain ⟨V, h1, -, -, h4⟩ := (C13_reproduces_data exPP [0, 1] 2 exPP_wf 1 (by decide) _ rfl).1 0 (by decide) 1 (by simp [exPP, nd])
    ⟨by decide, .inr (by simp [exPP, nd]), .inl rfl⟩
  exact ⟨V, h1, h4 0, h4 1⟩

/-- C14: the derivative of row 0 of `exPP` is 1 at 1/2 and 5/2 at 2. -/
example : ∃ dpp V, exPP.derivative = .ok dpp ∧ dpp.call [1/2, 2] "right" = .ok V ∧ V.e 0 0 = 1 ∧ V.e 0 1 = 5/2 := by
  obtain ⟨dpp, h1, -, -, -, h5⟩ := C14_derivative exPP [0, 1] 2 exPP_wf
  obtain ⟨⟨V, v1, -, -, v4⟩, -⟩ := h5 [1/2, 2] (by simp)
  refine ⟨dpp, V, h1, v1, ?_, ?_⟩
  · rw [v4 0 (by decide) 0 ⟨by decide, .inl rfl, .inr (by simp [exPP, nd]; norm_num)⟩ 0 _ exPP_pieces.1]
    simp
  · rw [v4 1 (by decide) 1 ⟨by decide, .inr (by simp [exPP, nd]), .inl rfl⟩ 0 _ exPP_pieces.2]
    simp

/-- Interval 1 of `exPP` has full degree in both rows. -/
theorem exPP_full : ∀ r < 2, ∀ P, IsPiece [0, 1] exPP 1 r P → P.natDegree = ([0, 1] : List ℚ).length - 1 := by
  intro r hr P hP
  obtain ⟨c, hc, hd, hv⟩ := hP
  simp only [exPP, List.getElem?_cons_succ, List.getElem?_cons_zero, Option.some.injEq] at hc
  subst hc
  have h0 := hv 0 (by simp)
  have h1 := hv 1 (by simp)
  have hle : P.natDegree ≤ 1 := by
    by_cases hP0 : P = 0
    · simp [hP0]
    · rw [degree_eq_natDegree hP0] at hd
      have : P.natDegree < 2 := by exact_mod_cast hd
      omega
  by_contra hne
  have hz : P.natDegree = 0 := by simp at hne; omega
  rw [eq_C_of_natDegree_eq_zero hz] at h0 h1
  have : r = 0 ∨ r = 1 := by omega
  rcases this with rfl | rfl <;> simp [Mat.ofRows] at h0 h1 <;> linarith

/-- C15: `exPP.poly(1)`, the local polynomials of the second interval; row 0 is `2 + 5/2 s`. -/
example : ∃ ps p, exPP.poly 1 = .ok ps ∧ ps[0]? = some p ∧ ∀ s, p.eval s = 2 + 5/2 * s := by
  obtain ⟨ps, h1, h2, h3⟩ := C15_poly_partial exPP [0, 1] 2 exPP_wf 1 (by decide) exPP_full
  refine ⟨ps, ps[0], h1, List.getElem?_eq_getElem _, fun s => ?_⟩
  rw [(h3 0 (by omega) s).1 _ exPP_pieces.2]
  simp [exPP, nd]
  ring

/-- C15: `exPP.poly(-1)` takes the second interval with the length of the grid, backwards. -/
example : ∃ ps p, exPP.poly (-1) = .ok ps ∧ ps[0]? = some p ∧ ∀ s : ℚ, p.eval s = 2 + 5/2 * (s * (2 / (-3))) := by
  obtain ⟨-, ps, h1, h2, h3⟩ := C15_negative exPP [0, 1] 2 exPP_wf 1 le_rfl (by decide) _ rfl exPP_full
  refine ⟨ps, ps[0], h1, List.getElem?_eq_getElem _, fun s => ?_⟩
  rw [h3 0 (by omega) s _ exPP_pieces.2]
  simp [exPP, nd]
  ring

/-- C15: there are no intervals 2 and -3. -/
example : exPP.poly 2 = .error .index ∧ exPP.poly (-3) = .error .index :=
  ⟨C15_out_of_range exPP [0, 1] 2 exPP_wf 2 (by decide), C15_out_of_range exPP [0, 1] 2 exPP_wf (-3) (by decide)⟩

/-- C16: samples with a step of at most 3/4, from 0 to 3. -/
example : ∃ x y, exPP.discretize (3/4) = .ok (x, y) ∧ y.cols = x.length ∧ nd x 0 = 0 ∧ nd x (x.length - 1) = 3 ∧
    ∀ k, k + 1 < x.length → nd x k ≤ nd x (k + 1) ∧ nd x (k + 1) - nd x k ≤ 3/4 := by
  obtain ⟨x, y, o, h1, -, h3, -, -, -, h7, h8, h9⟩ := C16_discretize exPP [0, 1] 2 exPP_wf (3/4) (by norm_num)
  exact ⟨x, y, h1, h3, h7, h8, h9⟩

/-- C16: no samples with the steps 0 and -1. -/
example : (∃ e, exPP.discretize 0 = .error e) ∧ ∃ e, exPP.discretize (-1) = .error e :=
  ⟨C16_nonpositive_step exPP [0, 1] 2 exPP_wf 0 le_rfl, C16_nonpositive_step exPP [0, 1] 2 exPP_wf (-1) (by norm_num)⟩

/-- C15: `exPP.poly(0)` raises, because the second row of the first interval is constant. -/
example : exPP.poly 0 = .error .value := by
  refine C15_low_degree_raises exPP [0, 1] 2 exPP_wf 0 (by decide) 1 (by decide) (C 5) ⟨_, rfl, ?_, ?_⟩ (by simp)
  · exact lt_of_le_of_lt degree_C_le (by decide)
  · intro j hj
    have : j = 0 ∨ j = 1 := by simp at hj; omega
    rcases this with rfl | rfl <;> simp [Mat.ofRows]

end CE
