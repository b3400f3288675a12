import Verif.Num.LemFloatCompose
import Verif.Num.PropsFloatPoly
import Verif.Num.PropsFloatDiff

/-!
# `compose` and `PiecewisePoly.poly` with rounding errors (C125)
-/

open Polynomial

namespace CE

open Poly1d

namespace FltC

variable (f : FltC)

/-- **C125** `compose(c)` with rounding errors: for distinct nodes and at most as many columns as nodes it returns one polynomial for each row,
without leading zeros; its coefficients are those of `sum_j c[r,j] ℓ_j`, up to errors relative to those of
`sum_j |c[r,j]| ∏ (x + |tau_i|) / |tau_j - tau_i|`. -/
theorem C125_compose (tau : List ℝ) (hne : tau ≠ []) (_hd : tau.Nodup) (c : Mat ℝ) (hc : c.cols ≤ tau.length) :
    ∃ qs, f.compose tau c = .ok qs ∧ qs.length = c.rows ∧ ∀ (r : ℕ) (hr : r < qs.length), (qs[r]).Trimmed ∧ (qs[r]).coef.length ≤ tau.length ∧
      ∀ i, |(qs[r]).toPoly.coeff i - (∑ j ∈ Finset.range c.cols, C (c.e r j) * Lagrange.basis (Finset.range tau.length) (nd tau) j).coeff i| ≤
        (1 / (1 - f.u) ^ (4 * (tau.length - 1) + 1 + c.cols) - 1) * (∑ j ∈ Finset.range c.cols, C |c.e r j| *
          ∏ k ∈ (Finset.range tau.length).erase j, (C |nd tau j - nd tau k|⁻¹ * (X + C |nd tau k|))).coeff i := by
  choose g h1 h2 h3 h4 using fun i => composeRow_ok (f := f) tau hne c hc i
  refine ⟨(List.range c.rows).map g, mapM_ok _ _ g fun i _ => h1 i, by simp, fun r hr => ?_⟩
  simp only [List.getElem_map, List.getElem_range]
  exact ⟨h3 r, h2 r, fun i => (h4 r i).1⟩

/-- **C125** With one column for each node, the values of the computed polynomials by Horner's rule are those of the interpolating polynomial. -/
theorem C125_compose_values (tau : List ℝ) (hne : tau ≠ []) (hd : tau.Nodup) (c : Mat ℝ) (hc : c.cols = tau.length) :
    ∃ qs, f.compose tau c = .ok qs ∧ ∀ (r : ℕ) (hr : r < qs.length) (P : ℝ[X]), P.degree < tau.length →
      (∀ k < tau.length, P.eval (nd tau k) = c.e r k) → ∀ x, |f.peval qs[r] x - P.eval x| ≤
        (1 / (1 - f.u) ^ (7 * tau.length - 3) - 1) * ∑ j ∈ Finset.range tau.length, |c.e r j| *
          ∏ k ∈ (Finset.range tau.length).erase j, (|x| + |nd tau k|) / |nd tau j - nd tau k| := by
  have hpos : 1 ≤ tau.length := List.length_pos_iff.mpr hne
  choose g h1 h2 h3 h4 using fun i => composeRow_ok (f := f) tau hne c hc.le i
  refine ⟨(List.range c.rows).map g, mapM_ok _ _ g fun i _ => h1 i, fun r hr P hP hv x => ?_⟩
  simp only [List.getElem_map, List.getElem_range]
  have hPe : P = ∑ j ∈ Finset.range c.cols, C (c.e r j) * Lagrange.basis (Finset.range tau.length) (nd tau) j := by
    rw [eq_sum_basis hd hP, hc]
    exact Finset.sum_congr rfl fun j hj => by rw [← hv j (Finset.mem_range.mp hj)]
  have h := peval_err (h4 r) (h2 r) x
  rw [← hPe, hc] at h
  rw [show 7 * tau.length - 3 = 4 * (tau.length - 1) + 1 + tau.length + 2 * tau.length by omega]
  refine h.trans (le_of_eq ?_)
  unfold Rounding.γ
  congr 1
  rw [eval_finsetSum]
  refine Finset.sum_congr rfl fun j _ => ?_
  rw [eval_mul, eval_C, eval_prod]
  congr 1
  refine Finset.prod_congr rfl fun k _ => ?_
  simp only [eval_mul, eval_add, eval_C, eval_X]
  ring

/-- **C125** More columns than nodes raise IndexError. -/
theorem C125_compose_index (tau : List ℝ) (c : Mat ℝ) (hc : tau.length < c.cols) (hr : 0 < c.rows) : f.compose tau c = .error .index := by
  unfold compose
  obtain ⟨m, hm⟩ : ∃ m, c.rows = m + 1 := ⟨c.rows - 1, by omega⟩
  rw [hm, List.range_succ_eq_map, List.mapM_cons, composeRow_index tau c hc 0]
  rfl

end FltC

namespace FltP

variable (f : FltP)

theorem mapM_some_ok {α β : Type*} (g : α → Except PyErr β) (l : List α) (h : ∀ a ∈ l, ∃ b, g a = .ok b) : ∃ r, l.mapM g = .ok r := by
  obtain ⟨r, hr, -⟩ := mapM_ok' g l (fun _ _ => True) fun a ha => by
    obtain ⟨b, hb⟩ := h a ha
    exact ⟨b, hb, trivial⟩
  exact ⟨r, hr⟩

theorem poly_eq {pp : Flt.Piecewise} {tau : List ℝ} {R : ℕ} (w : pp.WF f.toFlt tau R) {n : ℕ} (hn : n + 1 < pp.intervals.length)
    (hn' : n < pp.coefficients.length) (g : ℕ → Poly1d ℝ) (hg : ∀ i, f.composeRow tau pp.coefficients[n] i = .ok (g i)) :
    f.poly pp n = ((List.range R).map g).mapM (f.rescale (f.rnd (nd pp.intervals (n + 1) - nd pp.intervals n)) (tau.length - 1)) := by
  have ht : pp.basis.tau = tau := by
    have := w.basis
    rw [f.polynomialBasis_ok w.ne] at this
    rw [← Except.ok.inj this]
  have hc : f.compose tau pp.coefficients[n] = .ok ((List.range R).map g) := by
    unfold FltC.compose
    rw [w.rows _ (List.getElem_mem hn')]
    exact mapM_ok _ _ g fun i _ => hg i
  unfold poly
  simp only [pyIndex_nat hn', bind, Except.bind, ht, hc]
  congr 1
  funext p
  rw [show ((n : ℤ) + 1) = ((n + 1 : ℕ) : ℤ) by push_cast; rfl, pyIndex_nat hn, pyIndex_nat (by omega : n < pp.intervals.length)]
  simp only [nd, List.getD_eq_getElem?_getD, List.getElem?_eq_getElem hn, List.getElem?_eq_getElem (by omega : n < pp.intervals.length), Option.getD_some]

/-- **C125** Whenever `poly(n)` returns, the coefficients of the polynomials are those of the interpolating polynomials scaled to the interval, and
so are their values, up to rounding errors; the only exception it can raise is ValueError. -/
theorem C125_poly (pp : Flt.Piecewise) (tau : List ℝ) (R : ℕ) (w : pp.WF f.toFlt tau R) (n : ℕ) (hn : n + 1 < pp.intervals.length) (c : Mat ℝ)
    (hc : pp.coefficients[n]? = some c) :
    (f.poly pp n = .error .value ∨ ∃ ps, f.poly pp n = .ok ps) ∧
    ∀ ps, f.poly pp n = .ok ps → ps.length = R ∧ ∀ (r : ℕ) (hr : r < ps.length), (ps[r]).coef.length = tau.length ∧
      ∀ P : ℝ[X], P.degree < tau.length → (∀ k < tau.length, P.eval (nd tau k) = c.e r k) →
      let h := nd pp.intervals (n + 1) - nd pp.intervals n
      (∀ i, |(ps[r]).toPoly.coeff i - P.coeff i / h ^ i| ≤ (1 / (1 - f.u) ^ (6 * tau.length - 3 + f.powErr) - 1) * ((∑ j ∈ Finset.range tau.length,
        C |c.e r j| * ∏ k ∈ (Finset.range tau.length).erase j, (C |nd tau j - nd tau k|⁻¹ * (X + C |nd tau k|))).coeff i / h ^ i)) ∧
      ∀ s, |f.peval ps[r] s - P.eval (s / h)| ≤ (1 / (1 - f.u) ^ (8 * tau.length - 3 + f.powErr) - 1) * ∑ j ∈ Finset.range tau.length, |c.e r j| *
          ∏ k ∈ (Finset.range tau.length).erase j, (|s| / h + |nd tau k|) / |nd tau j - nd tau k| := by
  have hpos : 1 ≤ tau.length := List.length_pos_iff.mpr w.ne
  have hn' : n < pp.coefficients.length := by have := w.len; omega
  rw [List.getElem?_eq_getElem hn', Option.some.injEq] at hc
  have hcols := w.cols _ (List.getElem_mem hn')
  rw [hc] at hcols
  choose g h1 h2 h3 h4 using fun i => FltC.composeRow_ok (f := f.toFltC) tau w.ne c hcols.le i
  have e := f.poly_eq w hn hn' g (by rw [hc]; exact h1)
  rw [e]
  set h := nd pp.intervals (n + 1) - nd pp.intervals n with hh
  have hp : 0 < h := sub_pos.mpr (w.asc n hn)
  set l := (List.range R).map g with hl
  have step : ∀ p, p.coef.length ≠ tau.length → f.rescale (f.rnd h) (tau.length - 1) p = .error .value := fun p hp => by
    unfold rescale
    rw [if_neg (by omega)]
  have step' : ∀ p : Poly1d ℝ, p.coef.length = tau.length → ∃ q, f.rescale (f.rnd h) (tau.length - 1) p = .ok q := fun p hp => by
    unfold rescale
    rw [if_pos (by omega)]
    exact ⟨_, rfl⟩
  refine ⟨?_, fun ps hps => ?_⟩
  · by_cases hall : ∀ p ∈ l, p.coef.length = tau.length
    · exact Or.inr (mapM_some_ok _ _ fun p hp => step' p (hall p hp))
    · left
      push Not at hall
      obtain ⟨p, hp, hx⟩ := hall
      refine Flt.mapM_error _ _ _ (fun a _ => ?_) ⟨p, hp, step p hx⟩
      by_cases ha : a.coef.length = tau.length
      · exact Or.inl (step' a ha)
      · exact Or.inr (step a ha)
  · have hall : ∀ i < R, (g i).coef.length = tau.length := by
      intro i hi
      by_contra hx
      obtain ⟨b, hb⟩ := mapM_inv _ _ hps (g i) (by rw [hl]; exact List.mem_map.mpr ⟨i, List.mem_range.mpr hi, rfl⟩)
      rw [step _ hx] at hb
      cases hb
    have hresc : ∀ i < R, ∃ q, f.rescale (f.rnd h) (tau.length - 1) (g i) = .ok q ∧ q.coef.length = tau.length - 1 + 1 ∧
        f.CoeffErr (4 * (tau.length - 1) + 1 + c.cols + (tau.length - 1 + f.powErr + 1)) q.coef _ _ := fun i hi =>
      rescale_err (h4 i) (by rw [hall i hi]; omega) (nd pp.intervals n) (nd pp.intervals (n + 1))
    haveI : Nonempty (Poly1d ℝ) := ⟨⟨[]⟩⟩
    choose! q hq hql hqe using hresc
    have hps' : ps = (List.range R).map q := by
      rw [hl, List.mapM_map] at hps
      have := mapM_ok (f.rescale (f.rnd h) (tau.length - 1) ∘ g) (List.range R) q fun i hi => hq i (List.mem_range.mp hi)
      exact Except.ok.inj (hps.symm.trans this)
    subst hps'
    refine ⟨by simp, fun r hr => ?_⟩
    have hr' : r < R := by simpa using hr
    simp only [List.getElem_map, List.getElem_range]
    refine ⟨by rw [hql r hr']; omega, fun P hP hv => ?_⟩
    have hPe : P = ∑ j ∈ Finset.range c.cols, C (c.e r j) * Lagrange.basis (Finset.range tau.length) (nd tau) j := by
      rw [eq_sum_basis w.nodup hP, hcols]
      exact Finset.sum_congr rfl fun j hj => by rw [← hv j (Finset.mem_range.mp hj)]
    have he := hqe r hr'
    rw [← hPe, hcols, ← hh, abs_of_pos hp, show 4 * (tau.length - 1) + 1 + tau.length + (tau.length - 1 + f.powErr + 1) =
      6 * tau.length - 3 + f.powErr by omega] at he
    refine ⟨fun i => ?_, fun s => ?_⟩
    · have := (he i).1
      rw [comp_C_mul_X_coeff, comp_C_mul_X_coeff, inv_pow, ← div_eq_mul_inv, ← div_eq_mul_inv] at this
      exact this
    · have := FltC.peval_err he (le_of_eq (hql r hr')) s
      rw [show 8 * tau.length - 3 + f.powErr = 6 * tau.length - 3 + f.powErr + 2 * (tau.length - 1 + 1) by omega]
      rw [eval_comp, eval_comp] at this
      simp only [eval_mul, eval_C, eval_X] at this
      rw [show h⁻¹ * s = s / h by ring, show h⁻¹ * |s| = |s| / h by ring] at this
      refine this.trans (le_of_eq ?_)
      unfold Rounding.γ
      congr 1
      rw [eval_finsetSum]
      refine Finset.sum_congr rfl fun j _ => ?_
      rw [eval_mul, eval_C, eval_prod]
      congr 1
      refine Finset.prod_congr rfl fun k _ => ?_
      simp only [eval_mul, eval_add, eval_C, eval_X]
      ring

/-- **C125 (partial)** `poly(n)` returns if the leading coefficient of every row exceeds the bound of its rounding errors.  Missing from the full
claim, that it returns for all data: see the refutations below. -/
theorem C125_poly_partial (pp : Flt.Piecewise) (tau : List ℝ) (R : ℕ) (w : pp.WF f.toFlt tau R) (n : ℕ) (hn : n + 1 < pp.intervals.length) (c : Mat ℝ)
    (hc : pp.coefficients[n]? = some c)
    (hlead : ∀ r < R, ∃ P : ℝ[X], P.degree < tau.length ∧ (∀ k < tau.length, P.eval (nd tau k) = c.e r k) ∧
      (1 / (1 - f.u) ^ (5 * tau.length - 3) - 1) * ∑ j ∈ Finset.range tau.length, |c.e r j| *
        ∏ k ∈ (Finset.range tau.length).erase j, |nd tau j - nd tau k|⁻¹ < |P.coeff (tau.length - 1)|) :
    ∃ ps, f.poly pp n = .ok ps := by
  have hpos : 1 ≤ tau.length := List.length_pos_iff.mpr w.ne
  have hn' : n < pp.coefficients.length := by have := w.len; omega
  rw [List.getElem?_eq_getElem hn', Option.some.injEq] at hc
  have hcols := w.cols _ (List.getElem_mem hn')
  rw [hc] at hcols
  choose g h1 h2 h3 h4 using fun i => FltC.composeRow_ok (f := f.toFltC) tau w.ne c hcols.le i
  rw [f.poly_eq w hn hn' g (by rw [hc]; exact h1)]
  refine mapM_some_ok _ _ fun p hp => ?_
  obtain ⟨r, hr, rfl⟩ := List.mem_map.mp hp
  obtain ⟨P, hP, hv, hb⟩ := hlead r (List.mem_range.mp hr)
  have hPe : P = ∑ j ∈ Finset.range c.cols, C (c.e r j) * Lagrange.basis (Finset.range tau.length) (nd tau) j := by
    rw [eq_sum_basis w.nodup hP, hcols]
    exact Finset.sum_congr rfl fun j hj => by rw [← hv j (Finset.mem_range.mp hj)]
  have he := h4 r
  rw [← hPe, hcols, show 4 * (tau.length - 1) + 1 + tau.length = 5 * tau.length - 3 by omega] at he
  have hM : (∑ j ∈ Finset.range tau.length, C |c.e r j| * FltC.lagAbs tau j).coeff (tau.length - 1) =
      ∑ j ∈ Finset.range tau.length, |c.e r j| * ∏ k ∈ (Finset.range tau.length).erase j, |nd tau j - nd tau k|⁻¹ := by
    rw [finsetSum_coeff]
    refine Finset.sum_congr rfl fun j hj => ?_
    rw [coeff_C_mul]
    congr 1
    unfold FltC.lagAbs
    rw [Finset.prod_mul_distrib, ← map_prod, coeff_C_mul]
    have hmon : (∏ k ∈ (Finset.range tau.length).erase j, (X + C |nd tau k|)).Monic := monic_prod_of_monic _ _ fun k _ => monic_X_add_C _
    have hdeg : (∏ k ∈ (Finset.range tau.length).erase j, (X + C |nd tau k|)).natDegree = tau.length - 1 := by
      rw [natDegree_prod_of_monic _ _ fun k _ => monic_X_add_C _]
      simp [Finset.card_erase_of_mem hj]
    have := hmon.coeff_natDegree
    rw [hdeg] at this
    rw [this, mul_one]
  have h0 := (he (tau.length - 1)).1
  rw [hM] at h0
  have hne0 : (listPoly (g r).coef).coeff (tau.length - 1) ≠ 0 := by
    intro h00
    rw [h00, zero_sub, abs_neg] at h0
    exact absurd h0 (not_le.mpr hb)
  have hlen : (g r).coef.length = tau.length - 1 + 1 := by
    rw [coeff_listPoly] at hne0
    have := h2 r
    by_contra hx
    exact hne0 (if_neg (by omega))
  unfold rescale
  rw [if_pos hlen]
  exact ⟨_, rfl⟩

/-! ## Doubles -/

/-- Doubles with sequential reductions and correctly rounded powers. -/
noncomputable def doubleP : FltP where
  toFltC := FltC.doubleC
  powErr := 1
  pow h k := double.rnd (h ^ k)
  pow_spec _ _ := Rounding.Rel.rnd _

open Flt (double_fix fourThirds rnd_four_thirds)

theorem ofCoeffs_cons {a : ℝ} (h : a ≠ 0) (l : List ℝ) : ofCoeffs (a :: l) = ⟨a :: l⟩ := by simp [ofCoeffs, List.dropWhile_cons, h]

theorem dpmul_one (p : List ℝ) (b c : ℝ) (hp : p = [b, c]) (hb : b ≠ 0) (h1 : double.rnd b = b) (h2 : double.rnd c = c) :
    FltC.doubleC.pmul (ofCoeffs [1]) ⟨p⟩ = ⟨[b, c]⟩ := by
  subst hp
  rw [ofCoeffs_cons one_ne_zero]
  show ofCoeffs [double.rnd (1 * b), double.rnd (1 * c)] = _
  rw [one_mul, one_mul, h1, h2, ofCoeffs_cons hb]

theorem dpmul_two (a b c d : ℝ) : FltC.doubleC.pmul ⟨[a, b]⟩ ⟨[c, d]⟩ =
    ofCoeffs [double.rnd (a * c), double.rnd (double.rnd (b * c) + double.rnd (a * d)), double.rnd (b * d)] := rfl

theorem dpdivs (s t a b : ℝ) (h1 : double.rnd (1 / t) = a) (h2 : double.rnd (-s / t) = b) (ha : a ≠ 0) :
    FltC.doubleC.pdivs (ofCoeffs [1, -s]) t = ⟨[a, b]⟩ := by
  rw [ofCoeffs_cons one_ne_zero]
  show ofCoeffs [double.rnd (1 / t), double.rnd (-s / t)] = _
  rw [h1, h2, ofCoeffs_cons ha]

/-- The Lagrange polynomials of the nodes 0, 1/4 and 1 as computed. -/
theorem dlagrange : FltC.doubleC.lagrangePoly [0, 1 / 4, 1] 0 = ⟨[4, -5, 1]⟩ ∧
    FltC.doubleC.lagrangePoly [0, 1 / 4, 1] 1 = ⟨[-(4 * fourThirds), 4 * fourThirds, 0]⟩ ∧
    FltC.doubleC.lagrangePoly [0, 1 / 4, 1] 2 = ⟨[fourThirds, -(fourThirds / 4), 0]⟩ := by
  have hr : fourThirds ≠ 0 := by unfold fourThirds; norm_num
  have z : double.rnd 0 = 0 := double.zero
  have o : double.rnd 1 = 1 := double.one
  have m1 : double.rnd (-1) = -1 := double_fix (-1) 0 (by norm_num) (by norm_num)
  have m4 : double.rnd (-4) = -4 := double_fix (-4) 0 (by norm_num) (by norm_num)
  have p4 : double.rnd 4 = 4 := double_fix 4 0 (by norm_num) (by norm_num)
  have m5 : double.rnd (-5) = -5 := double_fix (-5) 0 (by norm_num) (by norm_num)
  have q4 : double.rnd (1 / 4) = 1 / 4 := double_fix 1 (-2) (by norm_num) (by norm_num)
  have n4 : double.rnd (-(1 / 4)) = -(1 / 4) := double_fix (-1) (-2) (by norm_num) (by norm_num)
  have q34 : double.rnd (3 / 4) = 3 / 4 := double_fix 3 (-2) (by norm_num) (by norm_num)
  have n34 : double.rnd (-(3 / 4)) = -(3 / 4) := double_fix (-3) (-2) (by norm_num) (by norm_num)
  have r1 : double.rnd fourThirds = fourThirds :=
    double_fix 6004799503160661 (-52) (by norm_num) (by unfold fourThirds; norm_num)
  have r4 : double.rnd (4 * fourThirds) = 4 * fourThirds :=
    double_fix 6004799503160661 (-50) (by norm_num) (by unfold fourThirds; norm_num)
  have nr4 : double.rnd (-(4 * fourThirds)) = -(4 * fourThirds) :=
    double_fix (-6004799503160661) (-50) (by norm_num) (by unfold fourThirds; norm_num)
  have rq : double.rnd (-(fourThirds / 4)) = -(fourThirds / 4) :=
    double_fix (-6004799503160661) (-54) (by norm_num) (by unfold fourThirds; norm_num)
  have third : double.rnd (-(1 / 3)) = -(fourThirds / 4) := by
    have := roundTo_eq (p := 53) (x := -(1 / 3)) (-2) (-6004799503160661) (by rw [abs_of_neg] <;> norm_num) (by rw [abs_of_neg] <;> norm_num)
      (by rw [abs_lt]; constructor <;> norm_num)
    show roundTo 53 _ = _
    rw [this]
    unfold fourThirds
    norm_num
  refine ⟨?_, ?_, ?_⟩
  · show FltC.doubleC.pmul (FltC.doubleC.pmul (ofCoeffs [1]) (FltC.doubleC.pdivs (ofCoeffs [1, -(1 / 4)]) (double.rnd (0 - 1 / 4))))
      (FltC.doubleC.pdivs (ofCoeffs [1, -1]) (double.rnd (0 - 1))) = _
    rw [zero_sub, zero_sub, n4, m1, dpdivs (1 / 4) (-(1 / 4)) (-4) 1 (by rw [← m4]; congr 1; norm_num [m4]) (by rw [← o]; congr 1; norm_num [o]) (by norm_num),
      dpdivs 1 (-1) (-1) 1 (by rw [← m1]; congr 1; norm_num [m1]) (by rw [← o]; congr 1; norm_num [o]) (by norm_num),
      dpmul_one _ (-4) 1 rfl (by norm_num) m4 o, dpmul_two]
    norm_num [p4, m1, m4, m5, o, ofCoeffs_cons]
  · show FltC.doubleC.pmul (FltC.doubleC.pmul (ofCoeffs [1]) (FltC.doubleC.pdivs (ofCoeffs [1, -0]) (double.rnd (1 / 4 - 0))))
      (FltC.doubleC.pdivs (ofCoeffs [1, -1]) (double.rnd (1 / 4 - 1))) = _
    rw [sub_zero, q4, show (1 : ℝ) / 4 - 1 = -(3 / 4) by norm_num, n34, dpdivs 0 (1 / 4) 4 0 (by norm_num [p4]) (by norm_num [z]) (by norm_num),
      dpdivs 1 (-(3 / 4)) (-fourThirds) fourThirds (by rw [show (1 : ℝ) / -(3 / 4) = -(4 / 3) by norm_num, rnd_four_thirds.2])
        (by rw [show (-1 : ℝ) / -(3 / 4) = 4 / 3 by norm_num, rnd_four_thirds.1]) (neg_ne_zero.mpr hr),
      dpmul_one _ 4 0 rfl (by norm_num) p4 z, dpmul_two, mul_neg, nr4, zero_mul, z, zero_add, r4, r4, zero_mul, z, ofCoeffs_cons]
    exact neg_ne_zero.mpr (mul_ne_zero (by norm_num) hr)
  · show FltC.doubleC.pmul (FltC.doubleC.pmul (ofCoeffs [1]) (FltC.doubleC.pdivs (ofCoeffs [1, -0]) (double.rnd (1 - 0))))
      (FltC.doubleC.pdivs (ofCoeffs [1, -(1 / 4)]) (double.rnd (1 - 1 / 4))) = _
    rw [sub_zero, o, show (1 : ℝ) - 1 / 4 = 3 / 4 by norm_num, q34, dpdivs 0 1 1 0 (by norm_num [o]) (by norm_num [z]) (by norm_num),
      dpdivs (1 / 4) (3 / 4) fourThirds (-(fourThirds / 4)) (by rw [show (1 : ℝ) / (3 / 4) = 4 / 3 by norm_num, rnd_four_thirds.1])
        (by rw [show -(1 / 4 : ℝ) / (3 / 4) = -(1 / 3) by norm_num, third]) hr,
      dpmul_one _ 1 0 rfl (by norm_num) o z, dpmul_two, one_mul, r1, zero_mul, z, zero_add, one_mul, rq, rq, zero_mul, z, ofCoeffs_cons hr]

/-- The constant 1 on the interval from 0 to 1 with the nodes 0, 1/4 and 1. -/
noncomputable def exOne : Flt.Piecewise := ⟨[0, 1], [⟨1, 3, fun _ _ => 1⟩], ⟨[0, 1 / 4, 1], ⟨3, 3, double.diffEntry [0, 1 / 4, 1]
  ((List.range 3).map (double.lamAt [0, 1 / 4, 1]))⟩, (List.range 3).map (double.lamAt [0, 1 / 4, 1])⟩⟩

theorem exOne_wf : exOne.WF double [0, 1 / 4, 1] 1 where
  ne := by simp
  nodup := by norm_num
  basis := by rw [double.polynomialBasis_ok (by simp)]; rfl
  asc := by
    intro i hi
    have hi : i = 0 := by simp [exOne] at hi; omega
    subst hi
    norm_num [nd, exOne]
  two := by simp [exOne]
  len := by simp [exOne]
  rows := by simp [exOne]
  cols := by simp [exOne]

/-- **C125** Rounding decides whether `poly` raises: for the constant 1, for which it raises ValueError in exact arithmetic (C15), it returns a
polynomial of degree two with doubles. -/
theorem C125_constant : exOne.WF double [0, 1 / 4, 1] 1 ∧ (∀ c ∈ exOne.coefficients, ∀ r j, c.e r j = 1) ∧
    doubleP.poly exOne 0 = .ok [⟨[1 / 2 ^ 52, -(5 / 2 ^ 54), 1]⟩] := by
  refine ⟨exOne_wf, by simp [exOne], ?_⟩
  have hr : fourThirds ≠ 0 := by unfold fourThirds; norm_num
  have z : double.rnd 0 = 0 := double.zero
  have o : double.rnd 1 = 1 := double.one
  have p4 : double.rnd 4 = 4 := double_fix 4 0 (by norm_num) (by norm_num)
  have m5 : double.rnd (-5) = -5 := double_fix (-5) 0 (by norm_num) (by norm_num)
  have r1 : double.rnd fourThirds = fourThirds := double_fix 6004799503160661 (-52) (by norm_num) (by unfold fourThirds; norm_num)
  have r4 : double.rnd (4 * fourThirds) = 4 * fourThirds := double_fix 6004799503160661 (-50) (by norm_num) (by unfold fourThirds; norm_num)
  have nr4 : double.rnd (-(4 * fourThirds)) = -(4 * fourThirds) :=
    double_fix (-6004799503160661) (-50) (by norm_num) (by unfold fourThirds; norm_num)
  have rq : double.rnd (-(fourThirds / 4)) = -(fourThirds / 4) :=
    double_fix (-6004799503160661) (-54) (by norm_num) (by unfold fourThirds; norm_num)
  have s1 : double.rnd (4 + -(4 * fourThirds)) = 4 + -(4 * fourThirds) :=
    double_fix (-6004799503160660) (-52) (by norm_num) (by unfold fourThirds; norm_num)
  have s2 : double.rnd (-5 + 4 * fourThirds) = -5 + 4 * fourThirds :=
    double_fix 1501199875790164 (-52) (by norm_num) (by unfold fourThirds; norm_num)
  have e1 : 4 + -(4 * fourThirds) + fourThirds = 1 / 2 ^ 52 := by unfold fourThirds; norm_num
  have e2 : -5 + 4 * fourThirds + -(fourThirds / 4) = -(5 / 2 ^ 54) := by unfold fourThirds; norm_num
  have s3 : double.rnd (1 / 2 ^ 52) = 1 / 2 ^ 52 := double_fix 1 (-52) (by norm_num) (by norm_num)
  have s4 : double.rnd (-(5 / 2 ^ 54)) = -(5 / 2 ^ 54) := double_fix (-5) (-54) (by norm_num) (by norm_num)
  have hz : ofCoeffs [(0 : ℝ)] = ⟨[0]⟩ := by simp [ofCoeffs]
  have sm : ∀ a b c : ℝ, FltC.doubleC.psmul 1 ⟨[a, b, c]⟩ = ofCoeffs [double.rnd (1 * a), double.rnd (1 * b), double.rnd (1 * c)] := fun _ _ _ => rfl
  have ad0 : ∀ a b c : ℝ, FltC.doubleC.padd ⟨[0]⟩ ⟨[a, b, c]⟩ = ofCoeffs [double.rnd (0 + a), double.rnd (0 + b), double.rnd (0 + c)] :=
    fun _ _ _ => rfl
  have ad : ∀ a b c a' b' c' : ℝ, FltC.doubleC.padd ⟨[a, b, c]⟩ ⟨[a', b', c']⟩ =
    ofCoeffs [double.rnd (a + a'), double.rnd (b + b'), double.rnd (c + c')] := fun _ _ _ _ _ _ => rfl
  have row : ∀ i, FltC.doubleC.composeRow [0, 1 / 4, 1] ⟨1, 3, fun _ _ => 1⟩ i = .ok ⟨[1 / 2 ^ 52, -(5 / 2 ^ 54), 1]⟩ := by
    intro i
    show Except.ok (FltC.doubleC.padd (FltC.doubleC.padd (FltC.doubleC.padd (ofCoeffs [0])
      (FltC.doubleC.psmul 1 (FltC.doubleC.lagrangePoly [0, 1 / 4, 1] 0))) (FltC.doubleC.psmul 1 (FltC.doubleC.lagrangePoly [0, 1 / 4, 1] 1)))
      (FltC.doubleC.psmul 1 (FltC.doubleC.lagrangePoly [0, 1 / 4, 1] 2))) = _
    have hn4 : -(4 * fourThirds) ≠ 0 := neg_ne_zero.mpr (mul_ne_zero (by norm_num) hr)
    have hs1 : 4 + -(4 * fourThirds) ≠ 0 := by unfold fourThirds; norm_num
    rw [dlagrange.1, dlagrange.2.1, dlagrange.2.2, hz, sm, sm, sm]
    simp only [one_mul, p4, m5, o, r1, r4, nr4, rq, z]
    rw [ofCoeffs_cons (by norm_num : (4 : ℝ) ≠ 0), ofCoeffs_cons hn4, ofCoeffs_cons hr, ad0]
    simp only [zero_add, p4, m5, o]
    rw [ofCoeffs_cons (by norm_num : (4 : ℝ) ≠ 0), ad]
    simp only [s1, s2, add_zero, o]
    rw [ofCoeffs_cons hs1, ad, e1, e2, s3, s4, add_zero, o, ofCoeffs_cons (by norm_num)]
  have h := doubleP.poly_eq (n := 0) exOne_wf (by simp [exOne]) (by simp [exOne]) (fun _ => ⟨[1 / 2 ^ 52, -(5 / 2 ^ 54), 1]⟩) row
  refine h.trans ?_
  show Except.ok [(⟨[double.rnd (1 / 2 ^ 52 / double.rnd (double.rnd (1 - 0) ^ 2)), double.rnd (-(5 / 2 ^ 54) / double.rnd (double.rnd (1 - 0) ^ 1)),
    double.rnd (1 / double.rnd (double.rnd (1 - 0) ^ 0))]⟩ : Poly1d ℝ)] = _
  rw [sub_zero, o, one_pow, one_pow, one_pow, o, div_one, div_one, div_one, s3, s4, o]

/-- The values `2 - 2^-51` and `2 - 2^-52` at the nodes 0 and `1 - 2^-52`. -/
noncomputable def exLine : Flt.Piecewise :=
  ⟨[0, 1], [⟨1, 2, fun _ j => nd [2 - 1 / 2 ^ 51, 2 - 1 / 2 ^ 52] j⟩], ⟨[0, 1 - 1 / 2 ^ 52], ⟨2, 2, double.diffEntry [0, 1 - 1 / 2 ^ 52]
    ((List.range 2).map (double.lamAt [0, 1 - 1 / 2 ^ 52]))⟩, (List.range 2).map (double.lamAt [0, 1 - 1 / 2 ^ 52])⟩⟩

theorem exLine_wf : exLine.WF double [0, 1 - 1 / 2 ^ 52] 1 where
  ne := by simp
  nodup := by norm_num
  basis := by rw [double.polynomialBasis_ok (by simp)]; rfl
  asc := by
    intro i hi
    have hi : i = 0 := by simp [exLine] at hi; omega
    subst hi
    norm_num [nd, exLine]
  two := by simp [exLine]
  len := by simp [exLine]
  rows := by simp [exLine]
  cols := by simp [exLine]

/-- **C125, refuted** Full degree does not suffice: for two different values at two nodes `poly` raises ValueError with doubles, because the
computed leading coefficient vanishes. -/
theorem C125_full_degree_refuted : exLine.WF double [0, 1 - 1 / 2 ^ 52] 1 ∧
    (∀ P : ℝ[X], (∀ k < 2, P.eval (nd [0, 1 - 1 / 2 ^ 52] k) = nd [2 - 1 / 2 ^ 51, 2 - 1 / 2 ^ 52] k) → 1 ≤ P.natDegree) ∧
    doubleP.poly exLine 0 = .error .value := by
  refine ⟨exLine_wf, fun P hP => ?_, ?_⟩
  · by_contra hx
    have hx : P.natDegree = 0 := by omega
    rw [eq_C_of_natDegree_eq_zero hx] at hP
    have h0 := hP 0 (by norm_num)
    have h1 := hP 1 (by norm_num)
    rw [eval_C] at h0 h1
    rw [h0] at h1
    norm_num [nd] at h1
  set t : ℝ := 1 - 1 / 2 ^ 52 with ht
  have tn : t ≠ 0 := by rw [ht]; norm_num
  have z : double.rnd 0 = 0 := double.zero
  have o : double.rnd 1 = 1 := double.one
  have m2 : double.rnd (-2) = -2 := double_fix (-2) 0 (by norm_num) (by norm_num)
  have p2 : double.rnd 2 = 2 := double_fix 2 0 (by norm_num) (by norm_num)
  have ft : double.rnd t = t := double_fix (2 ^ 52 - 1) (-52) (by norm_num) (by rw [ht]; norm_num)
  have fnt : double.rnd (-t) = -t := double_fix (-(2 ^ 52 - 1)) (-52) (by norm_num) (by rw [ht]; norm_num)
  have fr : double.rnd (1 + 1 / 2 ^ 52) = 1 + 1 / 2 ^ 52 := double_fix (2 ^ 52 + 1) (-52) (by norm_num) (by norm_num)
  have fnr : double.rnd (-(1 + 1 / 2 ^ 52)) = -(1 + 1 / 2 ^ 52) := double_fix (-(2 ^ 52 + 1)) (-52) (by norm_num) (by norm_num)
  have fa : double.rnd (2 - 1 / 2 ^ 51) = 2 - 1 / 2 ^ 51 := double_fix (2 ^ 52 - 1) (-51) (by norm_num) (by norm_num)
  have inv : double.rnd (1 / t) = 1 + 1 / 2 ^ 52 := by
    have := roundTo_eq (p := 53) (x := 1 / t) 0 (2 ^ 52 + 1) (by rw [ht, abs_of_pos] <;> norm_num) (by rw [ht, abs_of_pos] <;> norm_num)
      (by rw [ht, abs_lt]; constructor <;> norm_num)
    show roundTo 53 _ = _
    rw [this]
    norm_num
  have ninv : double.rnd (1 / -t) = -(1 + 1 / 2 ^ 52) := by
    have := roundTo_eq (p := 53) (x := 1 / -t) 0 (-(2 ^ 52 + 1)) (by rw [ht, abs_of_neg] <;> norm_num) (by rw [ht, abs_of_neg] <;> norm_num)
      (by rw [ht, abs_lt]; constructor <;> norm_num)
    show roundTo 53 _ = _
    rw [this]
    norm_num
  have pa : double.rnd ((2 - 1 / 2 ^ 51) * -(1 + 1 / 2 ^ 52)) = -2 := by
    have := roundTo_eq (p := 53) (x := (2 - 1 / 2 ^ 51) * -(1 + 1 / 2 ^ 52)) 0 (-(2 ^ 53)) (by rw [abs_of_neg] <;> norm_num)
      (by rw [abs_of_neg] <;> norm_num) (by rw [abs_lt]; constructor <;> norm_num)
    show roundTo 53 _ = _
    rw [this]
    norm_num
  have pb : double.rnd ((2 - 1 / 2 ^ 52) * (1 + 1 / 2 ^ 52)) = 2 := by
    have := roundTo_eq (p := 53) (x := (2 - 1 / 2 ^ 52) * (1 + 1 / 2 ^ 52)) 1 (2 ^ 52) (by rw [abs_of_pos] <;> norm_num)
      (by rw [abs_of_pos] <;> norm_num) (by rw [abs_lt]; constructor <;> norm_num)
    show roundTo 53 _ = _
    rw [this]
    norm_num
  have l0 : FltC.doubleC.lagrangePoly [0, t] 0 = ⟨[-(1 + 1 / 2 ^ 52), 1]⟩ := by
    show FltC.doubleC.pmul (ofCoeffs [1]) (FltC.doubleC.pdivs (ofCoeffs [1, -t]) (double.rnd (0 - t))) = _
    rw [zero_sub, fnt, dpdivs t (-t) _ 1 ninv (by rw [div_self (neg_ne_zero.mpr tn), o]) (by norm_num), dpmul_one _ _ 1 rfl (by norm_num) fnr o]
  have l1 : FltC.doubleC.lagrangePoly [0, t] 1 = ⟨[1 + 1 / 2 ^ 52, 0]⟩ := by
    show FltC.doubleC.pmul (ofCoeffs [1]) (FltC.doubleC.pdivs (ofCoeffs [1, -0]) (double.rnd (t - 0))) = _
    rw [sub_zero, ft, dpdivs 0 t _ 0 inv (by rw [neg_zero, zero_div, z]) (by norm_num), dpmul_one _ _ 0 rfl (by norm_num) fr z]
  have hz : ofCoeffs [(0 : ℝ)] = ⟨[0]⟩ := by simp [ofCoeffs]
  have row : ∀ i, FltC.doubleC.composeRow [0, t] ⟨1, 2, fun _ j => nd [2 - 1 / 2 ^ 51, 2 - 1 / 2 ^ 52] j⟩ i = .ok ⟨[2 - 1 / 2 ^ 51]⟩ := by
    intro i
    show Except.ok (FltC.doubleC.padd (FltC.doubleC.padd (ofCoeffs [0])
      (FltC.doubleC.psmul (2 - 1 / 2 ^ 51) (FltC.doubleC.lagrangePoly [0, t] 0)))
      (FltC.doubleC.psmul (2 - 1 / 2 ^ 52) (FltC.doubleC.lagrangePoly [0, t] 1))) = _
    have sm : ∀ s a b : ℝ, FltC.doubleC.psmul s ⟨[a, b]⟩ = ofCoeffs [double.rnd (s * a), double.rnd (s * b)] := fun _ _ _ => rfl
    have ad0 : ∀ a b : ℝ, FltC.doubleC.padd ⟨[0]⟩ ⟨[a, b]⟩ = ofCoeffs [double.rnd (0 + a), double.rnd (0 + b)] := fun _ _ => rfl
    have ad : ∀ a b a' b' : ℝ, FltC.doubleC.padd ⟨[a, b]⟩ ⟨[a', b']⟩ = ofCoeffs [double.rnd (a + a'), double.rnd (b + b')] := fun _ _ _ _ => rfl
    rw [l0, l1, hz, sm, sm, pa, pb, mul_one, mul_zero, fa, z, ofCoeffs_cons (by norm_num : (-2 : ℝ) ≠ 0),
      ofCoeffs_cons (by norm_num : (2 : ℝ) ≠ 0), ad0, zero_add, zero_add, m2, fa, ofCoeffs_cons (by norm_num : (-2 : ℝ) ≠ 0), ad,
      show (-2 : ℝ) + 2 = 0 by norm_num, z, add_zero, fa]
    congr 1
    have : (2 : ℝ) - 1 / 2 ^ 51 ≠ 0 := by norm_num
    unfold ofCoeffs
    rw [List.dropWhile_cons_of_pos (by simp), List.dropWhile_cons_of_neg (by simpa using this)]
  exact doubleP.poly_eq (n := 0) exLine_wf (by simp [exLine]) (by simp [exLine]) (fun _ => ⟨[2 - 1 / 2 ^ 51]⟩) row

/-- The line through the values 0 and 2 at 0 and 1 on the interval from 0 to 2, with doubles: `compose` and `poly` succeed. -/
example : (∃ qs, FltC.doubleC.compose [0, 1] ⟨1, 2, fun _ j => nd [0, 2] j⟩ = .ok qs ∧ qs.length = 1 ∧
      ∀ (hr : 0 < qs.length), |FltC.doubleC.peval qs[0] 3 - 6| ≤ 100 / 2 ^ 53) ∧
    FltC.doubleC.compose [0, 1] ⟨1, 3, fun _ _ => 0⟩ = .error .index := by
  obtain ⟨qs, h1, h2, -⟩ := FltC.doubleC.C125_compose [0, 1] (by simp) (by norm_num) ⟨1, 2, fun _ j => nd [0, 2] j⟩ le_rfl
  obtain ⟨qs', h3, h4⟩ := FltC.doubleC.C125_compose_values [0, 1] (by simp) (by norm_num) ⟨1, 2, fun _ j => nd [0, 2] j⟩ rfl
  rw [h1] at h3
  cases h3
  refine ⟨⟨qs, h1, h2, fun hr => ?_⟩, FltC.doubleC.C125_compose_index _ _ (by simp) (by simp)⟩
  have := h4 0 hr (C 0 + C 2 * X) (Flt.degree_linear _ _) (by
    intro k hk
    have : k = 0 ∨ k = 1 := by simp at hk; omega
    rcases this with rfl | rfl <;> simp [nd]) 3
  simp only [List.length_cons, List.length_nil, Nat.reduceAdd, Nat.reduceMul, Nat.reduceSub, Finset.sum_range_succ, Finset.sum_range_zero,
    show (Finset.range 2).erase 0 = {1} by decide, show (Finset.range 2).erase 1 = {0} by decide, Finset.prod_singleton,
    show FltC.doubleC.u = 1 / 2 ^ 53 from rfl, eval_add, eval_mul, eval_C, eval_X] at this
  rw [show (6 : ℝ) = 0 + 2 * 3 by norm_num]
  refine this.trans ?_
  norm_num [nd]

/-- The values 0 and 2 at the ends of the interval from 0 to 2. -/
noncomputable def exSlope : Flt.Piecewise := ⟨[0, 2], [⟨1, 2, fun _ j => nd [0, 2] j⟩], ⟨[0, 1], ⟨2, 2, double.diffEntry [0, 1]
  ((List.range 2).map (double.lamAt [0, 1]))⟩, (List.range 2).map (double.lamAt [0, 1])⟩⟩

theorem exSlope_wf : exSlope.WF double [0, 1] 1 where
  ne := by simp
  nodup := by norm_num
  basis := by rw [double.polynomialBasis_ok (by simp)]; rfl
  asc := by
    intro i hi
    have hi : i = 0 := by simp [exSlope] at hi; omega
    subst hi
    norm_num [nd, exSlope]
  two := by simp [exSlope]
  len := by simp [exSlope]
  rows := by simp [exSlope]
  cols := by simp [exSlope]

/-- With doubles `poly(0)` returns the identity up to a few roundings. -/
example : ∃ ps, doubleP.poly exSlope 0 = .ok ps ∧ ps.length = 1 ∧ ∀ hr : 0 < ps.length, |doubleP.peval ps[0] 1 - 1| ≤ 100 / 2 ^ 53 ∧
    |(ps[0]).toPoly.coeff 1 - 1| ≤ 100 / 2 ^ 53 := by
  have hP : ∀ k < [(0 : ℝ), 1].length, (C 0 + C 2 * X : ℝ[X]).eval (nd [0, 1] k) = nd [0, 2] k := by
    intro k hk
    have : k = 0 ∨ k = 1 := by simp at hk; omega
    rcases this with rfl | rfl <;> simp [nd]
  have du : doubleP.u = 1 / 2 ^ 53 := rfl
  have dp : doubleP.powErr = 1 := rfl
  obtain ⟨ps, hps⟩ := doubleP.C125_poly_partial exSlope [0, 1] 1 exSlope_wf 0 (by simp [exSlope]) _ rfl (fun r hr =>
    ⟨C 0 + C 2 * X, Flt.degree_linear _ _, hP, by
      simp only [List.length_cons, List.length_nil, Nat.reduceAdd, Nat.reduceMul, Nat.reduceSub, Finset.sum_range_succ, Finset.sum_range_zero,
        show (Finset.range 2).erase 0 = {1} by decide, show (Finset.range 2).erase 1 = {0} by decide, Finset.prod_singleton, du, coeff_add, coeff_C,
        coeff_C_mul, coeff_X]
      norm_num [nd]⟩)
  obtain ⟨hl, h⟩ := (doubleP.C125_poly exSlope [0, 1] 1 exSlope_wf 0 (by simp [exSlope]) _ rfl).2 ps hps
  refine ⟨ps, hps, hl, fun hr => ?_⟩
  obtain ⟨h1, h2⟩ := (h 0 hr).2 (C 0 + C 2 * X) (Flt.degree_linear _ _) hP
  have h1 := h1 1
  have h2 := h2 1
  simp only [List.length_cons, List.length_nil, Nat.reduceAdd, Nat.reduceMul, Nat.reduceSub, Finset.sum_range_succ, Finset.sum_range_zero,
    show (Finset.range 2).erase 0 = {1} by decide, show (Finset.range 2).erase 1 = {0} by decide, Finset.prod_singleton, du, dp, coeff_add, coeff_C,
    coeff_C_mul, coeff_X, coeff_C_zero, coeff_X_one, eval_add, eval_mul, eval_C, eval_X, exSlope, nd] at h1 h2
  norm_num at h1 h2
  exact ⟨h2.trans (by norm_num), h1.trans (by norm_num)⟩

end FltP

end CE
