import Verif.Num.PropsFloat
import Verif.Num.PiecewisePolyLemmas

/-! Lemmas about the evaluation of piecewise polynomials with rounding errors. -/

open Polynomial

namespace CE

namespace Rounding

variable {R : Rounding}

theorem isFl_zero : R.IsFl 0 := R.zero

theorem isFl_one : R.IsFl 1 := R.one

theorem isFl_rnd (x : ℝ) : R.IsFl (R.rnd x) := R.idem x

theorem rnd_nonneg {x : ℝ} (h : 0 ≤ x) : 0 ≤ R.rnd x := by
  have := R.mono h
  rwa [R.zero] at this

theorem rnd_pos {x : ℝ} (h : 0 < x) : 0 < R.rnd x :=
  lt_of_le_of_ne (rnd_nonneg h.le) fun e => h.ne' (R.rnd_eq_zero e.symm)

theorem rnd_le_of_isFl {x y : ℝ} (hy : R.IsFl y) (h : x ≤ y) : R.rnd x ≤ y := by
  have := R.mono h
  rwa [hy] at this

theorem le_rnd_of_isFl {x y : ℝ} (hx : R.IsFl x) (h : x ≤ y) : x ≤ R.rnd y := by
  have := R.mono h
  rwa [hx] at this

open Classical in
/-- The inner product of a vector of floats with a unit vector (or zero) is exact. -/
theorem dotOf_unit {l : List (ℝ × ℝ)} {r : ℝ} (h : DotOf R l r) (hfl : ∀ p ∈ l, R.IsFl p.1) (h01 : ∀ p ∈ l, p.2 = 0 ∨ p.2 = 1)
    (hc : l.countP (fun p => decide (p.2 = 1)) ≤ 1) : r = (l.map fun p => p.1 * p.2).sum ∧ R.IsFl r := by
  have zero : ∀ m : List (ℝ × ℝ), (∀ p ∈ m, p.2 = 0 ∨ p.2 = 1) → m.countP (fun p => decide (p.2 = 1)) = 0 →
      (m.map fun p => p.1 * p.2).sum = 0 := by
    intro m h1 h2
    rw [List.countP_eq_zero] at h2
    have : m.map (fun p => p.1 * p.2) = m.map fun _ => 0 := by
      apply List.map_congr_left
      intro p hp
      rw [(h1 p hp).resolve_right (by simpa using h2 p hp), mul_zero]
    rw [this]
    simp
  induction h with
  | nil => exact ⟨rfl, isFl_zero⟩
  | one x y =>
    have h1 : R.IsFl (x * y) := by
      rcases h01 (x, y) (by simp) with h | h
      · simp only at h
        rw [h, mul_zero]
        exact isFl_zero
      · simp only at h
        rw [h, mul_one]
        exact hfl (x, y) (by simp)
    exact ⟨by rw [h1]; simp, isFl_rnd _⟩
  | @add l l' a b _ _ _ _ ih ih' =>
    rw [List.countP_append] at hc
    obtain ⟨e, fl⟩ := ih (fun p hp => hfl p (by simp [hp])) (fun p hp => h01 p (by simp [hp])) (by omega)
    obtain ⟨e', fl'⟩ := ih' (fun p hp => hfl p (by simp [hp])) (fun p hp => h01 p (by simp [hp])) (by omega)
    rw [List.map_append, List.sum_append, ← e, ← e']
    refine ⟨?_, isFl_rnd _⟩
    rcases Nat.eq_zero_or_pos (l.countP fun p : ℝ × ℝ => decide (p.2 = 1)) with h0 | h0
    · rw [e, zero l (fun p hp => h01 p (by simp [hp])) h0, zero_add]
      exact fl'
    · rw [e', zero l' (fun p hp => h01 p (by simp [hp])) (by omega), add_zero]
      exact fl
  | @fma l a x y _ _ ih =>
    rw [List.countP_cons] at hc
    obtain ⟨e, fl⟩ := ih (fun p hp => hfl p (by simp [hp])) (fun p hp => h01 p (by simp [hp])) (by omega)
    rw [List.map_cons, List.sum_cons, ← e]
    refine ⟨?_, isFl_rnd _⟩
    rcases h01 (x, y) (by simp) with h | h
    · simp only at h
      rw [h, mul_zero, zero_add]
      exact fl
    · simp only at h
      rw [h] at hc
      simp only [decide_true, if_true] at hc
      rw [e, zero l (fun p hp => h01 p (by simp [hp])) (by omega), h, mul_one, add_zero]
      exact hfl (x, y) (by simp)
  | perm _ hp ih =>
    rw [← hp.countP_eq] at hc
    obtain ⟨e, fl⟩ := ih (fun p h => hfl p (hp.mem_iff.mp h)) (fun p h => h01 p (hp.mem_iff.mp h)) hc
    exact ⟨by rw [e, (hp.map _).sum_eq], fl⟩

end Rounding

namespace Flt

variable {f : Flt}

/-- A `PiecewisePoly` as in `PiecewisePoly.WF`, with the basis computed with rounding. -/
structure Piecewise.WF (f : Flt) (pp : Piecewise) (tau : List ℝ) (R : ℕ) : Prop where
  ne : tau ≠ []
  nodup : tau.Nodup
  basis : f.polynomialBasis tau = .ok pp.basis
  asc : Ascending pp.intervals
  two : 2 ≤ pp.intervals.length
  len : pp.coefficients.length + 1 = pp.intervals.length
  rows : ∀ c ∈ pp.coefficients, c.rows = R
  cols : ∀ c ∈ pp.coefficients, c.cols = tau.length

/-- The bound of the rounding errors in the value of a polynomial with the nodes `tau` and the values `v` at the point `s`. -/
noncomputable def evalBound (f : Flt) (tau : List ℝ) (v : ℕ → ℝ) (s : ℝ) : ℝ :=
  let E := f.γ (3 * tau.length + 1) * ∑ k ∈ Finset.range tau.length, |lag tau k s|
  ((1 + f.γ tau.length) * (1 + 2 * E / (1 - E)) - 1) * ∑ j ∈ Finset.range tau.length, |v j * lag tau j s|

/-- `y` is a computed value at the point `s` of the polynomial with the nodes `tau` and the values `v`. -/
def EvalOk (f : Flt) (tau : List ℝ) (v : ℕ → ℝ) (s y : ℝ) : Prop :=
  (f.γ (3 * tau.length + 1) * ∑ k ∈ Finset.range tau.length, |lag tau k s| < 1 →
    |y - ∑ j ∈ Finset.range tau.length, v j * lag tau j s| ≤ f.evalBound tau v s) ∧
  ((∀ j < tau.length, f.IsFl (v j)) → ∀ j < tau.length, s = nd tau j → y = v j)

/-- `np.dot(c, interpolationMatrix(s).T)` -/
theorem dot_ok {tau : List ℝ} (hne : tau ≠ []) (hd : tau.Nodup) (b : Basis) (hb : f.polynomialBasis tau = .ok b) (c : Mat ℝ)
    (hc : c.cols = tau.length) (s : List ℝ) (hs : s ≠ []) :
    ∃ L V, f.interpolationMatrix b s = .ok L ∧ f.matDot c L.T = .ok V ∧ V.rows = c.rows ∧ V.cols = s.length ∧
      ∀ k < s.length, ∀ r, f.EvalOk tau (c.e r) (nd s k) (V.e r k) := by
  obtain ⟨b', L, hb', hL, hLr, hLc, h⟩ := f.C111_interpolation tau hne hd s hs
  rw [hb] at hb'
  cases hb'
  refine ⟨L, ⟨c.rows, L.rows, f.dot c L.T⟩, hL, ?_, rfl, hLr, fun k hk r => ⟨fun hE => ?_, fun hfl j hj hsj => ?_⟩⟩
  · unfold matDot
    rw [if_pos (by rw [hc]; exact hLc.symm)]
    rfl
  · have h1 := f.toRounding.dotOf_err (f.dot_spec c L.T r k)
    rw [List.length_map, List.length_range, List.map_map, List.map_map, hc, list_range_sum, list_range_sum] at h1
    set n := tau.length with hn
    have h2 := (h k hk).2 hE
    set E := f.γ (3 * n + 1) * ∑ k' ∈ Finset.range n, |lag tau k' (nd s k)| with hEd
    have hE0 : 0 ≤ E := mul_nonneg (f.γ_nonneg _) (Finset.sum_nonneg fun _ _ => abs_nonneg _)
    have hK0 : 0 ≤ 2 * E / (1 - E) := div_nonneg (by linarith) (by linarith)
    have h3 : ∀ j ∈ Finset.range n, |c.e r j * L.e k j - c.e r j * lag tau j (nd s k)| ≤ 2 * E / (1 - E) * |c.e r j * lag tau j (nd s k)| := by
      intro j hj
      rw [← mul_sub, abs_mul, abs_mul, mul_left_comm]
      exact mul_le_mul_of_nonneg_left (h2 j (Finset.mem_range.mp hj)) (abs_nonneg _)
    set T := ∑ j ∈ Finset.range n, |c.e r j * lag tau j (nd s k)| with hT
    have h4 : |∑ j ∈ Finset.range n, c.e r j * L.e k j - ∑ j ∈ Finset.range n, c.e r j * lag tau j (nd s k)| ≤ 2 * E / (1 - E) * T := by
      rw [← Finset.sum_sub_distrib, hT, Finset.mul_sum]
      exact (Finset.abs_sum_le_sum_abs _ _).trans (Finset.sum_le_sum h3)
    have h5 : ∑ j ∈ Finset.range n, |c.e r j * L.e k j| ≤ (1 + 2 * E / (1 - E)) * T := by
      rw [hT, Finset.mul_sum]
      refine Finset.sum_le_sum fun j hj => ?_
      have := h3 j hj
      have h6 := abs_sub_abs_le_abs_sub (c.e r j * L.e k j) (c.e r j * lag tau j (nd s k))
      linarith
    have h6 : |f.dot c L.T r k - ∑ j ∈ Finset.range n, c.e r j * L.e k j| ≤ f.γ n * ∑ j ∈ Finset.range n, |c.e r j * L.e k j| := h1
    have h7 := mul_le_mul_of_nonneg_left h5 (f.γ_nonneg n)
    have h8 := abs_sub_le (f.dot c L.T r k) (∑ j ∈ Finset.range n, c.e r j * L.e k j) (∑ j ∈ Finset.range n, c.e r j * lag tau j (nd s k))
    show |f.dot c L.T r k - _| ≤ ((1 + f.γ n) * (1 + 2 * E / (1 - E)) - 1) * T
    linarith
  · classical
    have hmem : nd s k ∈ tau := by
      rw [hsj, nd_eq_getElem hj]
      exact List.getElem_mem hj
    have hv : ∀ i < tau.length, L.e k i = if j = i then 1 else 0 := by
      intro i hi
      rw [(h k hk).1 hmem i hi, hsj]
      by_cases hij : j = i
      · rw [hij, if_pos rfl, if_pos rfl]
      · rw [if_neg hij, if_neg fun e => hij (nd_injOn hd (by simpa) (by simpa) e)]
    have h1 := Rounding.dotOf_unit (f.dot_spec c L.T r k) (by
      intro p hp
      obtain ⟨i, hi, rfl⟩ := List.mem_map.mp hp
      rw [List.mem_range, hc] at hi
      exact hfl i hi) (by
      intro p hp
      obtain ⟨i, hi, rfl⟩ := List.mem_map.mp hp
      rw [List.mem_range, hc] at hi
      show L.e k i = 0 ∨ L.e k i = 1
      rw [hv i hi]
      split <;> simp) (by
      rw [hc, List.countP_map]
      have : (List.range tau.length).countP ((fun p : ℝ × ℝ => decide (p.2 = 1)) ∘ fun i => (c.e r i, L.T.e i k)) =
          (List.range tau.length).count j := by
        rw [List.count_eq_countP]
        apply List.countP_congr
        intro i hi
        rw [List.mem_range] at hi
        simp only [Function.comp_apply, decide_eq_true_eq, beq_iff_eq]
        show L.e k i = 1 ↔ i = j
        rw [hv i hi]
        by_cases hij : j = i
        · simp [hij]
        · simp [hij, Ne.symm hij]
      rw [this]
      exact List.nodup_iff_count_le_one.mp List.nodup_range j)
    show f.dot c L.T r k = c.e r j
    rw [h1.1, List.map_map, hc, list_range_sum, Finset.sum_eq_single j]
    · show c.e r j * L.e k j = c.e r j
      rw [hv j hj, if_pos rfl, mul_one]
    · intro i hi hij
      show c.e r i * L.e k i = 0
      rw [hv i (Finset.mem_range.mp hi), if_neg hij.symm, mul_zero]
    · intro hj'
      exact absurd (Finset.mem_range.mpr hj) hj'

namespace Piecewise.WF

variable {pp : Piecewise} {tau : List ℝ} {R : ℕ}

/-- The local coordinate of a point. -/
theorem local_ok {a b : ℝ} (hab : a < b) (t : ℝ) :
    let s := f.rnd (f.rnd (t - a) / f.rnd (b - a))
    |s - (t - a) / (b - a)| ≤ f.γ 3 * |(t - a) / (b - a)| ∧ (a ≤ t → 0 ≤ s) ∧ (t ≤ b → s ≤ 1) ∧ (t = a → s = 0) ∧ (t = b → s = 1) := by
  intro s
  have hb : 0 < f.rnd (b - a) := Rounding.rnd_pos (sub_pos.mpr hab)
  refine ⟨?_, fun h => ?_, fun h => ?_, fun h => ?_, fun h => ?_⟩
  · exact ((Rounding.Rel.rnd _).trans ((Rounding.Rel.rnd (R := f.toRounding) (t - a)).div (Rounding.Rel.rnd (b - a)))).abs_sub
  · exact Rounding.rnd_nonneg (div_nonneg (Rounding.rnd_nonneg (sub_nonneg.mpr h)) hb.le)
  · exact Rounding.rnd_le_of_isFl Rounding.isFl_one ((div_le_one hb).mpr (f.mono (by linarith)))
  · show f.rnd _ = 0
    rw [h, sub_self, f.zero, zero_div, f.zero]
  · show f.rnd _ = 1
    rw [h, div_self hb.ne', f.one]

/-- The value at one point. -/
theorem callAt_ok (w : pp.WF f tau R) (side : Side) {n : ℕ} {x : ℝ} (hx : InSide side pp.intervals n x) :
    ∃ V c, f.callAt pp side x = .ok V ∧ V.rows = R ∧ V.cols = 1 ∧ pp.coefficients[n]? = some c ∧
      ∀ r, f.EvalOk tau (c.e r)
        (f.rnd (f.rnd (x - nd pp.intervals n) / f.rnd (nd pp.intervals (n + 1) - nd pp.intervals n))) (V.e r 0) := by
  have hn : n + 1 < pp.intervals.length := by cases side <;> exact hx.1
  have hn' : n < pp.coefficients.length := by have := w.len; omega
  obtain ⟨L, V, hL, hV, hr, hcol, hval⟩ := dot_ok w.ne w.nodup pp.basis w.basis pp.coefficients[n] (w.cols _ (List.getElem_mem hn'))
    [f.rnd (f.rnd (x - nd pp.intervals n) / f.rnd (nd pp.intervals (n + 1) - nd pp.intervals n))] (by simp)
  refine ⟨V, pp.coefficients[n], ?_, hr.trans (w.rows _ (List.getElem_mem hn')), hcol, by simp [hn'], fun r => hval 0 (by simp) r⟩
  unfold callAt
  simp only [clip_searchsorted w.asc side hx]
  rw [show ((n : ℤ) + 1) = ((n + 1 : ℕ) : ℤ) by push_cast; rfl, pyIndex_nat (by omega : n < pp.intervals.length),
    pyIndex_nat hn, pyIndex_nat hn']
  simp only [bind, Except.bind, ← nd_eq_getElem (show n < pp.intervals.length by omega), ← nd_eq_getElem hn, hL]
  exact hV

/-- The values at the points of a list. -/
theorem call_ok (w : pp.WF f tau R) (cont : String) (side : Side) (hs : PiecewisePoly.parseSide cont = .ok side) (t : List ℝ) (ht : t ≠ []) :
    ∃ V, f.call pp t cont = .ok V ∧ V.rows = R ∧ V.cols = t.length ∧
      ∀ k < t.length, ∀ n, InSide side pp.intervals n (nd t k) → ∃ c, pp.coefficients[n]? = some c ∧ ∀ r,
        f.EvalOk tau (c.e r)
          (f.rnd (f.rnd (nd t k - nd pp.intervals n) / f.rnd (nd pp.intervals (n + 1) - nd pp.intervals n))) (V.e r k) := by
  obtain ⟨l, hl, hlen, hall⟩ := mapM_ok' (f.callAt pp side) t
    (fun x V => V.rows = R ∧ V.cols = 1 ∧ ∀ n, InSide side pp.intervals n x → ∃ c, pp.coefficients[n]? = some c ∧ ∀ r,
      f.EvalOk tau (c.e r)
        (f.rnd (f.rnd (x - nd pp.intervals n) / f.rnd (nd pp.intervals (n + 1) - nd pp.intervals n))) (V.e r 0)) (by
      intro x _
      obtain ⟨n, hn⟩ := exists_inSide w.two side x
      obtain ⟨V, c, hV, hr, hc, hv⟩ := w.callAt_ok side hn
      exact ⟨V, hV, hr, hc, fun m hm => by rw [inSide_unique w.asc hm hn]; exact ⟨c, hv⟩⟩)
  have hmem : ∀ A ∈ l, A.rows = R ∧ A.cols = 1 := by
    intro A hA
    obtain ⟨i, hi, rfl⟩ := List.mem_iff_getElem.mp hA
    exact ⟨(hall i (by omega) hi).2.1, (hall i (by omega) hi).2.2.1⟩
  have hne : l ≠ [] := by intro h; subst h; exact ht (List.length_eq_zero_iff.mp (by simpa using hlen.symm))
  refine ⟨Mat.hcat R l, ?_, hcat_rows _ _, ?_, ?_⟩
  · simp only [call, hs, hl, bind, Except.bind]
    exact hstack_ok hne (fun A hA => (hmem A hA).1)
  · rw [hcat_cols, off_const _ l 1 (fun A hA => (hmem A hA).2) le_rfl, mul_one, hlen]
  · intro k hk n hn
    have hk' : k < l.length := by omega
    have hx : nd t k = t[k] := nd_eq_getElem hk
    rw [hx] at hn ⊢
    obtain ⟨c, hc, hv⟩ := (hall k hk hk').2.2.2 n hn
    refine ⟨c, hc, fun r => ?_⟩
    have := hcat_e R l hk' (j := 0) (by rw [(hmem _ (List.getElem_mem hk')).2]; exact one_pos) r
    rw [off_const _ l 1 (fun A hA => (hmem A hA).2) hk'.le, mul_one, add_zero] at this
    rw [this]
    exact hv r

end Piecewise.WF

end Flt

end CE
