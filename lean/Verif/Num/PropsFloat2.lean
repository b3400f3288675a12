import Verif.Num.LemFloat2
import Mathlib.Analysis.Calculus.MeanValue
import Mathlib.Analysis.Calculus.Deriv.Polynomial

/-!
# Property C113: evaluation of piecewise polynomials with rounding errors
-/

open Polynomial

namespace CE

namespace Flt

variable {f : Flt}

/-- **C113** `pp(t, continuity)` with rounding errors: for each point the interval is the same as in exact arithmetic; the computed local
coordinate `σ` is accurate relative to the exact one, `s`, it stays in `[0, 1]` for points of the interval, and it is exact at both ends; and
the value is that of the interval's polynomial at `σ` up to rounding errors of the interpolation (C111) and of the inner product, or exactly the
stored value if `σ` is a node. -/
theorem C113_call (pp : Piecewise) (tau : List ℝ) (R : ℕ) (w : pp.WF f tau R) (cont : String) (side : Side)
    (hs : PiecewisePoly.parseSide cont = .ok side) (t : List ℝ) (ht : t ≠ []) :
    ∃ V, f.call pp t cont = .ok V ∧ V.rows = R ∧ V.cols = t.length ∧
      ∀ k < t.length, ∀ n, InSide side pp.intervals n (nd t k) → ∃ c σ, pp.coefficients[n]? = some c ∧
        (let s := (nd t k - nd pp.intervals n) / (nd pp.intervals (n + 1) - nd pp.intervals n)
         |σ - s| ≤ (1 / (1 - f.u) ^ 3 - 1) * |s| ∧ (0 ≤ s → 0 ≤ σ) ∧ (s ≤ 1 → σ ≤ 1) ∧ (s = 0 → σ = 0) ∧ (s = 1 → σ = 1)) ∧
        ∀ r (P : ℝ[X]), P.degree < tau.length → (∀ j < tau.length, P.eval (nd tau j) = c.e r j) →
          (let ℓ := fun j => (Lagrange.basis (Finset.range tau.length) (nd tau) j).eval σ
           let E := (1 / (1 - f.u) ^ (3 * tau.length + 1) - 1) * ∑ j ∈ Finset.range tau.length, |ℓ j|
           E < 1 → |V.e r k - P.eval σ| ≤
            (1 / (1 - f.u) ^ tau.length * (1 + 2 * E / (1 - E)) - 1) * ∑ j ∈ Finset.range tau.length, |c.e r j * ℓ j|) ∧
          ((∀ j < tau.length, f.IsFl (c.e r j)) → ∀ j < tau.length, σ = nd tau j → V.e r k = c.e r j) := by
  obtain ⟨V, h1, h2, h3, h4⟩ := w.call_ok cont side hs t ht
  refine ⟨V, h1, h2, h3, fun k hk n hn => ?_⟩
  obtain ⟨c, hc, hv⟩ := h4 k hk n hn
  have hn1 : n + 1 < pp.intervals.length := by cases side <;> exact hn.1
  have hlt := w.asc n hn1
  have hpos := sub_pos.mpr hlt
  obtain ⟨l1, l2, l3, l4, l5⟩ := Piecewise.WF.local_ok (f := f) hlt (nd t k)
  refine ⟨c, _, hc, ⟨l1, fun h => l2 ?_, fun h => l3 ?_, fun h => l4 ?_, fun h => l5 ?_⟩, fun r P hP hPv => ⟨fun hE => ?_, (hv r).2⟩⟩
  · rcases div_nonneg_iff.mp h with ⟨h, -⟩ | ⟨-, h⟩ <;> linarith
  · rw [div_le_one hpos] at h
    linarith
  · rw [div_eq_zero_iff] at h
    rcases h with h | h <;> linarith
  · rw [div_eq_one_iff_eq hpos.ne'] at h
    linarith
  · have h5 := (hv r).1 hE
    have h6 := sum_mul_basis_eval w.nodup hP (f.rnd (f.rnd (nd t k - nd pp.intervals n) / f.rnd (nd pp.intervals (n + 1) - nd pp.intervals n)))
    rw [← h6]
    rw [Finset.sum_congr rfl fun j hj => by rw [hPv j (Finset.mem_range.mp hj), mul_comm]]
    refine h5.trans (le_of_eq ?_)
    unfold evalBound
    rw [f.one_add_γ]
    rfl

/-- **C113** If 0 and 1 are nodes and the stored values are floating point numbers, then the value at the beginning of an interval (mode
'right') and at its end (mode 'left', and for the last interval also 'right') is exactly the stored one. -/
theorem C113_ends (pp : Piecewise) (tau : List ℝ) (R : ℕ) (w : pp.WF f tau R) (n : ℕ) (c : Mat ℝ) (hc : pp.coefficients[n]? = some c)
    (hfl : ∀ r, ∀ j < tau.length, f.IsFl (c.e r j)) (j : ℕ) (hj : j < tau.length) :
    (nd tau j = 0 → ∃ V, f.call pp [nd pp.intervals n] = .ok V ∧ ∀ r, V.e r 0 = c.e r j) ∧
    (nd tau j = 1 → ∃ V, f.call pp [nd pp.intervals (n + 1)] "left" = .ok V ∧ ∀ r, V.e r 0 = c.e r j) ∧
    (nd tau j = 1 → n + 2 = pp.intervals.length → ∃ V, f.call pp [nd pp.intervals (n + 1)] = .ok V ∧ ∀ r, V.e r 0 = c.e r j) := by
  have hn' : n < pp.coefficients.length := by
    by_contra h
    rw [List.getElem?_eq_none (by omega)] at hc
    cases hc
  have hn : n + 1 < pp.intervals.length := by have := w.len; omega
  have hlt := w.asc n hn
  have key : ∀ (cont : String) (side : Side), PiecewisePoly.parseSide cont = .ok side → ∀ t,
      InSide side pp.intervals n t → (t = nd pp.intervals n ∧ nd tau j = 0 ∨ t = nd pp.intervals (n + 1) ∧ nd tau j = 1) →
      ∃ V, f.call pp [t] cont = .ok V ∧ ∀ r, V.e r 0 = c.e r j := by
    intro cont side hs t hin h
    obtain ⟨V, h1, -, -, h4⟩ := w.call_ok cont side hs [t] (by simp)
    obtain ⟨c', hc', hv⟩ := h4 0 (by simp) n hin
    rw [hc] at hc'
    cases hc'
    obtain ⟨-, -, -, l4, l5⟩ := Piecewise.WF.local_ok (f := f) hlt t
    refine ⟨V, h1, fun r => (hv r).2 (hfl r) j hj ?_⟩
    rcases h with ⟨h, h'⟩ | ⟨h, h'⟩
    · rw [h']
      exact l4 h
    · rw [h']
      exact l5 h
  refine ⟨fun h => key "right" .right rfl _ ⟨hn, Or.inr le_rfl, Or.inr hlt⟩ (Or.inl ⟨rfl, h⟩),
    fun h => key "left" .left rfl _ ⟨hn, Or.inr hlt, Or.inr le_rfl⟩ (Or.inr ⟨rfl, h⟩),
    fun h h2 => key "right" .right rfl _ ⟨hn, Or.inr hlt.le, Or.inl h2⟩ (Or.inr ⟨rfl, h⟩)⟩

/-- **C113** Total error at points of intervals, for values bounded by `C`, the Lebesgue constant `Λ` of the nodes, and a bound `M` of the
derivative of the polynomial on the unit interval. -/
theorem C113_forward (pp : Piecewise) (tau : List ℝ) (R : ℕ) (w : pp.WF f tau R) (cont : String) (side : Side)
    (hs : PiecewisePoly.parseSide cont = .ok side) (ts : List ℝ) (hts : ts ≠ [])
    (Λ : ℝ) (hΛ : ∀ x, 0 ≤ x → x ≤ 1 →
      ∑ j ∈ Finset.range tau.length, |(Lagrange.basis (Finset.range tau.length) (nd tau) j).eval x| ≤ Λ)
    (hE : (1 / (1 - f.u) ^ (3 * tau.length + 1) - 1) * Λ < 1) :
    ∃ V, f.call pp ts cont = .ok V ∧ V.rows = R ∧ V.cols = ts.length ∧ ∀ k < ts.length, ∀ n, InSide side pp.intervals n (nd ts k) →
      nd pp.intervals n ≤ nd ts k → nd ts k ≤ nd pp.intervals (n + 1) → ∀ c, pp.coefficients[n]? = some c →
      ∀ r (P : ℝ[X]) (C M : ℝ), P.degree < tau.length →
      (∀ j < tau.length, P.eval (nd tau j) = c.e r j) → (∀ j < tau.length, |c.e r j| ≤ C) →
      (∀ x, 0 ≤ x → x ≤ 1 → |(derivative P).eval x| ≤ M) →
      let E := (1 / (1 - f.u) ^ (3 * tau.length + 1) - 1) * Λ
      |V.e r k - P.eval ((nd ts k - nd pp.intervals n) / (nd pp.intervals (n + 1) - nd pp.intervals n))| ≤
        (1 / (1 - f.u) ^ tau.length * (1 + 2 * E / (1 - E)) - 1) * (C * Λ) + (1 / (1 - f.u) ^ 3 - 1) * M := by
  obtain ⟨V, h1, hVr, hVc, h4⟩ := C113_call pp tau R w cont side hs ts hts
  refine ⟨V, h1, hVr, hVc, fun k hk n hin ha hb c hc r P C M hP hPv hC hM => ?_⟩
  obtain ⟨c', σ, hc', ⟨l1, l2, l3, -, -⟩, hv⟩ := h4 k hk n hin
  rw [hc] at hc'
  cases hc'
  have hn1 : n + 1 < pp.intervals.length := by cases side <;> exact hin.1
  have hpos := sub_pos.mpr (w.asc n hn1)
  intro E
  generalize nd ts k = t at *
  set s := (t - nd pp.intervals n) / (nd pp.intervals (n + 1) - nd pp.intervals n) with hsd
  have s0 : 0 ≤ s := div_nonneg (by linarith) hpos.le
  have s1 : s ≤ 1 := (div_le_one hpos).mpr (by linarith)
  have σ0 := l2 s0
  have σ1 := l3 s1
  have hΛσ := hΛ σ σ0 σ1
  have hγ : 0 ≤ 1 / (1 - f.u) ^ (3 * tau.length + 1) - 1 := f.γ_nonneg _
  have hγn : 1 ≤ 1 / (1 - f.u) ^ tau.length := by have := f.γ_nonneg tau.length; unfold Rounding.γ at this; linarith
  set S := ∑ j ∈ Finset.range tau.length, |(Lagrange.basis (Finset.range tau.length) (nd tau) j).eval σ| with hS
  have hS0 : 0 ≤ S := Finset.sum_nonneg fun _ _ => abs_nonneg _
  have hle : (1 / (1 - f.u) ^ (3 * tau.length + 1) - 1) * S ≤ E := mul_le_mul_of_nonneg_left hΛσ hγ
  have hE1 : E < 1 := hE
  have hE0 : 0 ≤ (1 / (1 - f.u) ^ (3 * tau.length + 1) - 1) * S := mul_nonneg hγ hS0
  have h5 := (hv r P hP hPv).1 (by exact lt_of_le_of_lt hle hE1)
  simp only [← hS] at h5
  have hC0 : 0 ≤ C := by
    have := hC 0 (List.length_pos_iff.mpr w.ne)
    exact (abs_nonneg _).trans this
  have h6 : ∑ j ∈ Finset.range tau.length, |c.e r j * (Lagrange.basis (Finset.range tau.length) (nd tau) j).eval σ| ≤ C * Λ := by
    refine le_trans ?_ (mul_le_mul_of_nonneg_left hΛσ hC0)
    rw [hS, Finset.mul_sum]
    refine Finset.sum_le_sum fun j hj => ?_
    rw [abs_mul]
    exact mul_le_mul_of_nonneg_right (hC j (Finset.mem_range.mp hj)) (abs_nonneg _)
  have h7 : 2 * ((1 / (1 - f.u) ^ (3 * tau.length + 1) - 1) * S) / (1 - (1 / (1 - f.u) ^ (3 * tau.length + 1) - 1) * S) ≤ 2 * E / (1 - E) :=
    div_le_div₀ (by linarith) (by linarith) (by linarith) (by linarith)
  have h8 : |V.e r k - P.eval σ| ≤ (1 / (1 - f.u) ^ tau.length * (1 + 2 * E / (1 - E)) - 1) * (C * Λ) := by
    refine h5.trans (mul_le_mul ?_ h6 (Finset.sum_nonneg fun _ _ => abs_nonneg _) ?_)
    · have := mul_le_mul_of_nonneg_left h7 (by linarith : 0 ≤ 1 / (1 - f.u) ^ tau.length)
      linarith
    · have h9 : 0 ≤ 2 * E / (1 - E) := div_nonneg (by linarith) (by linarith)
      have := mul_le_mul hγn (by linarith : 1 ≤ 1 + 2 * E / (1 - E)) (by norm_num) (by linarith)
      linarith
  have h9 : |P.eval σ - P.eval s| ≤ M * |σ - s| := by
    have := (convex_Icc (0 : ℝ) 1).norm_image_sub_le_of_norm_hasDerivWithin_le (f := fun x => P.eval x) (f' := fun x => (derivative P).eval x)
      (C := M) (fun x _ => (P.hasDerivAt x).hasDerivWithinAt) (fun x hx => by simpa using hM x hx.1 hx.2) ⟨s0, s1⟩ ⟨σ0, σ1⟩
    simpa using this
  have hM0 : 0 ≤ M := (abs_nonneg _).trans (hM 0 le_rfl zero_le_one)
  have hγ3 : 0 ≤ 1 / (1 - f.u) ^ 3 - 1 := f.γ_nonneg 3
  have h10 : |σ - s| ≤ 1 / (1 - f.u) ^ 3 - 1 := by
    refine l1.trans ?_
    rw [abs_of_nonneg s0]
    exact mul_le_of_le_one_right hγ3 s1
  have h11 := mul_le_mul_of_nonneg_left h10 hM0
  refine (abs_sub_le _ (P.eval σ) _).trans ?_
  linarith

/-! ## An example with doubles -/

/-- The double nearest to `0.1`. -/
noncomputable def tenth : ℝ := 3602879701896397 / 2 ^ 55

/-- A piecewise linear function on the intervals from -1 to 0.1 and from 0.1 to 1, with the values 2, 5 and 6. -/
noncomputable def exPw : Piecewise :=
  ⟨[-1, tenth, 1], [⟨1, 2, fun _ j => nd [2, 5] j⟩, ⟨1, 2, fun _ j => nd [5, 6] j⟩],
    ⟨[0, 1], ⟨2, 2, double.diffEntry [0, 1] ((List.range 2).map (double.lamAt [0, 1]))⟩, (List.range 2).map (double.lamAt [0, 1])⟩⟩

theorem exPw_wf : exPw.WF double [0, 1] 1 where
  ne := by simp
  nodup := by simp
  basis := double.polynomialBasis_ok (by simp)
  asc := by
    intro i hi
    simp only [exPw, List.length_cons, List.length_nil] at hi
    have : i = 0 ∨ i = 1 := by omega
    rcases this with rfl | rfl <;> simp [exPw, nd, tenth] <;> norm_num
  two := by simp [exPw]
  len := by simp [exPw]
  rows := by simp [exPw]
  cols := by simp [exPw]

theorem double_nat {m : ℕ} (h : m ≤ 2 ^ 53) : double.IsFl m := roundTo_nat (by norm_num) h

/-- At the ends of the first interval the values are exactly 2 and 5. -/
example : (∃ V, double.call exPw [-1] = .ok V ∧ V.e 0 0 = 2) ∧ ∃ V, double.call exPw [tenth] "left" = .ok V ∧ V.e 0 0 = 5 := by
  have hfl : ∀ r : ℕ, ∀ j < 2, double.IsFl ((⟨1, 2, fun _ j => nd [2, 5] j⟩ : Mat ℝ).e r j) := by
    intro r j hj
    have : j = 0 ∨ j = 1 := by omega
    rcases this with rfl | rfl
    · exact_mod_cast double_nat (m := 2) (by norm_num)
    · exact_mod_cast double_nat (m := 5) (by norm_num)
  have h := fun j hj => C113_ends exPw [0, 1] 1 exPw_wf 0 ⟨1, 2, fun _ j => nd [2, 5] j⟩ rfl hfl j hj
  obtain ⟨V, h1, h2⟩ := (h 0 (by simp)).1 rfl
  obtain ⟨V', h3, h4⟩ := (h 1 (by simp)).2.1 rfl
  exact ⟨⟨V, h1, h2 0⟩, ⟨V', h3, h4 0⟩⟩

/-- Between them the total error is below `100 * 2^-53`. -/
example (t : ℝ) (h0 : -1 ≤ t) (h1 : t < tenth) : ∃ V, double.call exPw [t] = .ok V ∧
    |V.e 0 0 - (2 + 3 * ((t + 1) / (tenth + 1)))| ≤ 100 / 2 ^ 53 := by
  have e0 : ∀ x, (Lagrange.basis (Finset.range 2) (nd [(0 : ℝ), 1]) 0).eval x = 1 - x := fun x => by
    simp [Lagrange.basis, Lagrange.basisDivisor, show (Finset.range 2).erase 0 = {1} by decide, nd]
  have e1 : ∀ x, (Lagrange.basis (Finset.range 2) (nd [(0 : ℝ), 1]) 1).eval x = x := fun x => by
    simp [Lagrange.basis, Lagrange.basisDivisor, show (Finset.range 2).erase 1 = {0} by decide, nd]
  obtain ⟨V, hV, -, -, h⟩ := C113_forward exPw [0, 1] 1 exPw_wf "right" .right rfl [t] (by simp) 1 (by
      intro x hx0 hx1
      simp only [List.length_cons, List.length_nil, Nat.reduceAdd, Finset.sum_range_succ, Finset.sum_range_zero, zero_add, e0, e1]
      rw [abs_of_nonneg hx0, abs_of_nonneg (by linarith)]
      linarith) (by
      rw [show double.u = 1 / 2 ^ 53 from rfl]
      norm_num)
  refine ⟨V, hV, ?_⟩
  have h2 := h 0 (by simp) 0 ⟨by simp [exPw], Or.inl rfl, Or.inr h1⟩ h0 h1.le ⟨1, 2, fun _ j => nd [2, 5] j⟩ rfl 0 (C 2 + C 3 * X) 5 3 (by
    refine lt_of_le_of_lt (degree_add_le _ _) ?_
    rw [max_lt_iff]
    refine ⟨lt_of_le_of_lt degree_C_le (by norm_num), lt_of_le_of_lt (degree_C_mul_X_le _) ?_⟩
    exact_mod_cast (by norm_num : (1 : ℕ) < 2)) (by
    intro j hj
    have : j = 0 ∨ j = 1 := by simp at hj; omega
    rcases this with rfl | rfl <;> simp [nd] <;> norm_num) (by
    intro j hj
    have : j = 0 ∨ j = 1 := by simp at hj; omega
    rcases this with rfl | rfl <;> simp [nd] <;> norm_num) (by
    intro x _ _
    simp)
  simp only [List.length_cons, List.length_nil, Nat.reduceAdd, Nat.reduceMul, show double.u = 1 / 2 ^ 53 from rfl, eval_add, eval_mul, eval_C,
    eval_X, show nd [t] 0 = t from rfl, show nd exPw.intervals 0 = -1 from rfl, show nd exPw.intervals (0 + 1) = tenth from rfl, sub_neg_eq_add] at h2
  exact h2.trans (by norm_num)

end Flt

end CE
