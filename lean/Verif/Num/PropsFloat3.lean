import Verif.Num.LemFloat3
import Verif.Num.PropsFloat2

/-!
# Property C114: `discretize` with rounding errors
-/

open Polynomial

namespace CE

namespace Flt

variable {f : Flt}

/-- **C114 (partial)** `discretize(step)` with rounding errors never fails its assertion, as long as the numbers of samples are floating point
numbers.  On each interval `[a, b]` the relative samples `σ` ascend from 0 to 1; the first sample is exactly `a`, the samples ascend, they are at
most `step` apart up to rounding errors, each is close to the point `a + σ * (b - a)`; and `y` holds the values of the interval's polynomial at
`σ` up to rounding errors, which are exactly the stored values at both ends if 0 and 1 are nodes.
Missing from the full claim (C16): the last sample is `b`, and the samples ascend also from one interval to the next
(`C114_end_refuted`). -/
theorem C114_discretize_partial (pp : Piecewise) (tau : List ℝ) (R : ℕ) (w : pp.WF f tau R) (hfl : ∀ t ∈ pp.intervals, f.IsFl t) (step : ℝ)
    (hs : 0 < step) (hnat : ∀ n, n + 1 < pp.intervals.length → ∀ m : ℕ,
      (m : ℝ) < f.rnd (1 / f.rnd (step / f.rnd (nd pp.intervals (n + 1) - nd pp.intervals n))) → f.IsFl m) :
    ∃ x y, ∃ o : ℕ → ℕ, ∃ σ : ℕ → ℝ, f.discretize pp step = .ok (x, y) ∧ y.rows = R ∧ y.cols = x.length ∧
      o 0 = 0 ∧ o (pp.intervals.length - 1) = x.length ∧ nd x 0 = nd pp.intervals 0 ∧
      ∀ n, n + 1 < pp.intervals.length →
        let a := nd pp.intervals n
        let b := nd pp.intervals (n + 1)
        o n + 2 ≤ o (n + 1) ∧ σ (o n) = 0 ∧ σ (o (n + 1) - 1) = 1 ∧ nd x (o n) = a ∧
        (∀ k, o n ≤ k → k < o (n + 1) → a ≤ nd x k ∧ 0 ≤ σ k ∧ σ k ≤ 1 ∧
          |nd x k - (a + σ k * (b - a))| ≤ (1 / (1 - f.u) ^ 3 - 1) * (|a| + (b - a))) ∧
        (∀ k, o n ≤ k → k + 1 < o (n + 1) → σ k ≤ σ (k + 1) ∧ nd x k ≤ nd x (k + 1) ∧
          nd x (k + 1) - nd x k ≤ step + 4 * (1 / (1 - f.u) ^ 6 - 1) * (|a| + (b - a))) ∧
        ∃ c, pp.coefficients[n]? = some c ∧ ∀ k, o n ≤ k → k < o (n + 1) → ∀ r (P : ℝ[X]), P.degree < tau.length →
          (∀ j < tau.length, P.eval (nd tau j) = c.e r j) →
          (let ℓ := fun j => (Lagrange.basis (Finset.range tau.length) (nd tau) j).eval (σ k)
           let E := (1 / (1 - f.u) ^ (3 * tau.length + 1) - 1) * ∑ j ∈ Finset.range tau.length, |ℓ j|
           E < 1 → |y.e r k - P.eval (σ k)| ≤
            (1 / (1 - f.u) ^ tau.length * (1 + 2 * E / (1 - E)) - 1) * ∑ j ∈ Finset.range tau.length, |c.e r j * ℓ j|) ∧
          ((∀ j < tau.length, f.IsFl (c.e r j)) → ∀ j < tau.length, σ k = nd tau j → y.e r k = c.e r j) := by
  obtain ⟨x, y, o, σ, h1, h2, h3, h4, h5, h6⟩ := w.discretize_ok hs hnat
  have first : ∀ n, n + 1 < pp.intervals.length → nd x (o n) = nd pp.intervals n := by
    intro n hn
    obtain ⟨b1, b2, -, b4, -⟩ := h6 n hn
    rw [(b4 (o n) le_rfl (by omega)).2.2, b2, zero_mul, f.zero, add_zero]
    apply hfl
    rw [nd_eq_getElem (by omega : n < pp.intervals.length)]
    exact List.getElem_mem _
  refine ⟨x, y, o, σ, h1, h2, h3, h4, h5, ?_, fun n hn => ?_⟩
  · have := first 0 (by have := w.two; omega)
    rwa [h4] at this
  intro a b
  obtain ⟨b1, b2, b3, b4, b5, c, b6, b7⟩ := h6 n hn
  have hab : 0 < b - a := sub_pos.mpr (w.asc n hn)
  have hh : 0 < f.rnd (b - a) := Rounding.rnd_pos hab
  have err : ∀ k, o n ≤ k → k < o (n + 1) → |nd x k - (a + σ k * (b - a))| ≤ f.γ 3 * (|a| + (b - a)) := by
    intro k hk1 hk2
    obtain ⟨s0, s1, hx⟩ := b4 k hk1 hk2
    have r1 : f.Rel 2 (f.rnd (σ k * f.rnd (b - a))) (σ k * (b - a)) :=
      (Rounding.Rel.rnd _).trans ((Rounding.Rel.refl (R := f.toRounding) (σ k)).mul (Rounding.Rel.rnd _))
    have e1 := r1.abs_sub
    have e2 : |nd x k - (a + f.rnd (σ k * f.rnd (b - a)))| ≤ f.γ 1 * |a + f.rnd (σ k * f.rnd (b - a))| := by
      rw [hx]
      exact (Rounding.Rel.rnd (R := f.toRounding) _).abs_sub
    have e3 : |a + f.rnd (σ k * f.rnd (b - a))| ≤ |a| + (1 + f.γ 2) * |σ k * (b - a)| := (abs_add_le _ _).trans (by linarith [r1.abs_le])
    have e4 : |σ k * (b - a)| ≤ b - a := by
      rw [abs_of_nonneg (mul_nonneg s0 hab.le)]
      exact mul_le_of_le_one_left hab.le s1
    have g1 := f.γ_nonneg 1
    have g2 := f.γ_nonneg 2
    have g3 := f.one_add_γ_add 1 2
    have g13 : f.γ 1 ≤ f.γ 3 := f.γ_mono (by omega)
    have e5 := mul_le_mul_of_nonneg_left e3 g1
    have e6 := mul_le_mul_of_nonneg_left e4 (f.γ_nonneg 3)
    have e7 := mul_le_mul_of_nonneg_right g13 (abs_nonneg a)
    have e8 : f.γ 1 * (|a| + (1 + f.γ 2) * |σ k * (b - a)|) + f.γ 2 * |σ k * (b - a)| = f.γ 1 * |a| + f.γ 3 * |σ k * (b - a)| := by
      have : f.γ 3 = f.γ 1 * (1 + f.γ 2) + f.γ 2 := by linarith
      rw [this]
      ring
    have e9 := abs_sub_le (nd x k) (a + f.rnd (σ k * f.rnd (b - a))) (a + σ k * (b - a))
    rw [add_sub_add_left_eq_sub] at e9
    linarith
  have mono : ∀ k, o n ≤ k → k + 1 < o (n + 1) → nd x k ≤ nd x (k + 1) := by
    intro k hk1 hk2
    rw [(b4 k hk1 (by omega)).2.2, (b4 (k + 1) (by omega) hk2).2.2]
    refine f.mono (add_le_add le_rfl (f.mono ?_))
    exact mul_le_mul_of_nonneg_right (b5 k hk1 hk2).1 hh.le
  have lower : ∀ k, o n ≤ k → k < o (n + 1) → a ≤ nd x k := by
    intro k hk1 hk2
    obtain ⟨s0, -, hx⟩ := b4 k hk1 hk2
    rw [hx]
    refine Rounding.le_rnd_of_isFl ?_ (le_add_of_nonneg_right (Rounding.rnd_nonneg (mul_nonneg s0 hh.le)))
    apply hfl
    show nd pp.intervals n ∈ _
    rw [nd_eq_getElem (by omega : n < pp.intervals.length)]
    exact List.getElem_mem _
  refine ⟨b1, b2, b3, first n hn, fun k hk1 hk2 => ⟨lower k hk1 hk2, (b4 k hk1 hk2).1, (b4 k hk1 hk2).2.1, err k hk1 hk2⟩,
    fun k hk1 hk2 => ⟨(b5 k hk1 hk2).1, mono k hk1 hk2, ?_⟩, c, b6, fun k hk1 hk2 r P hP hPv => ⟨fun hE => ?_, (b7 k hk1 hk2 r).2⟩⟩
  · have e1 := (abs_le.mp (err k hk1 (by omega))).1
    have e2 := (abs_le.mp (err (k + 1) (by omega) hk2)).2
    have e3 := mul_le_mul_of_nonneg_right (b5 k hk1 hk2).2 hab.le
    have e4 : step / (b - a) * (b - a) = step := by field_simp
    have g3 : f.γ 3 ≤ f.γ 6 := f.γ_mono (by omega)
    have e5 := mul_le_mul_of_nonneg_right g3 (by positivity : 0 ≤ |a| + (b - a))
    have e6 := mul_le_mul_of_nonneg_left (le_add_of_nonneg_left (abs_nonneg a) : b - a ≤ |a| + (b - a)) (f.γ_nonneg 6)
    have e7 : (σ (k + 1) - σ k) * (b - a) ≤ (step / (b - a) + 2 * f.γ 6) * (b - a) := e3
    rw [add_mul, e4] at e7
    have : nd x (k + 1) - nd x k ≤ step + 4 * f.γ 6 * (|a| + (b - a)) := by linarith
    exact this
  · have h5 := (b7 k hk1 hk2 r).1 hE
    rw [← sum_mul_basis_eval w.nodup hP (σ k)]
    rw [Finset.sum_congr rfl fun j hj => by rw [hPv j (Finset.mem_range.mp hj), mul_comm]]
    refine h5.trans (le_of_eq ?_)
    unfold evalBound
    rw [f.one_add_γ]
    rfl

theorem tenth_fl : double.IsFl tenth := by
  have := roundTo_fix (p := 53) (by norm_num) 3602879701896397 (-55) (by norm_num)
  have e : ((3602879701896397 : ℤ) : ℝ) * 2 ^ (-55 : ℤ) = tenth := by
    unfold tenth
    norm_num
  rw [e] at this
  exact this

theorem exPw_fl : ∀ t ∈ exPw.intervals, double.IsFl t := by
  intro t ht
  simp only [exPw, List.mem_cons, List.not_mem_nil, or_false] at ht
  rcases ht with rfl | rfl | rfl
  · have := roundTo_fix (p := 53) (by norm_num) (-1) 0 (by norm_num)
    have e : roundTo 53 (-1) = -1 := by simpa using this
    exact e
  · exact tenth_fl
  · exact double.one

theorem exPw_first : double.rnd (tenth - -1) = 2476979795053773 / 2 ^ 51 := by
  have := roundTo_eq (p := 53) (x := tenth - -1) 0 4953959590107546 (by unfold tenth; rw [abs_of_pos] <;> norm_num)
    (by unfold tenth; rw [abs_of_pos] <;> norm_num) (by unfold tenth; rw [abs_lt]; constructor <;> norm_num)
  show roundTo 53 _ = _
  rw [this]
  norm_num

/-- The end of the first interval as computed: `0.10000000000000009`. -/
theorem exPw_end : double.rnd (-1 + double.rnd (1 * double.rnd (tenth - -1))) = 225179981368525 / 2 ^ 51 := by
  rw [one_mul, double.idem, exPw_first]
  have := roundTo_fix (p := 53) (by norm_num) 225179981368525 (-51) (by norm_num)
  have e : ((225179981368525 : ℤ) : ℝ) * 2 ^ (-51 : ℤ) = -1 + 2476979795053773 / 2 ^ 51 := by norm_num
  rw [e] at this
  show roundTo 53 _ = _
  rw [this]
  norm_num

/-- **C114** The claims of C16 about the ends fail for doubles: between the intervals from -1 to 0.1 and from 0.1 to 1, whatever the step, the
last sample of the first interval is `0.10000000000000009`; it is not the end of the interval, it lies beyond it, and the next sample is
smaller. -/
theorem C114_end_refuted (step : ℝ) (hs : 0 < step)
    (hnat : ∀ n, n + 1 < exPw.intervals.length → ∀ m : ℕ,
      (m : ℝ) < double.rnd (1 / double.rnd (step / double.rnd (nd exPw.intervals (n + 1) - nd exPw.intervals n))) → double.IsFl m) :
    ∃ x y k, double.discretize exPw step = .ok (x, y) ∧ k + 1 < x.length ∧ nd x (k + 1) = tenth ∧ nd x k = 225179981368525 / 2 ^ 51 ∧
      nd x (k + 1) < nd x k := by
  obtain ⟨x, y, o, σ, h1, -, -, -, h5, h6⟩ := exPw_wf.discretize_ok hs hnat
  obtain ⟨b1, b2, b3, b4, -⟩ := h6 0 (by simp [exPw])
  obtain ⟨c1, c2, -, c4, -⟩ := h6 1 (by simp [exPw])
  have h5 : o 2 = x.length := h5
  simp only [zero_add, Nat.reduceAdd] at b1 b3 b4 c1
  have e1 := (b4 (o 1 - 1) (by omega) (by omega)).2.2
  rw [b3] at e1
  have e2 := (c4 (o 1) le_rfl (by simp only [Nat.reduceAdd]; omega)).2.2
  rw [c2, zero_mul, double.zero, add_zero, show nd exPw.intervals 1 = tenth from rfl, tenth_fl] at e2
  have e3 : nd x (o 1 - 1) = 225179981368525 / 2 ^ 51 := e1.trans exPw_end
  refine ⟨x, y, o 1 - 1, h1, by omega, ?_, e3, ?_⟩
  · rw [show o 1 - 1 + 1 = o 1 by omega, e2]
  · rw [show o 1 - 1 + 1 = o 1 by omega, e2, e3]
    unfold tenth
    norm_num

/-- In the example, with the step 2. -/
theorem exPw_nat : ∀ n, n + 1 < exPw.intervals.length → ∀ m : ℕ,
    (m : ℝ) < double.rnd (1 / double.rnd (2 / double.rnd (nd exPw.intervals (n + 1) - nd exPw.intervals n))) → double.IsFl m := by
  intro n hn m hm
  have hn2 : n = 0 ∨ n = 1 := by simp [exPw] at hn; omega
  have h0 : 0 < nd exPw.intervals (n + 1) - nd exPw.intervals n := sub_pos.mpr (exPw_wf.asc n hn)
  have h1 : nd exPw.intervals (n + 1) - nd exPw.intervals n ≤ 2 := by
    rcases hn2 with rfl | rfl <;> simp [exPw, nd, tenth] <;> norm_num
  have two : double.IsFl 2 := by exact_mod_cast double_nat (m := 2) (by norm_num)
  have h2 : double.rnd (nd exPw.intervals (n + 1) - nd exPw.intervals n) ≤ 2 := Rounding.rnd_le_of_isFl two h1
  have h3 := Rounding.rnd_pos (R := double.toRounding) h0
  have h4 : 1 ≤ double.rnd (2 / double.rnd (nd exPw.intervals (n + 1) - nd exPw.intervals n)) :=
    Rounding.le_rnd_of_isFl Rounding.isFl_one ((one_le_div h3).mpr h2)
  have h5 : double.rnd (1 / double.rnd (2 / double.rnd (nd exPw.intervals (n + 1) - nd exPw.intervals n))) ≤ 1 :=
    Rounding.rnd_le_of_isFl Rounding.isFl_one ((div_le_one (by linarith)).mpr h4)
  have h6 : (m : ℝ) < 1 := lt_of_lt_of_le hm h5
  have h7 : m = 0 := by
    have : m < 1 := by exact_mod_cast h6
    omega
  rw [h7]
  exact double_nat (by norm_num)

example : ∃ x y k, double.discretize exPw 2 = .ok (x, y) ∧ k + 1 < x.length ∧ nd x (k + 1) < nd x k := by
  obtain ⟨x, y, k, h1, h2, -, -, h3⟩ := C114_end_refuted 2 two_pos exPw_nat
  exact ⟨x, y, k, h1, h2, h3⟩

example : ∃ x y, ∃ o : ℕ → ℕ, double.discretize exPw 2 = .ok (x, y) ∧ nd x 0 = -1 ∧ nd x (o 1) = tenth ∧ nd x (o 1 - 1) - tenth ≤ 10 / 2 ^ 53 ∧
    y.e 0 0 = 2 ∧ y.e 0 (o 1 - 1) = 5 ∧ y.e 0 (o 1) = 5 := by
  obtain ⟨x, y, o, σ, h1, -, -, h4, h5, h6, h7⟩ := C114_discretize_partial exPw [0, 1] 1 exPw_wf exPw_fl 2 two_pos exPw_nat
  obtain ⟨b1, b2, b3, b4, b5, -, c, hc, b7⟩ := h7 0 (by simp [exPw])
  obtain ⟨c1, c2, -, c4, -, -, c', hc', c7⟩ := h7 1 (by simp [exPw])
  cases hc
  cases hc'
  simp only [zero_add, Nat.reduceAdd] at b1 b3 b5 b7 c1 c7
  have fl : ∀ v : ℕ → ℝ, (∀ j < 2, ∃ m : ℕ, m ≤ 2 ^ 53 ∧ v j = m) → ∀ j < 2, double.IsFl (v j) := by
    intro v h j hj
    obtain ⟨m, hm, e⟩ := h j hj
    rw [e]
    exact double_nat hm
  have ex : ∀ u v : ℝ, ∃ P : ℝ[X], P.degree < ((2 : ℕ) : WithBot ℕ) ∧ ∀ j < 2, P.eval (nd [(0 : ℝ), 1] j) = nd [u, v] j := by
    intro u v
    refine ⟨C u + C (v - u) * X, ?_, ?_⟩
    · refine lt_of_le_of_lt (degree_add_le _ _) ?_
      rw [max_lt_iff]
      refine ⟨lt_of_le_of_lt degree_C_le (by norm_num), lt_of_le_of_lt (degree_C_mul_X_le _) ?_⟩
      exact_mod_cast (by norm_num : (1 : ℕ) < 2)
    · intro j hj
      have : j = 0 ∨ j = 1 := by omega
      rcases this with rfl | rfl <;> simp [nd]
  have fl25 : ∀ j < 2, double.IsFl (nd [(2 : ℝ), 5] j) := fl _ fun j hj => by
    have : j = 0 ∨ j = 1 := by omega
    rcases this with rfl | rfl
    · exact ⟨2, by norm_num, by simp [nd]⟩
    · exact ⟨5, by norm_num, by simp [nd]⟩
  have fl56 : ∀ j < 2, double.IsFl (nd [(5 : ℝ), 6] j) := fl _ fun j hj => by
    have : j = 0 ∨ j = 1 := by omega
    rcases this with rfl | rfl
    · exact ⟨5, by norm_num, by simp [nd]⟩
    · exact ⟨6, by norm_num, by simp [nd]⟩
  obtain ⟨P, hP, hPv⟩ := ex 2 5
  obtain ⟨Q, hQ, hQv⟩ := ex 5 6
  refine ⟨x, y, o, h1, h6, c4, ?_, ?_, ?_, ?_⟩
  · have e := (b5 (o 1 - 1) (by omega) (by omega)).2.2.2
    rw [b3, show double.u = 1 / 2 ^ 53 from rfl, one_mul, add_sub_cancel] at e
    refine (le_abs_self _).trans (e.trans ?_)
    simp only [exPw, nd, tenth, List.getD_cons_zero, List.getD_cons_succ]
    norm_num
  · have := (b7 0 (by omega) (by omega) 0 P hP hPv).2 fl25 0 (by simp) ((congrArg σ h4.symm).trans b2)
    simpa [nd] using this
  · have := (b7 (o 1 - 1) (by omega) (by omega) 0 P hP hPv).2 fl25 1 (by simp) (by rw [b3]; rfl)
    simpa [nd] using this
  · have := (c7 (o 1) (by omega) (by omega) 0 Q hQ hQv).2 fl56 0 (by simp) (by rw [c2]; rfl)
    simpa [nd] using this

/-! ## Exact arithmetic is the rounding with `u = 0` -/

theorem matDot_exact (h : f.u = 0) (A B : Mat ℝ) : f.matDot A B = Mat.dot A B := by
  have e : f.dot A B = fun i j => ∑ k ∈ Finset.range A.cols, A.e i k * B.e k j := by
    funext i j
    have := f.toRounding.dotOf_err (f.dot_spec A B i j)
    rw [γ_exact h, zero_mul, List.map_map, list_range_sum] at this
    exact sub_eq_zero.mp (abs_eq_zero.mp (le_antisymm this (abs_nonneg _)))
  unfold matDot Mat.dot
  rw [e]

/-- **C114** With `u = 0` evaluation and discretization are those of the exact model. -/
theorem C114_exact (h : f.u = 0) (tau : List ℝ) (hne : tau ≠ []) (iv : List ℝ) (cs : List (Mat ℝ)) :
    ∃ b b', f.polynomialBasis tau = .ok b ∧ CE.polynomialBasis tau = .ok b' ∧
      (∀ t m, f.call ⟨iv, cs, b⟩ t m = PiecewisePoly.call ⟨iv, cs, b'⟩ t m) ∧
      ∀ step, f.discretize ⟨iv, cs, b⟩ step = PiecewisePoly.discretize ⟨iv, cs, b'⟩ step := by
  obtain ⟨b, b', h1, h2, -⟩ := C111_exact h tau hne []
  have hi : ∀ t, f.interpolationMatrix b t = b'.interpolationMatrix t := by
    intro t
    obtain ⟨d, d', g1, g2, -, -, -, g3⟩ := C111_exact h tau hne t
    rw [h1] at g1
    rw [h2] at g2
    cases g1
    cases g2
    exact g3
  refine ⟨b, b', h1, h2, fun t m => ?_, fun step => ?_⟩
  · unfold call PiecewisePoly.call
    have : ∀ side, f.callAt ⟨iv, cs, b⟩ side = PiecewisePoly.callAt ⟨iv, cs, b'⟩ side := by
      intro side
      funext ti
      unfold callAt PiecewisePoly.callAt
      simp only [rnd_exact h, hi, matDot_exact h]
    simp only [this]
    cases PiecewisePoly.parseSide m <;> rfl
  · unfold discretize PiecewisePoly.discretize
    have : f.discretizeAt ⟨iv, cs, b⟩ step = PiecewisePoly.discretizeAt ⟨iv, cs, b'⟩ step := by
      funext i
      unfold discretizeAt PiecewisePoly.discretizeAt arange01 CE.arange01
      simp only [rnd_exact h, hi, matDot_exact h]
    simp only [this]
    rfl

example : ∃ b b', exactRounding.seq.polynomialBasis [0, 1] = .ok b ∧ CE.polynomialBasis [(0 : ℝ), 1] = .ok b' ∧
    exactRounding.seq.discretize ⟨[-1, tenth], [⟨1, 2, fun _ j => nd [2, 5] j⟩], b⟩ (1 / 3) =
      PiecewisePoly.discretize ⟨[-1, tenth], [⟨1, 2, fun _ j => nd [2, 5] j⟩], b'⟩ (1 / 3) := by
  obtain ⟨b, b', h1, h2, -, h3⟩ := C114_exact (f := exactRounding.seq) rfl [0, 1] (by simp) [-1, tenth] [⟨1, 2, fun _ j => nd [2, 5] j⟩]
  exact ⟨b, b', h1, h2, h3 _⟩

end Flt

end CE
