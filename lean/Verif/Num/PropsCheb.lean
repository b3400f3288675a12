import Verif.Num.Cheb
import Verif.Num.PropsPoly

/-!
# Properties C06, C07: Chebyshev grids

Specification vocabulary: `nd t i` is `t[i]`; `Polynomial ℝ`.
-/

open Polynomial

namespace CE

theorem chebyshevPoints_length (n : ℕ) : (chebyshevPoints n).length = n + 1 := by
  unfold chebyshevPoints; split
  · next h => subst h; rfl
  · simp

theorem nd_chebyshevPoints {n : ℕ} (hn : n ≠ 0) {i : ℕ} (hi : i ≤ n) :
    nd (chebyshevPoints n) i = (1 - Real.cos (Real.pi * i / n)) / 2 := by
  unfold chebyshevPoints
  rw [if_neg hn, nd_map_range]
  omega

/-- **C06** -/
theorem C06_chebyshev_points (ext : ℕ → String → Except PyErr (List ℝ)) (n : ℕ) :
    ∃ t, collocationPoints ext n "chebyshev" = .ok t ∧ t.length = n + 1 ∧ nd t 0 = 0 ∧
      (0 < n → nd t n = 1 ∧ (∀ i j, i < j → j ≤ n → nd t i < nd t j) ∧
        ∀ i ≤ n, nd t i + nd t (n - i) = 1) := by
  refine ⟨chebyshevPoints n, rfl, chebyshevPoints_length n, ?_, ?_⟩
  · by_cases hn : n = 0
    · subst hn; simp [chebyshevPoints, nd]
    · rw [nd_chebyshevPoints hn (Nat.zero_le _)]; simp
  · intro hpos
    have hn : n ≠ 0 := by omega
    have hn' : (0 : ℝ) < n := by exact_mod_cast hpos
    refine ⟨?_, ?_, ?_⟩
    · rw [nd_chebyshevPoints hn le_rfl, mul_div_assoc, div_self hn'.ne', mul_one, Real.cos_pi]
      norm_num
    · intro i j hij hj
      rw [nd_chebyshevPoints hn (by omega), nd_chebyshevPoints hn hj]
      have hlt : Real.pi * i / n < Real.pi * j / n := by
        apply div_lt_div_of_pos_right _ hn'
        exact mul_lt_mul_of_pos_left (by exact_mod_cast hij) Real.pi_pos
      have h0 : (0:ℝ) ≤ Real.pi * i / n := by positivity
      have hpi : Real.pi * j / n ≤ Real.pi := by
        rw [div_le_iff₀ hn']
        exact mul_le_mul_of_nonneg_left (by exact_mod_cast hj) Real.pi_pos.le
      have := Real.cos_lt_cos_of_nonneg_of_le_pi h0 hpi hlt
      linarith
    · intro i hi
      rw [nd_chebyshevPoints hn hi, nd_chebyshevPoints hn (Nat.sub_le _ _)]
      have : Real.pi * ((n - i : ℕ) : ℝ) / n = Real.pi - Real.pi * i / n := by
        rw [Nat.cast_sub hi]
        field_simp
      rw [this, Real.cos_pi_sub]
      ring

/-- **C06**, other schemes: zero followed by the scheme's points. -/
theorem C06_other_schemes (ext : ℕ → String → Except PyErr (List ℝ)) (n : ℕ) (s : String)
    (hs : s ≠ "chebyshev") (c : List ℝ) (hc : ext n s = .ok c) :
    collocationPoints ext n s = .ok (0 :: c) := by
  simp [collocationPoints, hs, hc, bind, Except.bind, pure, Except.pure]

theorem chebyshevPoints_nodup (n : ℕ) : (chebyshevPoints n).Nodup := by
  obtain ⟨t, ht, hl, _, h⟩ := C06_chebyshev_points (fun _ _ => .error .value) n
  simp only [collocationPoints, if_pos, Except.ok.injEq] at ht
  subst ht
  rcases Nat.eq_zero_or_pos n with rfl | hn
  · simp [chebyshevPoints]
  · obtain ⟨_, hlt, _⟩ := h hn
    rw [List.nodup_iff_pairwise_ne, List.pairwise_iff_getElem]
    intro i j hi hj hij
    have := hlt i j hij (by omega)
    simp only [nd, List.getD_eq_getElem?_getD, List.getElem?_eq_getElem hi,
      List.getElem?_eq_getElem hj, Option.getD_some] at this
    exact this.ne

/-- Differentiation matrices under an affine change of variable. -/
theorem diff_affine {K : Type*} [Field K] [DecidableEq K] {tau : List K} (hne : tau ≠ [])
    (hd : tau.Nodup) {b : Basis K} (hb : polynomialBasis tau = .ok b) (s h : K) (hh : h ≠ 0)
    {p : K[X]} (hp : p.degree < tau.length) {j : ℕ} (hj : j < tau.length) :
    ∑ k ∈ Finset.range tau.length, b.D.e j k / h * p.eval (nd tau k * h + s)
      = (derivative p).eval (nd tau j * h + s) := by
  obtain ⟨b', hb', _, _, hD, _⟩ := C03_differentiation_matrix tau hne hd
  rw [hb] at hb'; cases hb'
  have hq : (p.comp (C h * X + C s)).degree < tau.length := by
    by_cases h0 : p = 0
    · simp only [h0, zero_comp, degree_zero] ; exact WithBot.bot_lt_coe _
    · have h1 : (p.comp (C h * X + C s)).natDegree ≤ p.natDegree := by
        refine natDegree_comp_le.trans ?_
        rw [natDegree_linear hh, mul_one]
      refine lt_of_le_of_lt degree_le_natDegree (lt_of_le_of_lt (Nat.cast_le.mpr h1) ?_)
      rw [← degree_eq_natDegree h0]; exact hp
  have := hD _ hq j hj
  simp only [eval_comp, eval_add, eval_mul, eval_C, eval_X, derivative_comp, derivative_add,
    derivative_C_mul, derivative_X, derivative_C, mul_one, add_zero] at this
  rw [show nd tau j * h + s = h * nd tau j + s by ring]
  have h2 : ∑ k ∈ Finset.range tau.length, b.D.e j k / h * p.eval (nd tau k * h + s)
      = h⁻¹ * ∑ k ∈ Finset.range tau.length, b.D.e j k * p.eval (h * nd tau k + s) := by
    rw [Finset.mul_sum]
    apply Finset.sum_congr rfl
    intro k _
    rw [mul_comm h (nd tau k)]; ring
  rw [h2, this]
  field_simp

/-- **C07** `cheb(N, t0, tf)` for `N >= 1`. -/
theorem C07_cheb (ext : ℕ → String → Except PyErr (List ℝ)) (N : ℕ) (t0 tf : ℝ) (hN : 1 ≤ N)
    (hne : t0 ≠ tf) :
    ∃ D t, cheb ext N t0 tf = .ok (D, t) ∧ D.rows = N + 1 ∧ D.cols = N + 1 ∧
      t.length = N + 1 ∧ nd t 0 = t0 ∧ nd t N = tf ∧
      ∀ p : ℝ[X], p.natDegree ≤ N → ∀ j ≤ N,
        ∑ k ∈ Finset.range (N + 1), D.e j k * p.eval (nd t k) = (derivative p).eval (nd t j) := by
  obtain ⟨tau, ht, hl, h0, h⟩ := C06_chebyshev_points ext N
  obtain ⟨h1, _, _⟩ := h hN
  have htau : tau ≠ [] := by intro h; simp [h] at hl
  have hd : tau.Nodup := by
    have := chebyshevPoints_nodup N
    simp only [collocationPoints, if_pos, Except.ok.injEq] at ht
    rwa [← ht]
  have hh : tf - t0 ≠ 0 := sub_ne_zero.mpr hne.symm
  have hnd : ∀ i ≤ N, nd (tau.map fun x => x * (tf - t0) + t0) i = nd tau i * (tf - t0) + t0 := by
    intro i hi
    have hi' : i < tau.length := by omega
    simp [nd, List.getD_eq_getElem?_getD, List.getElem?_eq_getElem hi']
  refine ⟨_, _, by
    unfold cheb; rw [ht]; simp only [bind, Except.bind, polynomialBasis_ok htau, pure, Except.pure]
    rfl, by simpa using hl, by simpa using hl, by simpa using hl, ?_, ?_, ?_⟩
  · rw [hnd 0 (by omega), h0]; ring
  · rw [hnd N le_rfl, h1]; ring
  · intro p hp j hj
    have := diff_affine htau hd (polynomialBasis_ok htau) t0 (tf - t0) hh (p := p)
      (by rw [hl]; exact lt_of_le_of_lt degree_le_natDegree (by exact_mod_cast Nat.lt_succ_of_le hp))
      (j := j) (by omega)
    rw [hl] at this
    rw [hnd j hj, ← this]
    apply Finset.sum_congr rfl
    intro k hk
    rw [hnd k (by have := Finset.mem_range.mp hk; omega)]
    simp only [hl]

/-- **C07**, the exception: for `N = 0` the docstring's `t[-1] == tf` is false (the grid is `[t0]`). -/
theorem C07_docstring_fails_for_zero (ext : ℕ → String → Except PyErr (List ℝ)) (t0 tf : ℝ) :
    ∃ D, cheb ext 0 t0 tf = .ok (D, [t0]) := by
  refine ⟨_, by
    unfold cheb
    simp only [collocationPoints, if_pos, bind, Except.bind, chebyshevPoints,
      polynomialBasis_ok (List.cons_ne_nil _ _), pure, Except.pure, List.map_cons, List.map_nil,
      zero_mul, zero_add]
    rfl⟩

/-! ## Non-vacuity -/

/-- Hypotheses of `C07_cheb` with a reversed interval. -/
example : 1 ≤ 3 ∧ (2 : ℝ) ≠ -1 := by norm_num

/-- Test (one input): the grid of order 2 is 0, 1/2, 1. -/
example : chebyshevPoints 2 = [0, 1/2, 1] := by
  simp [chebyshevPoints, List.range_succ]

/-- The other schemes: e.g. a one-point scheme at 1/2. -/
example : collocationPoints (fun _ _ => .ok [1/2]) 1 "legendre" = .ok [0, 1/2] :=
  C06_other_schemes _ _ _ (by decide) _ rfl

/-- C06: the grid with four points is symmetric and ascending, with the ends 0 and 1. -/
example (ext : ℕ → String → Except PyErr (List ℝ)) : ∃ t, collocationPoints ext 3 "chebyshev" = .ok t ∧ t.length = 4 ∧ nd t 0 = 0 ∧
    nd t 1 < nd t 2 ∧ nd t 1 + nd t 2 = 1 ∧ nd t 3 = 1 := by
  obtain ⟨t, h1, h2, h3, h4⟩ := C06_chebyshev_points ext 3
  obtain ⟨h5, h6, h7⟩ := h4 (by decide)
  exact ⟨t, h1, h2, h3, h6 1 2 (by decide) (by decide), h7 1 (by decide), h5⟩

/-- C07: on the reversed interval from 2 to -1 the matrix differentiates `x^2` at the end -1. -/
example (ext : ℕ → String → Except PyErr (List ℝ)) : ∃ D t, cheb ext 3 2 (-1) = .ok (D, t) ∧ t.length = 4 ∧
    D.e 3 0 * nd t 0 ^ 2 + D.e 3 1 * nd t 1 ^ 2 + D.e 3 2 * nd t 2 ^ 2 + D.e 3 3 * nd t 3 ^ 2 = -2 := by
  obtain ⟨D, t, h1, -, -, h4, -, h6, h7⟩ := C07_cheb ext 3 2 (-1) (by decide) (by norm_num)
  refine ⟨D, t, h1, h4, ?_⟩
  have := h7 (X ^ 2) (by simp) 3 le_rfl
  simp only [Finset.sum_range_succ, Finset.sum_range_zero, eval_pow, eval_X, zero_add] at this
  rw [this, h6]
  simp
  norm_num

end CE
