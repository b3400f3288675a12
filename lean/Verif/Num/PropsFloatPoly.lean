import Verif.Num.LemFloatPoly
import Mathlib.Analysis.SpecialFunctions.Integrals.Basic

/-!
# Property C116: Lagrange polynomials and Butcher tableaux in floating point

`PolynomialBasis` and `butcherTableuForCollocationPoints` multiply linear factors, integrate the products and evaluate them by Horner's rule.
The errors are proportional to the same expressions with absolute values.
-/

open Polynomial

namespace CE

namespace FltC

variable (f : FltC)

/-- **C116** The coefficients of the computed Lagrange polynomials. -/
theorem C116_lagrange (tau : List ℝ) (_hd : tau.Nodup) (j : ℕ) (hj : j < tau.length) (i : ℕ) :
    |(f.lagrangePoly tau j).toPoly.coeff i - (Lagrange.basis (Finset.range tau.length) (nd tau) j).coeff i| ≤
      (1 / (1 - f.u) ^ (4 * (tau.length - 1)) - 1) *
        (∏ r ∈ (Finset.range tau.length).erase j, (C |nd tau j - nd tau r|⁻¹ * (X + C |nd tau r|))).coeff i :=
  ((lagrange_err (f := f) tau j hj).1 i).1

/-- The integrals of the Lagrange polynomials. -/
theorem pint_err (tau : List ℝ) (j : ℕ) (hj : j < tau.length) (x : ℝ) :
    |f.peval (f.polyint (f.lagrangePoly tau j)) x - ((butcherPoly tau j).polyint).eval x| ≤
      (1 / (1 - f.u) ^ (6 * tau.length - 1) - 1) *
        ∫ y in (0 : ℝ)..|x|, ∏ r ∈ (Finset.range tau.length).erase j, (y + |nd tau r|) / |nd tau j - nd tau r| := by
  obtain ⟨h1, h2⟩ := lagrange_err (f := f) tau j hj
  set M : ℝ[X] := ∏ r ∈ (Finset.range tau.length).erase j, (C |nd tau j - nd tau r|⁻¹ * (X + C |nd tau r|)) with hM
  obtain ⟨Q, hQ⟩ := exists_antiderivative M
  have hQ0 : derivative (Q - C (Q.eval 0)) = M := by rw [derivative_sub, derivative_C, sub_zero, hQ]
  have h3 := polyint_err h1 (P' := ((butcherPoly tau j).polyint).toPoly) (M' := Q - C (Q.eval 0))
    (by rw [Poly1d.derivative_polyint, butcherPoly_eq, toPoly_lagrangePoly]) (Poly1d.eval_zero_polyint _) hQ0 (by simp)
  have h4 := peval_err (c := tau.length + 1) h3 ((polyint_length _).trans (by omega)) x
  rw [← Poly1d.eval_eq] at h4
  have hint : ∫ y in (0 : ℝ)..|x|, ∏ r ∈ (Finset.range tau.length).erase j, (y + |nd tau r|) / |nd tau j - nd tau r| =
      (Q - C (Q.eval 0)).eval |x| := by
    have e : ∀ y : ℝ, ∏ r ∈ (Finset.range tau.length).erase j, (y + |nd tau r|) / |nd tau j - nd tau r| = M.eval y := by
      intro y
      rw [hM, eval_prod]
      refine Finset.prod_congr rfl fun r _ => ?_
      simp only [eval_mul, eval_C, eval_add, eval_X]
      rw [div_eq_inv_mul]
    simp only [e]
    rw [intervalIntegral.integral_eq_sub_of_hasDerivAt (f := fun y => (Q - C (Q.eval 0)).eval y)]
    · simp
    · intro y _
      have := (Q - C (Q.eval 0)).hasDerivAt y
      rwa [hQ0] at this
    · exact M.continuous.intervalIntegrable _ _
  rw [hint]
  refine h4.trans (le_of_eq ?_)
  rw [show 4 * (tau.length - 1) + 1 + 2 * (tau.length + 1) = 6 * tau.length - 1 by omega]
  rfl

theorem butcherTableau_ok (tau : List ℝ) : f.butcherTableau tau = .ok
    ⟨NdArray.mat2 tau.length tau.length fun i j => f.peval (f.polyint (f.lagrangePoly tau j)) (nd tau i),
     NdArray.vec ((List.range tau.length).map fun j => f.peval (f.polyint (f.lagrangePoly tau j)) 1),
     NdArray.vec tau⟩ := by
  simp [butcherTableau, ButcherTableau.new, NdArray.ndim, NdArray.size, NdArray.mat2, NdArray.vec]

/-- **C116** For distinct nodes the computed Butcher tableau has the shape and the nodes of the exact one; entry `j` of row `i` and of the weights
differs from the exact one at most by `(1-u)^-(6n-1) - 1` times the integral from 0 to `|tau_i|` (to 1 for the weights) of the product of
`(y + |tau_r|)/|tau_j - tau_r|` over the other nodes. -/
theorem C116_tableau (tau : List ℝ) (_hd : tau.Nodup) :
    ∃ T T', butcherTableuForCollocationPoints tau = .ok T ∧ f.butcherTableau tau = .ok T' ∧
      T'.A.shape = T.A.shape ∧ T'.b.shape = T.b.shape ∧ T'.c = T.c ∧
      ∀ j < tau.length,
        (∀ i < tau.length, |T'.A.e [i, j] - T.A.e [i, j]| ≤ (1 / (1 - f.u) ^ (6 * tau.length - 1) - 1) *
          ∫ y in (0 : ℝ)..|nd tau i|, ∏ r ∈ (Finset.range tau.length).erase j, (y + |nd tau r|) / |nd tau j - nd tau r|) ∧
        |T'.b.e [j] - T.b.e [j]| ≤ (1 / (1 - f.u) ^ (6 * tau.length - 1) - 1) *
          ∫ y in (0 : ℝ)..1, ∏ r ∈ (Finset.range tau.length).erase j, (y + |nd tau r|) / |nd tau j - nd tau r| := by
  refine ⟨_, _, butcher_ok tau, f.butcherTableau_ok tau, rfl, by simp [NdArray.vec], rfl, fun j hj => ⟨fun i _ => f.pint_err tau j hj _, ?_⟩⟩
  have := f.pint_err tau j hj 1
  rw [abs_one] at this
  simpa only [NdArray.vec, List.headD_cons, nd_map_range _ hj] using this

/-- **C116** Two facts that rounding does not disturb: the row of a node 1 is exactly the vector of the weights, and the row of a node 0
vanishes. -/
theorem C116_rows (tau : List ℝ) (_hd : tau.Nodup) :
    ∃ T', f.butcherTableau tau = .ok T' ∧ ∀ i < tau.length,
      (nd tau i = 1 → ∀ j < tau.length, T'.A.e [i, j] = T'.b.e [j]) ∧ (nd tau i = 0 → ∀ j < tau.length, T'.A.e [i, j] = 0) := by
  refine ⟨_, f.butcherTableau_ok tau, fun i _ => ⟨fun h1 j hj => ?_, fun h0 j hj => ?_⟩⟩
  · simp only [NdArray.vec, NdArray.mat2, List.headD_cons, List.tail_cons, nd_map_range _ hj, h1]
  · simp only [NdArray.mat2, List.headD_cons, List.tail_cons, h0]
    unfold peval
    have hlast : ∀ l : List ℝ, (Poly1d.ofCoeffs (l ++ [0])).coef = [0] ∨ ∃ m, (Poly1d.ofCoeffs (l ++ [0])).coef = m ++ [0] := by
      intro l
      induction l with
      | nil => left; simp [Poly1d.ofCoeffs]
      | cons a l ih =>
        by_cases h : a = 0
        · have : Poly1d.ofCoeffs (a :: l ++ [0]) = Poly1d.ofCoeffs (l ++ [0]) := by
            simp [Poly1d.ofCoeffs, h]
          rw [this]
          exact ih
        · right
          exact ⟨a :: l, by simp [Poly1d.ofCoeffs, h]⟩
    have hfold : ∀ m : List ℝ, (m ++ [0]).foldl (fun y c => f.rnd (f.rnd (y * 0) + c)) 0 = 0 := by
      intro m
      rw [List.foldl_append]
      simp [f.zero]
    unfold polyint
    rcases hlast (List.zipWith (fun c k => f.rnd (c / k)) (f.lagrangePoly tau j).coef
      ((List.range (f.lagrangePoly tau j).coef.length).reverse.map fun i => ((i + 1 : ℕ) : ℝ))) with h | ⟨m, h⟩
    · rw [h]
      exact hfold []
    · rw [h]
      exact hfold m

/-! ## Non-vacuity -/

/-- Doubles, with sequential reductions. -/
noncomputable def doubleC : FltC where
  toFlt := double
  conv a b k := double.toRounding.seqDot (convPairs a b k)
  conv_spec _ _ _ := Rounding.seqDot_spec _ _

/-- The tableau of the nodes 0 and 1 in double precision: the weights are 1/2 up to `20 * 2^-53`, the last row of `A` is equal to them and the
first one vanishes. -/
example : ∃ T', doubleC.butcherTableau [0, 1] = .ok T' ∧ |T'.b.e [0] - 1 / 2| ≤ 20 / 2 ^ 53 ∧ |T'.b.e [1] - 1 / 2| ≤ 20 / 2 ^ 53 ∧
    (∀ j < 2, T'.A.e [1, j] = T'.b.e [j]) ∧ ∀ j < 2, T'.A.e [0, j] = 0 := by
  have hd : ([0, 1] : List ℝ).Nodup := by norm_num
  obtain ⟨T, T', h1, h2, -, -, -, h3⟩ := doubleC.C116_tableau [0, 1] hd
  obtain ⟨T'', h4, h5⟩ := doubleC.C116_rows [0, 1] hd
  rw [h2] at h4
  cases h4
  obtain ⟨T0, h6, -, -, -, -, h7⟩ := C08_butcher_exact ([0, 1] : List ℝ) hd
  rw [h1] at h6
  cases h6
  have du : doubleC.u = 1 / 2 ^ 53 := rfl
  have b1 : T.b.e [1] = 1 / 2 := by
    have := (h7 X (C (1 / 2) * X ^ 2) (by rw [degree_X]; norm_num) (by
      rw [derivative_C_mul, derivative_X_pow, ← mul_assoc, ← C_mul]
      norm_num)).2
    simpa [Finset.sum_range_succ, nd] using this
  have b0 : T.b.e [0] = 1 / 2 := by
    have := (h7 1 X (by rw [degree_one]; norm_num) derivative_X).2
    simp only [List.length_cons, List.length_nil, zero_add, Nat.reduceAdd, Finset.sum_range_succ, Finset.sum_range_zero, eval_one, mul_one, eval_X,
      b1] at this
    linarith
  refine ⟨T', h2, ?_, ?_, fun j hj => (h5 1 (by simp)).1 (by simp [nd]) j hj, fun j hj => (h5 0 (by simp)).2 (by simp [nd]) j hj⟩
  · have := (h3 0 (by simp)).2
    rw [b0, du] at this
    refine this.trans ?_
    have e : ∀ y : ℝ, ∏ r ∈ (Finset.range [(0 : ℝ), 1].length).erase 0, (y + |nd [(0 : ℝ), 1] r|) / |nd [(0 : ℝ), 1] 0 - nd [(0 : ℝ), 1] r| = y + 1 := by
      intro y
      rw [show (Finset.range [(0 : ℝ), 1].length).erase 0 = {1} from by decide]
      simp [nd]
    simp only [e]
    rw [intervalIntegral.integral_add (by simp) (by simp), integral_id]
    simp
    norm_num
  · have := (h3 1 (by simp)).2
    rw [b1, du] at this
    refine this.trans ?_
    have e : ∀ y : ℝ, ∏ r ∈ (Finset.range [(0 : ℝ), 1].length).erase 1, (y + |nd [(0 : ℝ), 1] r|) / |nd [(0 : ℝ), 1] 1 - nd [(0 : ℝ), 1] r| = y := by
      intro y
      rw [show (Finset.range [(0 : ℝ), 1].length).erase 1 = {0} from by decide]
      simp [nd]
    simp only [e]
    rw [integral_id]
    simp
    norm_num

end FltC

end CE
