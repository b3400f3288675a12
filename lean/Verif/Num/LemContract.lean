import Verif.Num.PropsGauss
import Mathlib.Analysis.InnerProductSpace.Adjoint
import Mathlib.Analysis.InnerProductSpace.PiL2

/-!
# Stage equations of contractive models: positivity of the stage form, solution by a contraction
-/

open Polynomial

namespace CE

/-! ## Positivity for Gauss and Radau nodes -/

/-- Gauss and Radau nodes: positive weights with which the derivative of `t^2 V` at the nodes has a positive sum, for
polynomials `V` that are not negative on [0, 1]. -/
theorem coercive_weights (tau : List ℝ) (hnode : IsGauss tau ∨ IsRadau tau) (hpos : 0 < tau.length) :
    ∃ w : ℕ → ℝ, (∀ j < tau.length, 0 < w j) ∧ ∀ V : ℝ[X], V.natDegree ≤ 2 * tau.length - 2 →
      (∀ x, 0 ≤ x → x ≤ 1 → 0 ≤ V.eval x) → V ≠ 0 →
      0 < ∑ j ∈ Finset.range tau.length, w j * (derivative (X ^ 2 * V)).eval (nd tau j) := by
  obtain ⟨hd, hin, hlt⟩ := C94_inside tau hnode
  obtain ⟨T, hT, hTb⟩ := C94_weights tau hnode
  have hw : ∀ j < tau.length, 0 < wb tau j := by
    intro j hj
    have := hTb j hj
    rw [butcher_ok] at hT; cases hT
    simpa [NdArray.vec, nd, List.getD_eq_getElem?_getD, hj, wb] using this
  have hmem : ∀ j < tau.length, nd tau j ∈ tau := fun j hj => by rw [nd_eq_getElem hj]; exact List.getElem_mem hj
  have hc : ∀ j < tau.length, 0 < nd tau j := fun j hj => (hin _ (hmem j hj)).1
  have hder : ∀ V : ℝ[X], derivative (X ^ 2 * V) = X * (2 * V + X * derivative V) := by
    intro V
    rw [derivative_mul, derivative_X_pow, show (C ((2 : ℕ) : ℝ) : ℝ[X]) = 2 by simp; rfl]
    ring
  have hVd : ∀ V : ℝ[X], V.natDegree ≤ 2 * tau.length - 2 → (2 * V + X * derivative V).natDegree ≤ 2 * tau.length - 2 := by
    intro V hV
    refine natDegree_add_le_of_degree_le ?_ ?_
    · exact (natDegree_mul_le.trans (by rw [natDegree_ofNat, zero_add])).trans hV
    · by_cases h0 : V.natDegree = 0
      · rw [derivative_of_natDegree_zero h0, mul_zero, natDegree_zero]; omega
      · refine natDegree_mul_le.trans ?_
        have := natDegree_derivative_lt h0
        have := natDegree_X_le (R := ℝ)
        omega
  rcases hnode with hg | hr
  · refine ⟨fun j => wb tau j * (1 - nd tau j) / nd tau j, fun j hj => div_pos (mul_pos (hw j hj)
      (sub_pos.mpr (hlt hg _ (hmem j hj)))) (hc j hj), fun V hV hnn h0 => ?_⟩
    obtain ⟨I, hI⟩ := exists_antiderivative V
    have hP : derivative (X * (1 - X) * V + I) = (1 - X) * (2 * V + X * derivative V) := by
      rw [derivative_add, hI, derivative_mul, derivative_mul, derivative_sub, derivative_X, derivative_one]
      ring
    have hdeg : ((1 - X) * (2 * V + X * derivative V)).degree < ((tau.length + tau.length : ℕ) : WithBot ℕ) := by
      refine lt_of_le_of_lt degree_le_natDegree ?_
      have : ((1 - X : ℝ[X]) * (2 * V + X * derivative V)).natDegree ≤ 1 + (2 * tau.length - 2) := by
        refine natDegree_mul_le.trans (Nat.add_le_add ?_ (hVd V hV))
        exact (natDegree_sub_le _ _).trans (by simp [natDegree_X_le])
      exact_mod_cast lt_of_le_of_lt this (by omega)
    have := weights_exact hd hg hdeg hP
    have hI0 : 0 < I.eval 1 - I.eval 0 := by
      rw [← pI_derivative, hI]
      exact pI_pos hnn h0
    simp only [eval_add, eval_mul, eval_X, eval_sub, eval_one, sub_self, mul_zero, zero_mul, zero_add] at this
    rw [← this] at hI0
    refine lt_of_lt_of_eq hI0 (Finset.sum_congr rfl fun j hj => ?_)
    have := (hc j (Finset.mem_range.mp hj)).ne'
    rw [hder]
    simp only [eval_mul, eval_add, eval_X]
    field_simp
  · refine ⟨fun j => wb tau j / nd tau j, fun j hj => div_pos (hw j hj) (hc j hj), fun V hV hnn h0 => ?_⟩
    obtain ⟨I, hI⟩ := exists_antiderivative V
    have hP : derivative (X * V + I) = 2 * V + X * derivative V := by
      rw [derivative_add, hI, derivative_mul, derivative_X]
      ring
    have hdeg : (2 * V + X * derivative V).degree < ((tau.length + (tau.length - 1) : ℕ) : WithBot ℕ) := by
      refine lt_of_le_of_lt degree_le_natDegree ?_
      exact_mod_cast lt_of_le_of_lt (hVd V hV) (by omega)
    have := weights_exact hd hr.2 hdeg hP
    have hI0 : 0 < I.eval 1 - I.eval 0 := by
      rw [← pI_derivative, hI]
      exact pI_pos hnn h0
    simp only [eval_add (p := X * V), eval_mul (p := X) (q := V), eval_X, one_mul, zero_mul, zero_add] at this
    have h1 := hnn 1 zero_le_one le_rfl
    refine lt_of_lt_of_eq (lt_of_lt_of_le hI0 (by linarith : _ ≤ V.eval 1 + I.eval 1 - I.eval 0))
      (this.symm.trans (Finset.sum_congr rfl fun j hj => ?_))
    have := (hc j (Finset.mem_range.mp hj)).ne'
    rw [hder]
    simp only [eval_mul, eval_add, eval_X]
    field_simp

/-- The sums `A k` of the rows of a Butcher tableau. -/
noncomputable def stageSum (tau : List ℝ) (k : ℕ → ℕ → ℝ) (i j : ℕ) : ℝ := ∑ l ∈ Finset.range tau.length, k i l * wA tau j l

/-- Positivity of the stage form. -/
theorem stage_form_pos (tau : List ℝ) (hnode : IsGauss tau ∨ IsRadau tau) (hpos : 0 < tau.length) :
    ∃ w : ℕ → ℝ, (∀ j < tau.length, 0 < w j) ∧ ∀ (S : ℕ → ℕ → ℝ) (m : ℕ),
      (∀ v : ℕ → ℝ, (∃ i < m, v i ≠ 0) → 0 < qform S m v) → ∀ k : ℕ → ℕ → ℝ, (∃ i < m, ∃ j < tau.length, k i j ≠ 0) →
      0 < ∑ j ∈ Finset.range tau.length, w j * ∑ i ∈ Finset.range m, ∑ l ∈ Finset.range m,
        S i l * (k i j * stageSum tau k l j + stageSum tau k i j * k l j) := by
  obtain ⟨hd, -, -⟩ := C94_inside tau hnode
  obtain ⟨w, hw, hV⟩ := coercive_weights tau hnode hpos
  refine ⟨w, hw, fun S m hpd k hk => ?_⟩
  have hinj := nd_injOn hd
  let p : ℕ → ℝ[X] := fun i => Lagrange.interpolate (Finset.range tau.length) (nd tau) (k i)
  have hpd' : ∀ i, (p i).degree < tau.length := fun i => by
    have := Lagrange.degree_interpolate_lt (k i) hinj
    rwa [Finset.card_range] at this
  have hpe : ∀ i, ∀ j < tau.length, (p i).eval (nd tau j) = k i j := fun i j hj =>
    Lagrange.eval_interpolate_at_node (k i) hinj (Finset.mem_range.mpr hj)
  choose I hI using fun i => exists_antiderivative (p i)
  let U : ℕ → ℝ[X] := fun i => I i - C ((I i).eval 0)
  have hU : ∀ i, derivative (U i) = p i := fun i => by simp [U, hI]
  have hU0 : ∀ i, (U i).eval 0 = 0 := fun i => by simp [U]
  have hUe : ∀ i j, (U i).eval (nd tau j) = stageSum tau k i j := by
    intro i j
    have := sum_pint hd (hpd' i) (hU i) (nd tau j)
    rw [hU0, sub_zero] at this
    rw [← this, stageSum]
    refine Finset.sum_congr rfl fun l hl => ?_
    rw [hpe i l (Finset.mem_range.mp hl), mul_comm]
    rfl
  have hdvd : ∀ i, ∃ v, U i = X * v := fun i => X_dvd_iff.mpr (by rw [coeff_zero_eq_eval_zero, hU0])
  choose v hv using hdvd
  have hvd : ∀ i, (v i).natDegree ≤ tau.length - 1 := by
    intro i
    by_cases h0 : v i = 0
    · rw [h0, natDegree_zero]; omega
    have h1 : (U i).natDegree = (v i).natDegree + 1 := by rw [hv, natDegree_X_mul h0]
    have h2 : (p i).natDegree = (U i).natDegree - 1 := by
      rw [← hU i, natDegree_eq_of_degree_eq_some (degree_derivative_eq _ (by omega))]
    have h3 : p i ≠ 0 := by
      intro h
      rw [← hU i] at h
      have := natDegree_eq_zero_of_derivative_eq_zero h
      omega
    have h4 := (natDegree_lt_iff_degree_lt h3).mpr (hpd' i)
    omega
  let V : ℝ[X] := ∑ i ∈ Finset.range m, ∑ l ∈ Finset.range m, C (S i l) * (v i * v l)
  have hVe : ∀ x, V.eval x = qform S m fun i => (v i).eval x := by
    intro x
    simp only [V, eval_finset_sum, eval_mul, eval_C, qform]
  have hnn : ∀ u : ℕ → ℝ, 0 ≤ qform S m u := by
    intro u
    by_cases h : ∃ i < m, u i ≠ 0
    · exact (hpd u h).le
    · push Not at h
      rw [qform_congr (w := fun _ => 0) h]
      simp [qform]
  have hVd : V.natDegree ≤ 2 * tau.length - 2 := by
    refine natDegree_sum_le_of_forall_le _ _ fun i _ => natDegree_sum_le_of_forall_le _ _ fun j _ => ?_
    refine (natDegree_C_mul_le _ _).trans (natDegree_mul_le.trans ?_)
    have := hvd i
    have := hvd j
    omega
  have hV0 : V ≠ 0 := by
    obtain ⟨i, hi, j, hj, hij⟩ := hk
    intro h
    have hvi : v i = 0 := by
      refine Polynomial.funext fun x => ?_
      rw [eval_zero]
      by_contra hx
      have := hpd (fun i => (v i).eval x) ⟨i, hi, hx⟩
      rw [← hVe, h, eval_zero] at this
      exact lt_irrefl _ this
    apply hij
    rw [← hpe i j hj, ← hU i, hv, hvi, mul_zero, derivative_zero, eval_zero]
  refine lt_of_lt_of_eq (hV V hVd (fun x _ _ => by rw [hVe]; exact hnn _) hV0) (Finset.sum_congr rfl fun j hj => ?_)
  have hj := Finset.mem_range.mp hj
  have hX : X ^ 2 * V = ∑ i ∈ Finset.range m, ∑ l ∈ Finset.range m, C (S i l) * (U i * U l) := by
    simp only [V, Finset.mul_sum, hv]
    refine Finset.sum_congr rfl fun i _ => Finset.sum_congr rfl fun l _ => ?_
    ring
  rw [hX]
  simp only [derivative_sum, derivative_mul, derivative_C, zero_mul, zero_add, eval_finset_sum, eval_mul, eval_C, eval_add, hU, hUe]
  congr 1
  refine Finset.sum_congr rfl fun i _ => Finset.sum_congr rfl fun l _ => ?_
  rw [hpe i j hj, hpe l j hj]

/-! ## Solution by a contraction -/

section
variable {E : Type*} [NormedAddCommGroup E] [InnerProductSpace ℝ E]

local notation "⟪" x ", " y "⟫" => @inner ℝ _ _ x y

/-- A strongly monotone, locally Lipschitz continuous map has a zero. -/
theorem exists_zero_of_monotone [CompleteSpace E] (G : E → E) (α : ℝ) (hα : 0 < α)
    (mono : ∀ x y, α * ‖x - y‖ ^ 2 ≤ ⟪G x - G y, x - y⟫)
    (lip : ∀ R : ℝ, ∃ L : ℝ, ∀ x y, ‖x‖ ≤ R → ‖y‖ ≤ R → ‖G x - G y‖ ≤ L * ‖x - y‖) : ∃ x, G x = 0 := by
  set R := 2 * ‖G 0‖ / α with hR
  have hR0 : 0 ≤ R := by positivity
  obtain ⟨L₀, hL₀⟩ := lip R
  set L := max L₀ (max α 1) with hL
  have hL1 : 1 ≤ L := le_trans (le_max_right _ _) (le_max_right _ _)
  have hLα : α ≤ L := le_trans (le_max_left _ _) (le_max_right _ _)
  have hlip : ∀ x y, ‖x‖ ≤ R → ‖y‖ ≤ R → ‖G x - G y‖ ≤ L * ‖x - y‖ := fun x y hx hy =>
    (hL₀ x y hx hy).trans (mul_le_mul_of_nonneg_right (le_max_left _ _) (norm_nonneg _))
  have hLp : 0 < L := by linarith
  set ε := α / L ^ 2 with hε
  have hε0 : 0 < ε := by positivity
  have hεL : ε * L ^ 2 = α := by rw [hε]; field_simp
  have hεα : ε * α ≤ 1 := by
    rw [hε, div_mul_eq_mul_div, div_le_one (by positivity)]
    nlinarith
  set q := 1 - ε * α / 2 with hq
  have hq0 : 0 ≤ q := by rw [hq]; linarith
  have hq1 : q < 1 := by rw [hq]; nlinarith
  let T : E → E := fun x => x - ε • G x
  have hT : ∀ x y, ‖x‖ ≤ R → ‖y‖ ≤ R → ‖T x - T y‖ ≤ q * ‖x - y‖ := by
    intro x y hx hy
    have e : T x - T y = (x - y) - ε • (G x - G y) := by simp only [T, smul_sub]; abel
    have h1 : ‖T x - T y‖ ^ 2 = ‖x - y‖ ^ 2 - 2 * (ε * ⟪G x - G y, x - y⟫) + ε ^ 2 * ‖G x - G y‖ ^ 2 := by
      rw [e, norm_sub_sq_real, inner_smul_right, real_inner_comm, norm_smul, Real.norm_eq_abs, abs_of_pos hε0, mul_pow]
    have h2 := mono x y
    have h3 := hlip x y hx hy
    have h4 : ‖G x - G y‖ ^ 2 ≤ L ^ 2 * ‖x - y‖ ^ 2 := by
      rw [← mul_pow]
      exact pow_le_pow_left₀ (norm_nonneg _) h3 2
    refine le_of_sq_le_sq ?_ (mul_nonneg hq0 (norm_nonneg _))
    rw [h1, mul_pow]
    have h5 : ε ^ 2 * ‖G x - G y‖ ^ 2 ≤ ε * α * ‖x - y‖ ^ 2 := by
      have := mul_le_mul_of_nonneg_left h4 (sq_nonneg ε)
      refine this.trans (le_of_eq ?_)
      rw [← hεL]; ring
    have h6 := mul_le_mul_of_nonneg_left h2 hε0.le
    have h7 : q ^ 2 = 1 - ε * α + (ε * α / 2) ^ 2 := by rw [hq]; ring
    rw [h7]
    nlinarith [mul_nonneg (sq_nonneg (ε * α / 2)) (sq_nonneg ‖x - y‖)]
  have hmaps : Set.MapsTo T (Metric.closedBall 0 R) (Metric.closedBall 0 R) := by
    intro x hx
    rw [mem_closedBall_zero_iff] at hx ⊢
    have h1 := hT x 0 hx (by rw [norm_zero]; exact hR0)
    rw [sub_zero] at h1
    have h2 : ‖T 0‖ = ε * ‖G 0‖ := by
      simp only [T, zero_sub, norm_neg, norm_smul, Real.norm_eq_abs, abs_of_pos hε0]
    have h3 : ‖T x‖ ≤ ‖T x - T 0‖ + ‖T 0‖ := by
      simpa using norm_add_le (T x - T 0) (T 0)
    have h4 : q * ‖x‖ ≤ q * R := mul_le_mul_of_nonneg_left hx hq0
    have h5 : ‖G 0‖ = α * R / 2 := by rw [hR]; field_simp
    rw [h2, h5] at h3
    have : q * R = R - ε * α / 2 * R := by rw [hq]; ring
    nlinarith
  have hcon : ContractingWith ⟨q, hq0⟩ (hmaps.restrict T _ _) := by
    refine ⟨by exact_mod_cast hq1, LipschitzWith.of_dist_le_mul fun x y => ?_⟩
    rw [Subtype.dist_eq, Subtype.dist_eq, dist_eq_norm, dist_eq_norm]
    exact hT x y (mem_closedBall_zero_iff.mp x.2) (mem_closedBall_zero_iff.mp y.2)
  obtain ⟨x, -, hx, -⟩ := hcon.exists_fixedPoint' Metric.isClosed_closedBall.isComplete hmaps
    (Metric.mem_closedBall_self hR0 : (0 : E) ∈ Metric.closedBall 0 R) (edist_ne_top _ _)
  refine ⟨x, ?_⟩
  have h1 : x - ε • G x = x := hx
  have h2 : ε • G x = 0 := by simpa using h1
  exact (smul_eq_zero.mp h2).resolve_left hε0.ne'

/-- A definite linear map of a finite-dimensional space is bounded from below. -/
theorem exists_coercive [FiniteDimensional ℝ E] (L : E →ₗ[ℝ] E) (hL : ∀ z ≠ 0, 0 < ⟪z, L z⟫) :
    ∃ α > 0, ∀ z, α * ‖z‖ ^ 2 ≤ ⟪z, L z⟫ := by
  have hcont : Continuous fun z => ⟪z, L z⟫ := continuous_id.inner L.continuous_of_finiteDimensional
  by_cases hE : Nontrivial E
  · haveI := FiniteDimensional.proper_real E
    have hcomp : IsCompact (Metric.sphere (0 : E) 1) := isCompact_sphere 0 1
    have hne : (Metric.sphere (0 : E) 1).Nonempty := NormedSpace.sphere_nonempty.mpr zero_le_one
    obtain ⟨z₀, hz₀, hmin⟩ := hcomp.exists_isMinOn hne hcont.continuousOn
    have hz0 : z₀ ≠ 0 := by
      rintro rfl
      simp at hz₀
    refine ⟨⟪z₀, L z₀⟫, hL z₀ hz0, fun z => ?_⟩
    by_cases hz : z = 0
    · simp [hz]
    have hn : ‖z‖ ≠ 0 := norm_ne_zero_iff.mpr hz
    have h1 : ‖z‖⁻¹ • z ∈ Metric.sphere (0 : E) 1 := by
      rw [mem_sphere_zero_iff_norm, norm_smul, norm_inv, norm_norm, inv_mul_cancel₀ hn]
    have h2 : ⟪z₀, L z₀⟫ ≤ ⟪‖z‖⁻¹ • z, L (‖z‖⁻¹ • z)⟫ := hmin h1
    rw [map_smul, inner_smul_left, inner_smul_right] at h2
    simp only [conj_trivial] at h2
    have h3 := mul_le_mul_of_nonneg_right h2 (sq_nonneg ‖z‖)
    refine h3.trans (le_of_eq ?_)
    field_simp
  · rw [not_nontrivial_iff_subsingleton] at hE
    exact ⟨1, one_pos, fun z => by rw [Subsingleton.elim z 0]; simp⟩

/-- Equations `k = g k` with `⟪g k - g k', L (k - k')⟫ ≤ 0` for a definite map `L` have exactly one solution. -/
theorem exists_fixed_of_monotone [FiniteDimensional ℝ E] (L : E →ₗ[ℝ] E) (hL : ∀ z ≠ 0, 0 < ⟪z, L z⟫) (g : E → E)
    (mono : ∀ k k', ⟪g k - g k', L (k - k')⟫ ≤ 0)
    (lip : ∀ R : ℝ, ∃ C : ℝ, ∀ x y, ‖x‖ ≤ R → ‖y‖ ≤ R → ‖g x - g y‖ ≤ C * ‖x - y‖) : ∃ k, g k = k := by
  haveI := FiniteDimensional.complete ℝ E
  obtain ⟨α, hα, hco⟩ := exists_coercive L hL
  let A : E →L[ℝ] E := (LinearMap.adjoint L).toContinuousLinearMap
  have hA : ∀ x, A x = LinearMap.adjoint L x := fun x => rfl
  obtain ⟨k, hk⟩ := exists_zero_of_monotone (fun k => A (k - g k)) α hα (by
    intro x y
    have e : A (x - g x) - A (y - g y) = A ((x - y) - (g x - g y)) := by
      rw [← map_sub]; congr 1; abel
    simp only [e]
    rw [hA, LinearMap.adjoint_inner_left, inner_sub_left]
    have := hco (x - y)
    have := mono x y
    linarith) (by
    intro R
    obtain ⟨C, hC⟩ := lip R
    refine ⟨‖A‖ * (1 + C), fun x y hx hy => ?_⟩
    have e : A (x - g x) - A (y - g y) = A ((x - y) - (g x - g y)) := by
      rw [← map_sub]; congr 1; abel
    simp only [e]
    refine (A.le_opNorm _).trans ?_
    rw [mul_assoc]
    refine mul_le_mul_of_nonneg_left ?_ (norm_nonneg _)
    refine (norm_sub_le _ _).trans ?_
    have := hC x y hx hy
    linarith)
  refine ⟨k, ?_⟩
  by_contra hne
  have h0 : k - g k ≠ 0 := sub_ne_zero.mpr (Ne.symm hne)
  have h1 := hL _ h0
  rw [← LinearMap.adjoint_inner_left, ← hA, hk, inner_zero_left] at h1
  exact lt_irrefl _ h1

end

end CE
