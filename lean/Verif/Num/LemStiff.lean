import Verif.Num.LemContract

/-!
# Stability of the stage equations of contractive models with respect to defects, uniformly in the model
-/

open Polynomial

namespace CE

/-- Twice the symmetric bilinear form of `qform`. -/
def sform (S : ℕ → ℕ → ℝ) (m : ℕ) (v w : ℕ → ℝ) : ℝ := ∑ i ∈ Finset.range m, ∑ l ∈ Finset.range m, S i l * (v i * w l + w i * v l)

/-- The norm of a positive definite form. -/
noncomputable def qnorm (S : ℕ → ℕ → ℝ) (m : ℕ) (v : ℕ → ℝ) : ℝ := √(qform S m v)

/-- The form is positive definite. -/
def PosDefForm (S : ℕ → ℕ → ℝ) (m : ℕ) : Prop := ∀ v : ℕ → ℝ, (∃ i < m, v i ≠ 0) → 0 < qform S m v

section
variable {S : ℕ → ℕ → ℝ} {m : ℕ}

theorem sform_congr {v v' w w' : ℕ → ℝ} (h : ∀ i < m, v i = v' i) (h' : ∀ i < m, w i = w' i) : sform S m v w = sform S m v' w' :=
  Finset.sum_congr rfl fun i hi => Finset.sum_congr rfl fun l hl => by
    rw [h i (Finset.mem_range.mp hi), h l (Finset.mem_range.mp hl), h' i (Finset.mem_range.mp hi), h' l (Finset.mem_range.mp hl)]

theorem qnorm_congr {v w : ℕ → ℝ} (h : ∀ i < m, v i = w i) : qnorm S m v = qnorm S m w := by
  rw [qnorm, qnorm, qform_congr h]

theorem sform_add (u v w : ℕ → ℝ) : sform S m u (fun i => v i + w i) = sform S m u v + sform S m u w := by
  simp only [sform, ← Finset.sum_add_distrib]
  refine Finset.sum_congr rfl fun i _ => Finset.sum_congr rfl fun l _ => ?_
  ring

theorem qform_comb (a b : ℝ) (v w : ℕ → ℝ) :
    qform S m (fun i => a * v i + b * w i) = a ^ 2 * qform S m v + a * b * sform S m v w + b ^ 2 * qform S m w := by
  simp only [qform, sform, Finset.mul_sum, ← Finset.sum_add_distrib]
  refine Finset.sum_congr rfl fun i _ => Finset.sum_congr rfl fun l _ => ?_
  ring

theorem qform_add (v w : ℕ → ℝ) : qform S m (fun i => v i + w i) = qform S m v + sform S m v w + qform S m w := by
  have := qform_comb (S := S) (m := m) 1 1 v w
  simpa using this

theorem PosDefForm.nonneg (h : PosDefForm S m) (v : ℕ → ℝ) : 0 ≤ qform S m v := by
  by_cases hv : ∃ i < m, v i ≠ 0
  · exact (h v hv).le
  · push Not at hv
    rw [qform_congr (w := fun _ => 0) hv]
    simp [qform]

theorem PosDefForm.sq (h : PosDefForm S m) (v : ℕ → ℝ) : qnorm S m v ^ 2 = qform S m v := Real.sq_sqrt (h.nonneg v)

theorem qnorm_nonneg (v : ℕ → ℝ) : 0 ≤ qnorm S m v := Real.sqrt_nonneg _

theorem PosDefForm.cauchy (h : PosDefForm S m) (v w : ℕ → ℝ) : sform S m v w ≤ 2 * qnorm S m v * qnorm S m w := by
  have hz : ∀ v : ℕ → ℝ, qnorm S m v = 0 → ∀ i < m, v i = 0 := by
    intro v hv i hi
    by_contra hi0
    have h1 := h v ⟨i, hi, hi0⟩
    rw [← h.sq, hv] at h1
    simp at h1
  rcases (qnorm_nonneg (S := S) (m := m) v).eq_or_lt with h0 | h0
  · rw [sform_congr (v' := fun _ => 0) (w' := w) (hz v h0.symm) (fun _ _ => rfl), ← h0]
    simp [sform]
  rcases (qnorm_nonneg (S := S) (m := m) w).eq_or_lt with h1 | h1
  · rw [sform_congr (v' := v) (w' := fun _ => 0) (fun _ _ => rfl) (hz w h1.symm), ← h1]
    simp [sform]
  have h2 := h.nonneg (fun i => qnorm S m w * v i + -(qnorm S m v) * w i)
  rw [qform_comb, ← h.sq, ← h.sq] at h2
  have h3 : 0 < qnorm S m v * qnorm S m w := mul_pos h0 h1
  have h4 : 0 ≤ qnorm S m v * qnorm S m w * (2 * qnorm S m v * qnorm S m w - sform S m v w) := by nlinarith
  have := nonneg_of_mul_nonneg_right h4 h3
  linarith

theorem PosDefForm.triangle (h : PosDefForm S m) (v w : ℕ → ℝ) : qnorm S m (fun i => v i + w i) ≤ qnorm S m v + qnorm S m w := by
  refine Real.sqrt_le_iff.mpr ⟨add_nonneg (qnorm_nonneg _) (qnorm_nonneg _), ?_⟩
  rw [qform_add, ← h.sq v, ← h.sq w]
  nlinarith [h.cauchy v w]

theorem qform_neg (v : ℕ → ℝ) : qform S m (fun i => -v i) = qform S m v := by simp [qform]

/-- The norm is bounded by the maximum norm. -/
theorem qnorm_le_max (S : ℕ → ℕ → ℝ) (m : ℕ) : ∃ c ≥ 0, ∀ (v : ℕ → ℝ) (δ : ℝ), 0 ≤ δ → (∀ i < m, |v i| ≤ δ) → qnorm S m v ≤ c * δ := by
  refine ⟨√(∑ i ∈ Finset.range m, ∑ l ∈ Finset.range m, |S i l|), Real.sqrt_nonneg _, fun v δ hδ hv => ?_⟩
  rw [qnorm]
  conv_rhs => rw [← Real.sqrt_sq hδ, ← Real.sqrt_mul (Finset.sum_nonneg fun _ _ => Finset.sum_nonneg fun _ _ => abs_nonneg _)]
  refine Real.sqrt_le_sqrt ?_
  rw [qform, Finset.sum_mul]
  refine Finset.sum_le_sum fun i hi => ?_
  rw [Finset.sum_mul]
  refine Finset.sum_le_sum fun l hl => ?_
  refine (le_abs_self _).trans ?_
  rw [abs_mul, abs_mul, pow_two]
  exact mul_le_mul_of_nonneg_left (mul_le_mul (hv i (Finset.mem_range.mp hi)) (hv l (Finset.mem_range.mp hl)) (abs_nonneg _) hδ) (abs_nonneg _)

end

/-- A continuous function that is positive away from zero and homogeneous of degree two is bounded from below by a multiple of
the square of the norm. -/
theorem exists_lower_bound {E : Type*} [NormedAddCommGroup E] [NormedSpace ℝ E] [FiniteDimensional ℝ E] (φ : E → ℝ) (hc : Continuous φ)
    (hh : ∀ (a : ℝ) z, φ (a • z) = a ^ 2 * φ z) (hp : ∀ z ≠ 0, 0 < φ z) : ∃ α > 0, ∀ z, α * ‖z‖ ^ 2 ≤ φ z := by
  have h0 : φ 0 = 0 := by simpa using hh 0 0
  by_cases hE : Nontrivial E
  · haveI := FiniteDimensional.proper_real E
    have hcomp : IsCompact (Metric.sphere (0 : E) 1) := isCompact_sphere 0 1
    have hne : (Metric.sphere (0 : E) 1).Nonempty := NormedSpace.sphere_nonempty.mpr zero_le_one
    obtain ⟨z₀, hz₀, hmin⟩ := hcomp.exists_isMinOn hne hc.continuousOn
    have hz0 : z₀ ≠ 0 := by
      rintro rfl
      simp at hz₀
    refine ⟨φ z₀, hp z₀ hz0, fun z => ?_⟩
    by_cases hz : z = 0
    · simp [hz, h0]
    have hn : ‖z‖ ≠ 0 := norm_ne_zero_iff.mpr hz
    have h1 : ‖z‖⁻¹ • z ∈ Metric.sphere (0 : E) 1 := by
      rw [mem_sphere_zero_iff_norm, norm_smul, norm_inv, norm_norm, inv_mul_cancel₀ hn]
    have h2 : φ z₀ ≤ φ (‖z‖⁻¹ • z) := hmin h1
    rw [hh] at h2
    have h3 := mul_le_mul_of_nonneg_right h2 (sq_nonneg ‖z‖)
    refine h3.trans (le_of_eq ?_)
    field_simp
  · rw [not_nontrivial_iff_subsingleton] at hE
    exact ⟨1, one_pos, fun z => by rw [Subsingleton.elim z 0]; simp [h0]⟩

/-- The stage form is bounded from below by the squares of the derivatives. -/
theorem stage_form_lower (tau : List ℝ) (hnode : IsGauss tau ∨ IsRadau tau) (hpos : 0 < tau.length) (S : ℕ → ℕ → ℝ) (m : ℕ)
    (hpd : PosDefForm S m) : ∃ w : ℕ → ℝ, (∀ j < tau.length, 0 < w j) ∧ ∃ α > 0, ∀ k : ℕ → ℕ → ℝ, ∃ κ ≥ 0,
      (∀ i < m, ∀ j < tau.length, |k i j| ≤ κ) ∧
      α * κ ^ 2 ≤ ∑ j ∈ Finset.range tau.length, w j * sform S m (fun i => k i j) (fun i => stageSum tau k i j) := by
  obtain ⟨w, hw, hform⟩ := stage_form_pos tau hnode hpos
  refine ⟨w, hw, ?_⟩
  let E := Fin m → Fin tau.length → ℝ
  let ext : E → ℕ → ℕ → ℝ := fun k i j => if hi : i < m ∧ j < tau.length then k ⟨i, hi.1⟩ ⟨j, hi.2⟩ else 0
  let φ : E → ℝ := fun k => ∑ j ∈ Finset.range tau.length, w j * ∑ i ∈ Finset.range m, ∑ l ∈ Finset.range m,
    S i l * (ext k i j * stageSum tau (ext k) l j + stageSum tau (ext k) i j * ext k l j)
  have hcont : ∀ i j, Continuous fun k : E => ext k i j := by
    intro i j
    by_cases h : i < m ∧ j < tau.length
    · have : (fun k : E => ext k i j) = fun k => k ⟨i, h.1⟩ ⟨j, h.2⟩ := funext fun k => dif_pos h
      rw [this]
      exact (continuous_apply _).comp (continuous_apply (⟨i, h.1⟩ : Fin m))
    · have : (fun k : E => ext k i j) = fun k => 0 := funext fun k => dif_neg h
      rw [this]
      exact continuous_const
  have hsum : ∀ i j, Continuous fun k : E => stageSum tau (ext k) i j := fun i j =>
    continuous_finsetSum _ fun l _ => (hcont i l).mul continuous_const
  have hφ : Continuous φ := continuous_finsetSum _ fun j _ => continuous_const.mul (continuous_finsetSum _ fun i _ =>
    continuous_finsetSum _ fun l _ => continuous_const.mul (((hcont i j).mul (hsum l j)).add ((hsum i j).mul (hcont l j))))
  have hes : ∀ (a : ℝ) (k : E) i j, ext (a • k) i j = a * ext k i j := by
    intro a k i j
    simp only [ext]
    split_ifs
    · rfl
    · rw [mul_zero]
  have hss : ∀ (a : ℝ) (k : E) i j, stageSum tau (ext (a • k)) i j = a * stageSum tau (ext k) i j := by
    intro a k i j
    simp only [stageSum, hes, mul_assoc, Finset.mul_sum]
  have hh : ∀ (a : ℝ) z, φ (a • z) = a ^ 2 * φ z := by
    intro a z
    simp only [φ, hes, hss, Finset.mul_sum]
    refine Finset.sum_congr rfl fun j _ => Finset.sum_congr rfl fun i _ => Finset.sum_congr rfl fun l _ => ?_
    ring
  have hp : ∀ z ≠ 0, 0 < φ z := by
    intro z hz
    refine hform S m hpd (ext z) ?_
    by_contra hcon
    push Not at hcon
    apply hz
    funext i j
    have := hcon i i.2 j j.2
    rwa [show ext z i j = z i j from dif_pos ⟨i.2, j.2⟩] at this
  obtain ⟨α, hα, hl⟩ := exists_lower_bound φ hφ hh hp
  refine ⟨α, hα, fun k => ?_⟩
  let z : E := fun i j => k i j
  have hz : ∀ i < m, ∀ j < tau.length, ext z i j = k i j := fun i hi j hj => dif_pos ⟨hi, hj⟩
  refine ⟨‖z‖, norm_nonneg z, fun i hi j hj => ?_, (hl z).trans (le_of_eq ?_)⟩
  · have h1 := norm_le_pi_norm (z ⟨i, hi⟩) ⟨j, hj⟩
    have h2 := norm_le_pi_norm z ⟨i, hi⟩
    exact h1.trans h2
  · have hs' : ∀ i < m, ∀ j, stageSum tau (ext z) i j = stageSum tau k i j := fun i hi j =>
      Finset.sum_congr rfl fun l hl => by rw [hz i hi l (Finset.mem_range.mp hl)]
    refine Finset.sum_congr rfl fun j hj => ?_
    congr 1
    refine Finset.sum_congr rfl fun i hi => Finset.sum_congr rfl fun l hl => ?_
    have hi := Finset.mem_range.mp hi
    have hl := Finset.mem_range.mp hl
    have hj := Finset.mem_range.mp hj
    rw [hz i hi j hj, hz l hl j hj, hs' i hi, hs' l hl]

/-- The increase of the form over a step, in terms of the derivatives at the nodes. -/
theorem stage_form_step (tau : List ℝ) (hnode : IsGauss tau ∨ IsRadau tau) (hpos : 0 < tau.length) (S : ℕ → ℕ → ℝ) (m : ℕ)
    (hpd : PosDefForm S m) (e : ℕ → ℝ) (k : ℕ → ℕ → ℝ) :
    qform S m (fun i => e i + ∑ l ∈ Finset.range tau.length, k i l * wb tau l) ≤ qform S m e +
      ∑ j ∈ Finset.range tau.length, wb tau j * sform S m (fun i => k i j) (fun i => e i + stageSum tau k i j) := by
  obtain ⟨hd, -, -⟩ := C94_inside tau hnode
  have hinj := nd_injOn hd
  let p : ℕ → ℝ[X] := fun i => Lagrange.interpolate (Finset.range tau.length) (nd tau) (k i)
  have hpd' : ∀ i, (p i).degree < tau.length := fun i => by
    have := Lagrange.degree_interpolate_lt (k i) hinj
    rwa [Finset.card_range] at this
  have hpe : ∀ i, ∀ j < tau.length, (p i).eval (nd tau j) = k i j := fun i j hj =>
    Lagrange.eval_interpolate_at_node (k i) hinj (Finset.mem_range.mpr hj)
  choose I hI using fun i => exists_antiderivative (p i)
  let U : ℕ → ℝ[X] := fun i => I i - C ((I i).eval 0) + C (e i)
  have hU : ∀ i, derivative (U i) = p i := fun i => by simp [U, hI]
  have hU0 : ∀ i, (U i).eval 0 = e i := fun i => by simp [U]
  have hUe : ∀ i j, (U i).eval (nd tau j) = e i + stageSum tau k i j := by
    intro i j
    have := sum_pint hd (hpd' i) (hU i) (nd tau j)
    rw [hU0] at this
    rw [stageSum, eq_add_of_sub_eq' this.symm]
    congr 1
    refine Finset.sum_congr rfl fun l hl => ?_
    rw [hpe i l (Finset.mem_range.mp hl), mul_comm]
    rfl
  have hU1 : ∀ i, (U i).eval 1 = e i + ∑ l ∈ Finset.range tau.length, k i l * wb tau l := by
    intro i
    have := sum_pint hd (hpd' i) (hU i) 1
    rw [hU0] at this
    rw [eq_add_of_sub_eq' this.symm]
    congr 1
    refine Finset.sum_congr rfl fun l hl => ?_
    rw [hpe i l (Finset.mem_range.mp hl), mul_comm]
    rfl
  have hUd : ∀ i, (U i).degree ≤ tau.length := by
    intro i
    refine degree_le_of_natDegree_le ?_
    by_cases h0 : (U i).natDegree = 0
    · omega
    have h2 : (p i).natDegree = (U i).natDegree - 1 := by
      rw [← hU i, natDegree_eq_of_degree_eq_some (degree_derivative_eq _ (by omega))]
    have h3 : p i ≠ 0 := by
      intro h
      rw [← hU i] at h
      exact h0 (natDegree_eq_zero_of_derivative_eq_zero h)
    have h4 := (natDegree_lt_iff_degree_lt h3).mpr (hpd' i)
    omega
  have h1 := form_increase_unit hd hpos S m (hnode.imp id fun h => ⟨h, hpd.nonneg⟩) U hUd _ rfl
  have hev : ∀ x, (∑ i ∈ Finset.range m, ∑ j ∈ Finset.range m, C (S i j) * (U i * U j)).eval x = qform S m fun i => (U i).eval x := by
    intro x
    simp only [eval_finset_sum, eval_mul, eval_C, qform]
  rw [hev, hev, qform_congr fun i _ => hU1 i, qform_congr fun i _ => hU0 i, sub_le_iff_le_add'] at h1
  refine h1.trans (le_of_eq ?_)
  congr 1
  refine Finset.sum_congr rfl fun j hj => ?_
  have hj := Finset.mem_range.mp hj
  simp only [derivative_sum, derivative_mul, derivative_C, zero_mul, zero_add, eval_finset_sum, eval_mul, eval_C, eval_add, hU, hUe]
  congr 1
  refine Finset.sum_congr rfl fun i _ => Finset.sum_congr rfl fun l _ => ?_
  rw [hpe i j hj, hpe l j hj]

theorem step_bound {n r x c : ℝ} (hn : 0 ≤ n) (hr : 0 ≤ r) (hx : 0 ≤ x) (hc : 0 ≤ c) :
    n ^ 2 + 2 * x * (r * n) + 2 * x * r ^ 2 ≤ (n + (c + x + 1) * r) ^ 2 := by
  have h1 : (n + (c + x + 1) * r) ^ 2 - (n ^ 2 + 2 * x * (r * n) + 2 * x * r ^ 2) =
      2 * (c + 1) * (r * n) + (c ^ 2 + x ^ 2 + 1 + 2 * c * x + 2 * c) * r ^ 2 := by ring
  have h2 : 0 ≤ 2 * (c + 1) * (r * n) + (c ^ 2 + x ^ 2 + 1 + 2 * c * x + 2 * c) * r ^ 2 := by positivity
  linarith

/-- One step with defects: bounds that depend on the nodes and the form only. -/
theorem stage_stable (tau : List ℝ) (hnode : IsGauss tau ∨ IsRadau tau) (hpos : 0 < tau.length) (S : ℕ → ℕ → ℝ) (m : ℕ)
    (hpd : PosDefForm S m) : ∃ C ≥ 0, ∀ (e : ℕ → ℝ) (k : ℕ → ℕ → ℝ) (ρ : ℝ), 0 ≤ ρ →
      (∀ j < tau.length, sform S m (fun i => k i j) (fun i => e i + stageSum tau k i j) ≤
        2 * ρ * qnorm S m fun i => e i + stageSum tau k i j) →
      qnorm S m (fun i => e i + ∑ l ∈ Finset.range tau.length, k i l * wb tau l) ≤ qnorm S m e + C * ρ ∧
      ∀ j < tau.length, qnorm S m (fun i => e i + stageSum tau k i j) ≤ C * (qnorm S m e + ρ) := by
  obtain ⟨hd, -, -⟩ := C94_inside tau hnode
  obtain ⟨w, hw, α, hα, hlow⟩ := stage_form_lower tau hnode hpos S m hpd
  obtain ⟨c, hc, hmax⟩ := qnorm_le_max S m
  let W := ∑ j ∈ Finset.range tau.length, w j
  have hW : 0 ≤ W := Finset.sum_nonneg fun j hj => (hw j (Finset.mem_range.mp hj)).le
  let a := ∑ j ∈ Finset.range tau.length, ∑ l ∈ Finset.range tau.length, |wA tau j l|
  have ha : 0 ≤ a := Finset.sum_nonneg fun _ _ => Finset.sum_nonneg fun _ _ => abs_nonneg _
  let β := ∑ j ∈ Finset.range tau.length, wb tau j
  have hwb : ∀ j < tau.length, 0 ≤ wb tau j := fun j hj => weights_nonneg hd hnode hj
  have hβ : 0 ≤ β := Finset.sum_nonneg fun j hj => hwb j (Finset.mem_range.mp hj)
  let C₁ := 1 + (2 * W * (1 + c * a) + 2 * W * c) / α
  have hC₁ : 1 ≤ C₁ := by
    have : 0 ≤ (2 * W * (1 + c * a) + 2 * W * c) / α := by positivity
    simp only [C₁]; linarith
  let C₂ := 1 + c * a * C₁
  have hC₂ : 0 ≤ C₂ := by positivity
  refine ⟨C₂ + β * C₂ + 1, by positivity, fun e k ρ hρ h => ?_⟩
  obtain ⟨κ, hκ, hk, hform⟩ := hlow k
  set N0 := qnorm S m e with hN0
  have hN0' : 0 ≤ N0 := qnorm_nonneg _
  have hu : ∀ j < tau.length, qnorm S m (fun i => stageSum tau k i j) ≤ c * (a * κ) := by
    intro j hj
    refine hmax _ _ (mul_nonneg ha hκ) fun i hi => ?_
    refine (Finset.abs_sum_le_sum_abs _ _).trans ?_
    have h1 : ∑ l ∈ Finset.range tau.length, |wA tau j l| ≤ a :=
      Finset.single_le_sum (f := fun j => ∑ l ∈ Finset.range tau.length, |wA tau j l|)
        (fun _ _ => Finset.sum_nonneg fun _ _ => abs_nonneg _) (Finset.mem_range.mpr hj)
    refine le_trans ?_ (mul_le_mul_of_nonneg_right h1 hκ)
    rw [Finset.sum_mul]
    refine Finset.sum_le_sum fun l hl => ?_
    rw [abs_mul, mul_comm]
    exact mul_le_mul_of_nonneg_left (hk i hi l (Finset.mem_range.mp hl)) (abs_nonneg _)
  have hE : ∀ j < tau.length, qnorm S m (fun i => e i + stageSum tau k i j) ≤ N0 + c * (a * κ) := fun j hj =>
    (hpd.triangle e fun i => stageSum tau k i j).trans (add_le_add le_rfl (hu j hj))
  -- the bound of the derivatives
  have hsum : α * κ ^ 2 ≤ W * (2 * ρ * (N0 + c * (a * κ)) + 2 * (c * κ) * N0) := by
    refine hform.trans ?_
    rw [Finset.sum_mul]
    refine Finset.sum_le_sum fun j hj => ?_
    have hj := Finset.mem_range.mp hj
    refine mul_le_mul_of_nonneg_left ?_ (hw j hj).le
    have h1 := h j hj
    rw [sform_add] at h1
    have h2 := hpd.cauchy (fun i => -k i j) e
    have h3 : sform S m (fun i => -k i j) e = -sform S m (fun i => k i j) e := by
      simp only [sform, ← Finset.sum_neg_distrib]
      refine Finset.sum_congr rfl fun i _ => Finset.sum_congr rfl fun l _ => ?_
      ring
    have h4 : qnorm S m (fun i => -k i j) ≤ c * κ := hmax _ _ hκ fun i hi => by rw [abs_neg]; exact hk i hi j hj
    rw [h3] at h2
    have h5 : 2 * qnorm S m (fun i => -k i j) * N0 ≤ 2 * (c * κ) * N0 := by
      refine mul_le_mul_of_nonneg_right ?_ hN0'
      linarith
    have h6 := mul_le_mul_of_nonneg_left (hE j hj) (by positivity : 0 ≤ 2 * ρ)
    linarith
  have hκb : κ ≤ C₁ * (N0 + ρ) := by
    by_cases hle : κ ≤ N0 + ρ
    · nlinarith
    push Not at hle
    have hκ0 : 0 < κ := by linarith
    have h1 : W * (2 * ρ * (N0 + c * (a * κ)) + 2 * (c * κ) * N0) ≤ κ * ((2 * W * (1 + c * a) + 2 * W * c) * (N0 + ρ)) := by
      have e1 : ρ * N0 ≤ κ * ρ := by nlinarith
      have e2 : 0 ≤ W * c * κ := by positivity
      have e3 : 0 ≤ W * κ := by positivity
      have e4 : 0 ≤ W * (c * a) * κ := by positivity
      nlinarith [mul_le_mul_of_nonneg_left e1 hW, mul_nonneg e2 hρ, mul_nonneg e3 hN0', mul_nonneg e4 hN0', mul_nonneg e4 hρ,
        mul_nonneg e2 hN0', mul_nonneg e3 hρ]
    have h2 : α * κ ≤ (2 * W * (1 + c * a) + 2 * W * c) * (N0 + ρ) := by
      have := hsum.trans h1
      rw [pow_two, ← mul_assoc, mul_comm (α * κ)] at this
      exact le_of_mul_le_mul_left this hκ0
    have h3 : κ ≤ (2 * W * (1 + c * a) + 2 * W * c) / α * (N0 + ρ) := by
      rw [div_mul_eq_mul_div, le_div_iff₀ hα, mul_comm]
      exact h2
    refine h3.trans (mul_le_mul_of_nonneg_right ?_ (by positivity))
    simp only [C₁]; linarith
  have hEj : ∀ j < tau.length, qnorm S m (fun i => e i + stageSum tau k i j) ≤ C₂ * (N0 + ρ) := by
    intro j hj
    refine (hE j hj).trans ?_
    have : c * (a * κ) ≤ c * (a * (C₁ * (N0 + ρ))) := by gcongr
    simp only [C₂]
    nlinarith
  clear_value C₂
  constructor
  · have h1 := stage_form_step tau hnode hpos S m hpd e k
    have h2 : ∑ j ∈ Finset.range tau.length, wb tau j * sform S m (fun i => k i j) (fun i => e i + stageSum tau k i j) ≤
        β * (2 * ρ * (C₂ * (N0 + ρ))) := by
      rw [Finset.sum_mul]
      refine Finset.sum_le_sum fun j hj => ?_
      have hj := Finset.mem_range.mp hj
      exact mul_le_mul_of_nonneg_left ((h j hj).trans (mul_le_mul_of_nonneg_left (hEj j hj) (by positivity))) (hwb j hj)
    clear_value β
    have h3 : 0 ≤ N0 + (C₂ + β * C₂ + 1) * ρ := add_nonneg hN0' (mul_nonneg (add_nonneg (add_nonneg hC₂ (mul_nonneg hβ hC₂)) zero_le_one) hρ)
    refine Real.sqrt_le_iff.mpr ⟨h3, (h1.trans (add_le_add le_rfl h2)).trans ?_⟩
    rw [← hpd.sq e, ← hN0]
    refine le_trans (le_of_eq (by ring)) (step_bound hN0' hρ (mul_nonneg hβ hC₂) hC₂)
  · intro j hj
    refine (hEj j hj).trans (mul_le_mul_of_nonneg_right ?_ (by positivity))
    have : 0 ≤ β * C₂ := by positivity
    linarith

end CE
