import Verif.Num.LemStiff
import Verif.Num.LemInterp
import Mathlib.Analysis.Calculus.MeanValue

/-!
# One interval of a contractive model compared with a solution of the differential equation
-/

open Polynomial Set

namespace CE

/-- Integration of the derivative of a polynomial over a part of an interval by the coefficients of the scheme. -/
theorem sum_wA_poly {tau : List ℝ} (hd : tau.Nodup) {P : ℝ[X]} (hP : P.degree < (tau.length + 1 : ℕ)) (a h : ℝ) :
    (∀ j, h * ∑ l ∈ Finset.range tau.length, (derivative P).eval (a + h * nd tau l) * wA tau j l = P.eval (a + h * nd tau j) - P.eval a) ∧
    h * ∑ l ∈ Finset.range tau.length, (derivative P).eval (a + h * nd tau l) * wb tau l = P.eval (a + h) - P.eval a := by
  let U : ℝ[X] := P.comp (C a + C h * X)
  have hU : ∀ x, U.eval x = P.eval (a + h * x) := fun x => by simp [U, eval_comp]
  have hU' : ∀ x, (derivative U).eval x = h * (derivative P).eval (a + h * x) := fun x => by
    simp [U, derivative_comp, eval_comp]
  have hdeg : (derivative U).degree < tau.length := by
    by_cases hU0 : U = 0
    · rw [hU0, derivative_zero, degree_zero]
      exact WithBot.bot_lt_coe _
    refine lt_of_lt_of_le (degree_derivative_lt hU0) ?_
    have h1 : U.natDegree ≤ P.natDegree * (C a + C h * X : ℝ[X]).natDegree := natDegree_comp_le
    have h2 : (C a + C h * X : ℝ[X]).natDegree ≤ 1 := by
      refine (natDegree_add_le _ _).trans (max_le (by simp) ?_)
      exact (natDegree_C_mul_le h X).trans natDegree_X_le
    have h3 : P.natDegree ≤ tau.length := by
      by_cases h0 : P = 0
      · simp [h0]
      · have := (natDegree_lt_iff_degree_lt h0).mpr hP
        omega
    refine degree_le_of_natDegree_le (h1.trans ?_)
    calc P.natDegree * (C a + C h * X : ℝ[X]).natDegree ≤ P.natDegree * 1 := Nat.mul_le_mul_left _ h2
      _ ≤ tau.length := by omega
  have key : ∀ x, ∑ l ∈ Finset.range tau.length, ((butcherPoly tau l).polyint).eval x * (h * (derivative P).eval (a + h * nd tau l)) =
      P.eval (a + h * x) - P.eval a := by
    intro x
    have := sum_pint hd hdeg rfl x
    simp only [hU, hU', mul_zero, add_zero] at this
    exact this
  constructor
  · intro j
    rw [← key (nd tau j), Finset.mul_sum]
    refine Finset.sum_congr rfl fun l _ => ?_
    show h * (_ * ((butcherPoly tau l).polyint).eval (nd tau j)) = _
    ring
  · have := key 1
    rw [mul_one] at this
    rw [← this, Finset.mul_sum]
    refine Finset.sum_congr rfl fun l _ => ?_
    show h * (_ * ((butcherPoly tau l).polyint).eval 1) = _
    ring

/-- One interval: bounds that depend on the nodes and the form only. -/
theorem interval_stiff (tau : List ℝ) (hnode : IsGauss tau ∨ IsRadau tau) (hpos : 0 < tau.length) (S : ℕ → ℕ → ℝ) (m : ℕ)
    (hpd : PosDefForm S m) : ∃ C ≥ 0, ∀ (a b B : ℝ) (y f : ℕ → ℝ → ℝ) (x0 : ℕ → ℝ) (K : ℕ → ℕ → ℝ), a < b → 0 ≤ B →
      (∀ i < m, ∀ x ∈ Icc a b, HasDerivWithinAt (y i) (f i x) (Icc a b) x) →
      (∀ i < m, ContDiffOn ℝ tau.length (f i) (Icc a b)) →
      (∀ i < m, ∀ x ∈ Icc a b, |iteratedDerivWithin tau.length (f i) (Icc a b) x| ≤ B) →
      (∀ j < tau.length, sform S m (fun i => K i j - f i (a + (b - a) * nd tau j))
        (fun i => x0 i + (b - a) * stageSum tau K i j - y i (a + (b - a) * nd tau j)) ≤ 0) →
      qnorm S m (fun i => x0 i + (b - a) * ∑ l ∈ Finset.range tau.length, K i l * wb tau l - y i b) ≤
        qnorm S m (fun i => x0 i - y i a) + C * (B * (b - a) ^ (tau.length + 1)) ∧
      ∀ j < tau.length, qnorm S m (fun i => x0 i + (b - a) * stageSum tau K i j - y i (a + (b - a) * nd tau j)) ≤
        C * (qnorm S m (fun i => x0 i - y i a) + B * (b - a) ^ (tau.length + 1)) := by
  classical
  obtain ⟨hd, hin, -⟩ := C94_inside tau hnode
  obtain ⟨C, hC, hst⟩ := stage_stable tau hnode hpos S m hpd
  obtain ⟨c, hc, hmax⟩ := qnorm_le_max S m
  refine ⟨C * c + c + C, by positivity, fun a b B y f x0 K hab hB hder hsm hbd hcon => ?_⟩
  set h := b - a with hh
  have hh0 : 0 < h := sub_pos.mpr hab
  have hnd : ∀ j < tau.length, 0 < nd tau j ∧ nd tau j ≤ 1 := by
    intro j hj
    refine hin _ ?_
    rw [nd_eq_getElem hj]
    exact List.getElem_mem hj
  have hmem : ∀ j < tau.length, a + h * nd tau j ∈ Icc a b := by
    intro j hj
    obtain ⟨h1, h2⟩ := hnd j hj
    constructor
    · nlinarith
    · have : h * nd tau j ≤ h * 1 := mul_le_mul_of_nonneg_left h2 hh0.le
      rw [hh] at this ⊢
      linarith
  let T : Finset ℝ := insert a ((Finset.range tau.length).image fun j => a + h * nd tau j)
  have hTc : T.card = tau.length + 1 := by
    rw [Finset.card_insert_of_notMem, Finset.card_image_of_injOn, Finset.card_range]
    · intro i hi j hj hij
      refine nd_injOn hd hi hj ?_
      have : h * nd tau i = h * nd tau j := add_left_cancel hij
      exact mul_left_cancel₀ hh0.ne' this
    · simp only [Finset.mem_image, Finset.mem_range, not_exists, not_and]
      intro j hj hja
      have := mul_pos hh0 (hnd j hj).1
      linarith
  have hTm : ∀ s ∈ T, s ∈ Icc a b := by
    intro s hs
    simp only [T, Finset.mem_insert, Finset.mem_image, Finset.mem_range] at hs
    rcases hs with rfl | ⟨j, hj, rfl⟩
    · exact ⟨le_rfl, hab.le⟩
    · exact hmem j hj
  have haT : a ∈ T := Finset.mem_insert_self _ _
  have hjT : ∀ j < tau.length, a + h * nd tau j ∈ T := fun j hj =>
    Finset.mem_insert_of_mem (Finset.mem_image.mpr ⟨j, Finset.mem_range.mpr hj, rfl⟩)
  let P : ℕ → ℝ[X] := fun i => Lagrange.interpolate T id (y i)
  have hPv : ∀ i, ∀ s ∈ T, (P i).eval s = y i s := fun i s hs =>
    Lagrange.eval_interpolate_at_node (v := id) (y i) (fun _ _ _ _ h => h) hs
  have hPd : ∀ i, (P i).degree < (tau.length + 1 : ℕ) := fun i => by
    have := Lagrange.degree_interpolate_lt (s := T) (v := id) (y i) (fun _ _ _ _ h => h)
    rwa [hTc] at this
  have herr : ∀ i < m, ∀ x ∈ Icc a b, |f i x - (derivative (P i)).eval x| ≤ B * h ^ tau.length := by
    intro i hi x hx
    refine (interp_deriv_error hab T hTc hTm (hder i hi) (hsm i hi) (hbd i hi) (hPd i) (hPv i) hx).trans ?_
    refine div_le_self (by positivity) ?_
    exact_mod_cast Nat.one_le_iff_ne_zero.mpr (Nat.factorial_ne_zero _)
  have hend : ∀ i < m, |(P i).eval b - y i b| ≤ B * h ^ (tau.length + 1) := by
    intro i hi
    have h1 := Convex.norm_image_sub_le_of_norm_hasDerivWithin_le (f := fun x => (P i).eval x - y i x)
      (f' := fun x => (derivative (P i)).eval x - f i x) (s := Icc a b) (x := a) (y := b) (C := B * h ^ tau.length)
      (fun x hx => ((P i).hasDerivAt x).hasDerivWithinAt.sub (hder i hi x hx))
      (fun x hx => by rw [Real.norm_eq_abs, abs_sub_comm]; exact herr i hi x hx) (convex_Icc a b) ⟨le_rfl, hab.le⟩ ⟨hab.le, le_rfl⟩
    simp only [Real.norm_eq_abs, hPv i a haT, sub_self, sub_zero] at h1
    rw [← hh, abs_of_pos hh0] at h1
    rw [pow_succ, ← mul_assoc]
    exact h1
  let k : ℕ → ℕ → ℝ := fun i j => h * (K i j - (derivative (P i)).eval (a + h * nd tau j))
  let e : ℕ → ℝ := fun i => x0 i - y i a
  have hsum : ∀ j < tau.length, ∀ i, e i + stageSum tau k i j = x0 i + h * stageSum tau K i j - y i (a + h * nd tau j) := by
    intro j hj i
    have h1 := (sum_wA_poly hd (hPd i) a h).1 j
    rw [hPv i _ (hjT j hj), hPv i a haT] at h1
    have h2 : stageSum tau k i j = h * stageSum tau K i j -
        h * ∑ l ∈ Finset.range tau.length, (derivative (P i)).eval (a + h * nd tau l) * wA tau j l := by
      simp only [stageSum, k, Finset.mul_sum, ← Finset.sum_sub_distrib]
      refine Finset.sum_congr rfl fun l _ => ?_
      ring
    rw [h2, h1]
    simp only [e]
    ring
  have hsum1 : ∀ i, e i + ∑ l ∈ Finset.range tau.length, k i l * wb tau l =
      x0 i + h * ∑ l ∈ Finset.range tau.length, K i l * wb tau l - (P i).eval b := by
    intro i
    have h1 := (sum_wA_poly hd (hPd i) a h).2
    rw [hPv i a haT, show a + h = b by rw [hh]; ring] at h1
    have h2 : ∑ l ∈ Finset.range tau.length, k i l * wb tau l = h * ∑ l ∈ Finset.range tau.length, K i l * wb tau l -
        h * ∑ l ∈ Finset.range tau.length, (derivative (P i)).eval (a + h * nd tau l) * wb tau l := by
      simp only [k, Finset.mul_sum, ← Finset.sum_sub_distrib]
      refine Finset.sum_congr rfl fun l _ => ?_
      ring
    rw [h2, h1]
    simp only [e]
    ring
  have hρ0 : 0 ≤ c * (B * h ^ (tau.length + 1)) := by positivity
  obtain ⟨r1, r2⟩ := hst e k (c * (B * h ^ (tau.length + 1))) hρ0 (by
    intro j hj
    rw [sform_congr (fun _ _ => rfl) fun i _ => hsum j hj i, qnorm_congr fun i _ => hsum j hj i]
    set E : ℕ → ℝ := fun i => x0 i + h * stageSum tau K i j - y i (a + h * nd tau j) with hE
    have h1 := hcon j hj
    have h2 : sform S m (fun i => k i j) E = h * sform S m (fun i => K i j - f i (a + h * nd tau j)) E +
        h * sform S m (fun i => f i (a + h * nd tau j) - (derivative (P i)).eval (a + h * nd tau j)) E := by
      simp only [sform, k, Finset.mul_sum, ← Finset.sum_add_distrib]
      refine Finset.sum_congr rfl fun i _ => Finset.sum_congr rfl fun l _ => ?_
      ring
    rw [h2]
    have h3 := hpd.cauchy (fun i => f i (a + h * nd tau j) - (derivative (P i)).eval (a + h * nd tau j)) E
    have h4 := hmax (fun i => f i (a + h * nd tau j) - (derivative (P i)).eval (a + h * nd tau j)) (B * h ^ tau.length) (by positivity)
      (fun i hi => herr i hi _ (hmem j hj))
    have h5 : h * sform S m (fun i => K i j - f i (a + h * nd tau j)) E ≤ 0 := mul_nonpos_of_nonneg_of_nonpos hh0.le h1
    have h6 : 0 ≤ qnorm S m E := qnorm_nonneg _
    have h7 := mul_le_mul_of_nonneg_right h4 h6
    have h8 : sform S m (fun i => f i (a + h * nd tau j) - (derivative (P i)).eval (a + h * nd tau j)) E ≤
      2 * (c * (B * h ^ tau.length) * qnorm S m E) := by linarith
    have h9 := mul_le_mul_of_nonneg_left h8 hh0.le
    rw [pow_succ]
    linarith)
  constructor
  · have h1 : qnorm S m (fun i => x0 i + h * ∑ l ∈ Finset.range tau.length, K i l * wb tau l - y i b) ≤
        qnorm S m (fun i => e i + ∑ l ∈ Finset.range tau.length, k i l * wb tau l) + qnorm S m (fun i => (P i).eval b - y i b) := by
      refine le_trans (le_of_eq (qnorm_congr fun i _ => ?_)) (hpd.triangle _ _)
      rw [hsum1]
      ring
    have h2 := hmax _ _ (by positivity) hend
    have h3 : 0 ≤ C * (B * h ^ (tau.length + 1)) := by positivity
    simp only [e] at r1
    simp only [e] at h1
    linarith
  · intro j hj
    have h1 := r2 j hj
    rw [qnorm_congr fun i _ => hsum j hj i] at h1
    refine h1.trans ?_
    have h2 : 0 ≤ qnorm S m e := qnorm_nonneg _
    have h3 : 0 ≤ B * h ^ (tau.length + 1) := by positivity
    have e1 : 0 ≤ (C * c + c) * qnorm S m e := by positivity
    have e2 : 0 ≤ (c + C) * (B * h ^ (tau.length + 1)) := by positivity
    show _ ≤ (C * c + c + C) * (qnorm S m e + _)
    linarith

end CE
