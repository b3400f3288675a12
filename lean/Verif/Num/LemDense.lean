import Verif.Num.LemStiff2

/-!
# A polynomial that is close to a function at the start of an interval and at the collocation points
-/

open Polynomial Set

namespace CE

/-- Values and derivatives of a polynomial on [0,1] are bounded by its largest value at the points `l`, times a constant that depends on the
points only. -/
theorem exists_lebesgue {l : List ℝ} (hd : l.Nodup) : ∃ Λ ≥ 0, ∀ (R : ℝ[X]) (e : ℝ), R.degree < l.length →
    (∀ j < l.length, |R.eval (nd l j)| ≤ e) →
    ∀ x ∈ Icc (0 : ℝ) 1, |R.eval x| ≤ Λ * e ∧ |(derivative R).eval x| ≤ Λ * e := by
  classical
  let T : Finset ℝ := l.toFinset
  have hc : T.card = l.length := List.toFinset_card_of_nodup hd
  have hbd : ∀ Q : ℝ[X], ∃ c ≥ 0, ∀ x ∈ Icc (0 : ℝ) 1, |Q.eval x| ≤ c := by
    intro Q
    obtain ⟨c, hc⟩ := isCompact_Icc.exists_bound_of_continuousOn (s := Icc (0 : ℝ) 1) Q.continuous.continuousOn
    exact ⟨c, (norm_nonneg _).trans (hc 0 ⟨le_rfl, zero_le_one⟩), hc⟩
  choose c hc0 hcb using hbd
  refine ⟨∑ s ∈ T, (c (Lagrange.basis T id s) + c (derivative (Lagrange.basis T id s))),
    Finset.sum_nonneg fun _ _ => add_nonneg (hc0 _) (hc0 _), fun R e hR hj x hx => ?_⟩
  have hval : ∀ s ∈ T, |R.eval s| ≤ e := by
    intro s hs
    obtain ⟨j, hj', rfl⟩ := List.getElem_of_mem (List.mem_toFinset.mp hs)
    rw [← nd_eq_getElem hj']
    exact hj j hj'
  have hL := Lagrange.eq_interpolate (s := T) (v := id) (f := R) (fun _ _ _ _ h => h) (by rw [hc]; exact hR)
  have hR' : R = ∑ s ∈ T, C (R.eval s) * Lagrange.basis T id s := by
    conv_lhs => rw [hL]
    rw [Lagrange.interpolate_apply]
    rfl
  have key : ∀ D : ℝ[X] → ℝ, (∀ s ∈ T, |D (Lagrange.basis T id s)| ≤ c (Lagrange.basis T id s) + c (derivative (Lagrange.basis T id s))) →
      |∑ s ∈ T, R.eval s * D (Lagrange.basis T id s)| ≤
        (∑ s ∈ T, (c (Lagrange.basis T id s) + c (derivative (Lagrange.basis T id s)))) * e := by
    intro D hD
    refine (Finset.abs_sum_le_sum_abs _ _).trans ?_
    rw [Finset.sum_mul]
    refine Finset.sum_le_sum fun s hs => ?_
    rw [abs_mul, mul_comm]
    exact mul_le_mul (hD s hs) (hval s hs) (abs_nonneg _) (add_nonneg (hc0 _) (hc0 _))
  constructor
  · have := key (fun Q => Q.eval x) fun s _ => (hcb _ x hx).trans (le_add_of_nonneg_right (hc0 _))
    rw [hR']
    simpa [eval_finset_sum] using this
  · have := key (fun Q => (derivative Q).eval x) fun s _ => (hcb _ x hx).trans (le_add_of_nonneg_left (hc0 _))
    rw [hR']
    simpa [eval_finset_sum, derivative_sum] using this

/-- A polynomial of degree at most the number of nodes whose distance from a function is at most `e` at the start of an interval and at the
collocation points: its distance on the interval, and the distance of the derivatives multiplied by the length. -/
theorem dense_error {tau : List ℝ} (hd : tau.Nodup) (h0 : 0 ∉ tau) (h01 : ∀ k < tau.length, nd tau k ∈ Icc (0 : ℝ) 1) :
    ∃ Λ ≥ 0, ∀ (a b B e : ℝ) (y f : ℝ → ℝ) (P : ℝ[X]), a < b → 0 ≤ B →
      (∀ x ∈ Icc a b, HasDerivWithinAt y (f x) (Icc a b) x) → ContDiffOn ℝ tau.length f (Icc a b) →
      (∀ x ∈ Icc a b, |iteratedDerivWithin tau.length f (Icc a b) x| ≤ B) → P.degree < (tau.length + 1 : ℕ) →
      |P.eval a - y a| ≤ e → (∀ j < tau.length, |P.eval (a + (b - a) * nd tau j) - y (a + (b - a) * nd tau j)| ≤ e) →
      ∀ x ∈ Icc a b, |P.eval x - y x| ≤ Λ * e + B * (b - a) ^ (tau.length + 1) ∧
        (b - a) * |(derivative P).eval x - f x| ≤ Λ * e + B * (b - a) ^ (tau.length + 1) := by
  classical
  obtain ⟨Λ, hΛ, hL⟩ := exists_lebesgue (List.nodup_cons.mpr ⟨h0, hd⟩)
  refine ⟨Λ, hΛ, fun a b B e y f P hab hB hder hsm hbd hP ha hj x hx => ?_⟩
  set h := b - a with hh
  have hh0 : 0 < h := sub_pos.mpr hab
  have hnd : ∀ j < tau.length, 0 < nd tau j ∧ nd tau j ≤ 1 := by
    intro j hj
    refine ⟨lt_of_le_of_ne (h01 j hj).1 fun hz => h0 ?_, (h01 j hj).2⟩
    rw [hz, nd_eq_getElem hj]
    exact List.getElem_mem hj
  have hmem : ∀ j < tau.length, a + h * nd tau j ∈ Icc a b := by
    intro j hj
    obtain ⟨h1, h2⟩ := hnd j hj
    constructor
    · nlinarith
    · have : h * nd tau j ≤ h * 1 := mul_le_mul_of_nonneg_left h2 hh0.le
      rw [hh] at this ⊢
      linarith
  let T : Finset ℝ := insert a ((Finset.range tau.length).image fun j => a + h * nd tau j)
  have hTc : T.card = tau.length + 1 := by
    rw [Finset.card_insert_of_notMem, Finset.card_image_of_injOn, Finset.card_range]
    · intro i hi j hj hij
      refine nd_injOn hd hi hj ?_
      have : h * nd tau i = h * nd tau j := add_left_cancel hij
      exact mul_left_cancel₀ hh0.ne' this
    · simp only [Finset.mem_image, Finset.mem_range, not_exists, not_and]
      intro j hj hja
      have := mul_pos hh0 (hnd j hj).1
      linarith
  have hTm : ∀ s ∈ T, s ∈ Icc a b := by
    intro s hs
    simp only [T, Finset.mem_insert, Finset.mem_image, Finset.mem_range] at hs
    rcases hs with rfl | ⟨j, hj, rfl⟩
    · exact ⟨le_rfl, hab.le⟩
    · exact hmem j hj
  have haT : a ∈ T := Finset.mem_insert_self _ _
  have hjT : ∀ j < tau.length, a + h * nd tau j ∈ T := fun j hj =>
    Finset.mem_insert_of_mem (Finset.mem_image.mpr ⟨j, Finset.mem_range.mpr hj, rfl⟩)
  let Q : ℝ[X] := Lagrange.interpolate T id y
  have hQv : ∀ s ∈ T, Q.eval s = y s := fun s hs => Lagrange.eval_interpolate_at_node (v := id) y (fun _ _ _ _ h => h) hs
  have hQd : Q.degree < (tau.length + 1 : ℕ) := by
    have := Lagrange.degree_interpolate_lt (s := T) (v := id) y (fun _ _ _ _ h => h)
    rwa [hTc] at this
  have herr : ∀ x ∈ Icc a b, |f x - (derivative Q).eval x| ≤ B * h ^ tau.length := by
    intro x hx
    refine (interp_deriv_error hab T hTc hTm hder hsm hbd hQd hQv hx).trans ?_
    refine div_le_self (by positivity) ?_
    exact_mod_cast Nat.one_le_iff_ne_zero.mpr (Nat.factorial_ne_zero _)
  have hval : |Q.eval x - y x| ≤ B * h ^ (tau.length + 1) := by
    have h1 := Convex.norm_image_sub_le_of_norm_hasDerivWithin_le (f := fun x => Q.eval x - y x)
      (f' := fun x => (derivative Q).eval x - f x) (s := Icc a b) (x := a) (y := x) (C := B * h ^ tau.length)
      (fun x hx => (Q.hasDerivAt x).hasDerivWithinAt.sub (hder x hx))
      (fun x hx => by rw [Real.norm_eq_abs, abs_sub_comm]; exact herr x hx) (convex_Icc a b) ⟨le_rfl, hab.le⟩ hx
    simp only [Real.norm_eq_abs, hQv a haT, sub_self, sub_zero] at h1
    rw [abs_of_nonneg (sub_nonneg.mpr hx.1)] at h1
    refine h1.trans ?_
    rw [pow_succ, ← mul_assoc]
    refine mul_le_mul_of_nonneg_left ?_ (by positivity)
    rw [hh]
    linarith [hx.2]
  let R : ℝ[X] := (P - Q).comp (C a + C h * X)
  have hRv : ∀ s, R.eval s = P.eval (a + h * s) - Q.eval (a + h * s) := fun s => by simp [R, eval_comp]
  have hR' : ∀ s, (derivative R).eval s = h * ((derivative P).eval (a + h * s) - (derivative Q).eval (a + h * s)) := fun s => by
    simp only [R, derivative_comp, eval_mul, eval_comp, derivative_sub, eval_sub, eval_add, eval_C, eval_X, derivative_add, derivative_C,
      derivative_mul, derivative_X, zero_mul, mul_one, zero_add]
  have hPQ : (P - Q).degree < (tau.length + 1 : ℕ) := lt_of_le_of_lt (degree_sub_le _ _) (max_lt hP hQd)
  have hRd : R.degree < (tau.length + 1 : ℕ) := by
    by_cases hz : P - Q = 0
    · simp only [R, hz, zero_comp, degree_zero]
      exact WithBot.bot_lt_coe _
    · refine lt_of_le_of_lt degree_le_natDegree ?_
      have h1 : (P - Q).natDegree < tau.length + 1 := (natDegree_lt_iff_degree_lt hz).mpr hPQ
      have h2 : R.natDegree ≤ (P - Q).natDegree := by
        refine (natDegree_comp_le).trans ?_
        have : (C a + C h * X : ℝ[X]).natDegree ≤ 1 := by
          rw [add_comm]
          exact natDegree_linear_le
        calc _ ≤ (P - Q).natDegree * 1 := Nat.mul_le_mul_left _ this
          _ = _ := Nat.mul_one _
      exact_mod_cast lt_of_le_of_lt h2 h1
  obtain ⟨k1, k2⟩ := hL R e (by rw [List.length_cons]; exact hRd) (fun j hj' => by
      cases j with
      | zero =>
        show |R.eval (nd (0 :: tau) 0)| ≤ e
        rw [show nd (0 :: tau) 0 = 0 from rfl, hRv, mul_zero, add_zero, hQv a haT]
        exact ha
      | succ j =>
        have hj'' : j < tau.length := by rw [List.length_cons] at hj'; omega
        rw [show nd (0 :: tau) (j + 1) = nd tau j from rfl, hRv, hQv _ (hjT j hj'')]
        exact hj j hj'') ((x - a) / h)
    ⟨div_nonneg (sub_nonneg.mpr hx.1) hh0.le, (div_le_one hh0).mpr (by rw [hh]; linarith [hx.2])⟩
  have hxe : a + h * ((x - a) / h) = x := by
    field_simp
    ring
  rw [hRv, hxe] at k1
  rw [hR', hxe] at k2
  constructor
  · have := abs_add_le (P.eval x - Q.eval x) (Q.eval x - y x)
    rw [sub_add_sub_cancel] at this
    linarith
  · have h1 := abs_add_le ((derivative P).eval x - (derivative Q).eval x) ((derivative Q).eval x - f x)
    rw [sub_add_sub_cancel] at h1
    have h2 := herr x hx
    rw [abs_sub_comm] at h2
    rw [abs_mul, abs_of_pos hh0] at k2
    have h3 := mul_le_mul_of_nonneg_left (h1.trans (add_le_add le_rfl h2)) hh0.le
    rw [pow_succ]
    linarith

/-- A polynomial of degree less than the number of nodes whose distance from a function is at most `e` at the collocation points. -/
theorem dense_deriv_error {tau : List ℝ} (hd : tau.Nodup) (h01 : ∀ k < tau.length, nd tau k ∈ Icc (0 : ℝ) 1) :
    ∃ Λ ≥ 0, ∀ (a b B e : ℝ) (f : ℝ → ℝ) (P : ℝ[X]), a < b → 0 ≤ B → ContDiffOn ℝ tau.length f (Icc a b) →
      (∀ x ∈ Icc a b, |iteratedDerivWithin tau.length f (Icc a b) x| ≤ B) → P.degree < tau.length →
      (∀ j < tau.length, |P.eval (a + (b - a) * nd tau j) - f (a + (b - a) * nd tau j)| ≤ e) →
      ∀ x ∈ Icc a b, |P.eval x - f x| ≤ Λ * e + B * (b - a) ^ tau.length := by
  classical
  obtain ⟨Λ, hΛ, hL⟩ := exists_lebesgue hd
  refine ⟨Λ, hΛ, fun a b B e f P hab hB hsm hbd hP hj x hx => ?_⟩
  set h := b - a with hh
  have hh0 : 0 < h := sub_pos.mpr hab
  have hmem : ∀ j < tau.length, a + h * nd tau j ∈ Icc a b := by
    intro j hj
    obtain ⟨h1, h2⟩ := h01 j hj
    constructor
    · nlinarith
    · have : h * nd tau j ≤ h * 1 := mul_le_mul_of_nonneg_left h2 hh0.le
      rw [hh] at this ⊢
      linarith
  let T : Finset ℝ := (Finset.range tau.length).image fun j => a + h * nd tau j
  have hTc : T.card = tau.length := by
    rw [Finset.card_image_of_injOn, Finset.card_range]
    intro i hi j hj hij
    refine nd_injOn hd hi hj ?_
    have : h * nd tau i = h * nd tau j := add_left_cancel hij
    exact mul_left_cancel₀ hh0.ne' this
  have hTm : ∀ s ∈ T, s ∈ Icc a b := by
    intro s hs
    simp only [T, Finset.mem_image, Finset.mem_range] at hs
    obtain ⟨j, hj, rfl⟩ := hs
    exact hmem j hj
  have hjT : ∀ j < tau.length, a + h * nd tau j ∈ T := fun j hj => Finset.mem_image.mpr ⟨j, Finset.mem_range.mpr hj, rfl⟩
  let Q : ℝ[X] := Lagrange.interpolate T id f
  have hQv : ∀ s ∈ T, Q.eval s = f s := fun s hs => Lagrange.eval_interpolate_at_node (v := id) f (fun _ _ _ _ h => h) hs
  have hQd : Q.degree < tau.length := by
    have := Lagrange.degree_interpolate_lt (s := T) (v := id) f (fun _ _ _ _ h => h)
    rwa [hTc] at this
  have hval : |Q.eval x - f x| ≤ B * h ^ tau.length := by
    rw [abs_sub_comm]
    have := interp_error hab T hTm (by rw [hTc]; exact hsm) (by rw [hTc]; exact hbd) (by rw [hTc]; exact hQd) hQv hx
    rw [hTc] at this
    refine this.trans (div_le_self (by positivity) ?_)
    exact_mod_cast Nat.one_le_iff_ne_zero.mpr (Nat.factorial_ne_zero _)
  let R : ℝ[X] := (P - Q).comp (C a + C h * X)
  have hRv : ∀ s, R.eval s = P.eval (a + h * s) - Q.eval (a + h * s) := fun s => by simp [R, eval_comp]
  have hPQ : (P - Q).degree < tau.length := lt_of_le_of_lt (degree_sub_le _ _) (max_lt hP hQd)
  have hRd : R.degree < tau.length := by
    by_cases hz : P - Q = 0
    · simp only [R, hz, zero_comp, degree_zero]
      exact WithBot.bot_lt_coe _
    · refine lt_of_le_of_lt degree_le_natDegree ?_
      have h1 : (P - Q).natDegree < tau.length := (natDegree_lt_iff_degree_lt hz).mpr hPQ
      have h2 : R.natDegree ≤ (P - Q).natDegree := by
        refine (natDegree_comp_le).trans ?_
        have : (C a + C h * X : ℝ[X]).natDegree ≤ 1 := by
          rw [add_comm]
          exact natDegree_linear_le
        calc _ ≤ (P - Q).natDegree * 1 := Nat.mul_le_mul_left _ this
          _ = _ := Nat.mul_one _
      exact_mod_cast lt_of_le_of_lt h2 h1
  have k1 := (hL R e hRd (fun j hj' => by rw [hRv, hQv _ (hjT j hj')]; exact hj j hj') ((x - a) / h)
    ⟨div_nonneg (sub_nonneg.mpr hx.1) hh0.le, (div_le_one hh0).mpr (by rw [hh]; linarith [hx.2])⟩).1
  have hxe : a + h * ((x - a) / h) = x := by
    field_simp
    ring
  rw [hRv, hxe] at k1
  have := abs_add_le (P.eval x - Q.eval x) (Q.eval x - f x)
  rw [sub_add_sub_cancel] at this
  linarith

end CE
