import Mathlib.Analysis.Calculus.LocalExtr.Rolle
import Mathlib.Data.Finset.Sort
import Mathlib.Analysis.Calculus.Taylor
import Mathlib.Analysis.Calculus.Deriv.Polynomial

/-!
# The error of interpolation by polynomials

`f - P = f^(m)(ξ) / m! * ∏ (x - x_k)` for the polynomial `P` through `m` points, and the corresponding bounds of `f - P` and `f' - P'`.
No definitions of the model occur here.
-/

open Polynomial Set

namespace CE

/-- Rolle's theorem for several zeros, in terms of the ordered zeros. -/
theorem rolle_points {a b : ℝ} {f f' : ℝ → ℝ} (hf : ∀ x ∈ Icc a b, HasDerivWithinAt f (f' x) (Icc a b) x) {m : ℕ}
    (S : Finset ℝ) (hS : S.card = m + 1) (hmem : ∀ s ∈ S, s ∈ Icc a b) (h0 : ∀ s ∈ S, f s = 0) :
    ∃ T : Finset ℝ, T.card = m ∧ (∀ s ∈ T, s ∈ Icc a b) ∧ ∀ s ∈ T, f' s = 0 := by
  classical
  set e := S.orderEmbOfFin hS with he
  have hmem' : ∀ i, e i ∈ Icc a b := fun i => hmem _ (Finset.orderEmbOfFin_mem S hS i)
  have hz : ∀ i, f (e i) = 0 := fun i => h0 _ (Finset.orderEmbOfFin_mem S hS i)
  have hr : ∀ i : Fin m, ∃ c, c ∈ Ioo (e i.castSucc) (e i.succ) ∧ f' c = 0 := by
    intro i
    have hlt : e i.castSucc < e i.succ := e.lt_iff_lt.mpr i.castSucc_lt_succ
    have hsub : Icc (e i.castSucc) (e i.succ) ⊆ Icc a b := Icc_subset_Icc (hmem' _).1 (hmem' _).2
    refine exists_hasDerivAt_eq_zero hlt (fun x hx => ((hf x (hsub hx)).continuousWithinAt).mono hsub) (by rw [hz, hz]) fun x hx => ?_
    refine (hf x (hsub (Ioo_subset_Icc_self hx))).hasDerivAt (Icc_mem_nhds ?_ ?_)
    · exact lt_of_le_of_lt (hmem' _).1 hx.1
    · exact lt_of_lt_of_le hx.2 (hmem' _).2
  choose c hc hc0 using hr
  have hmono : StrictMono c := by
    intro i j hij
    have h1 : e i.succ ≤ e j.castSucc := by
      refine e.le_iff_le.mpr ?_
      rw [Fin.le_def]
      simp only [Fin.val_succ, Fin.val_castSucc]
      exact hij
    exact lt_of_lt_of_le (hc i).2 (h1.trans (hc j).1.le)
  refine ⟨Finset.univ.image c, ?_, ?_, ?_⟩
  · rw [Finset.card_image_of_injective _ hmono.injective, Finset.card_univ, Fintype.card_fin]
  · intro s hs
    obtain ⟨i, -, rfl⟩ := Finset.mem_image.mp hs
    exact ⟨(hmem' _).1.trans (hc i).1.le, (hc i).2.le.trans (hmem' _).2⟩
  · intro s hs
    obtain ⟨i, -, rfl⟩ := Finset.mem_image.mp hs
    exact hc0 i

/-- A function with `m + 1` zeros: its `m`-th derivative has a zero. -/
theorem rolle_iterated {a b : ℝ} {m : ℕ} : ∀ {F : ℕ → ℝ → ℝ},
    (∀ i < m, ∀ x ∈ Icc a b, HasDerivWithinAt (F i) (F (i + 1) x) (Icc a b) x) →
    ∀ S : Finset ℝ, S.card = m + 1 → (∀ s ∈ S, s ∈ Icc a b) → (∀ s ∈ S, F 0 s = 0) → ∃ ξ ∈ Icc a b, F m ξ = 0 := by
  induction m with
  | zero =>
    intro F _ S hS hmem h0
    obtain ⟨s, hs⟩ := Finset.card_pos.mp (by omega : 0 < S.card)
    exact ⟨s, hmem s hs, h0 s hs⟩
  | succ m ih =>
    intro F hF S hS hmem h0
    obtain ⟨T, hT, hTm, hT0⟩ := rolle_points (hF 0 (Nat.succ_pos _)) S hS hmem h0
    exact ih (F := fun i => F (i + 1)) (fun i hi => hF (i + 1) (by omega)) T hT hTm hT0

/-- The derivatives on an interval are the derivatives of each other. -/
theorem hasDeriv_iterated {a b : ℝ} (hab : a < b) {m : ℕ} {f : ℝ → ℝ} (hf : ContDiffOn ℝ m f (Icc a b)) {i : ℕ} (hi : i < m) {x : ℝ}
    (hx : x ∈ Icc a b) :
    HasDerivWithinAt (iteratedDerivWithin i f (Icc a b)) (iteratedDerivWithin (i + 1) f (Icc a b) x) (Icc a b) x := by
  rw [iteratedDerivWithin_succ]
  exact (hf.differentiableOn_iteratedDerivWithin (by exact_mod_cast hi) (uniqueDiffOn_Icc hab) x hx).hasDerivWithinAt

/-- The error of the polynomial through the values of `f` at the points of `S`. -/
theorem interp_error_eq {a b : ℝ} (hab : a < b) {f : ℝ → ℝ} (S : Finset ℝ) (hS : ∀ s ∈ S, s ∈ Icc a b)
    (hf : ContDiffOn ℝ S.card f (Icc a b)) {P : ℝ[X]} (hP : P.degree < S.card) (hv : ∀ s ∈ S, P.eval s = f s) {x : ℝ}
    (hx : x ∈ Icc a b) :
    ∃ ξ ∈ Icc a b, f x - P.eval x = iteratedDerivWithin S.card f (Icc a b) ξ / (S.card.factorial : ℝ) * ∏ s ∈ S, (x - s) := by
  classical
  by_cases hxS : x ∈ S
  · exact ⟨x, hx, by rw [hv x hxS, sub_self, Finset.prod_eq_zero hxS (sub_self x), mul_zero]⟩
  set W : ℝ[X] := ∏ s ∈ S, (X - C s) with hW
  have hWx : ∀ y, W.eval y = ∏ s ∈ S, (y - s) := fun y => by rw [hW, eval_prod]; simp
  have hW0 : W.eval x ≠ 0 := by
    rw [hWx]
    exact Finset.prod_ne_zero_iff.mpr fun s hs h => hxS (by rw [sub_eq_zero.mp h]; exact hs)
  set c := (f x - P.eval x) / W.eval x with hc
  obtain ⟨ξ, hξ, h⟩ := rolle_iterated (m := S.card)
    (F := fun i y => iteratedDerivWithin i f (Icc a b) y - (derivative^[i] (P + C c * W)).eval y) (fun i hi y hy => by
      refine (hasDeriv_iterated hab hf hi hy).sub ?_
      rw [Function.iterate_succ_apply']
      exact (Polynomial.hasDerivAt _ _).hasDerivWithinAt) (insert x S) (Finset.card_insert_of_notMem hxS) (by
      intro s hs
      rcases Finset.mem_insert.mp hs with rfl | hs
      · exact hx
      · exact hS s hs) (by
      intro s hs
      simp only [iteratedDerivWithin_zero, Function.iterate_zero, id, eval_add, eval_mul, eval_C]
      rcases Finset.mem_insert.mp hs with rfl | hs
      · rw [hc, div_mul_cancel₀ _ hW0]; ring
      · rw [hv s hs, hWx, Finset.prod_eq_zero hs (sub_self s)]; ring)
  refine ⟨ξ, hξ, ?_⟩
  have hfac : (S.card.factorial : ℝ) ≠ 0 := by exact_mod_cast S.card.factorial_ne_zero
  have hd : (derivative^[S.card] (P + C c * W)).eval ξ = c * S.card.factorial := by
    rw [iterate_map_add, iterate_derivative_eq_zero_of_degree_lt hP, zero_add, iterate_derivative_C_mul, hW,
      iterate_derivative_prod_X_sub_C le_rfl]
    simp
  rw [hd] at h
  rw [← hWx, sub_eq_zero.mp h, mul_div_cancel_right₀ _ hfac, hc, div_mul_cancel₀ _ hW0]

/-- Bound of the error of the polynomial through the values of `f` at the points of `S`. -/
theorem interp_error {a b B : ℝ} (hab : a < b) {f : ℝ → ℝ} (S : Finset ℝ) (hS : ∀ s ∈ S, s ∈ Icc a b)
    (hf : ContDiffOn ℝ S.card f (Icc a b)) (hB : ∀ x ∈ Icc a b, |iteratedDerivWithin S.card f (Icc a b) x| ≤ B) {P : ℝ[X]}
    (hP : P.degree < S.card) (hv : ∀ s ∈ S, P.eval s = f s) {x : ℝ} (hx : x ∈ Icc a b) :
    |f x - P.eval x| ≤ B * (b - a) ^ S.card / (S.card.factorial : ℝ) := by
  obtain ⟨ξ, hξ, h⟩ := interp_error_eq hab S hS hf hP hv hx
  have hfac : (0 : ℝ) < S.card.factorial := by exact_mod_cast S.card.factorial_pos
  rw [h, abs_mul, abs_div, abs_of_pos hfac, div_mul_eq_mul_div]
  have hprod : |∏ s ∈ S, (x - s)| ≤ (b - a) ^ S.card := by
    rw [Finset.abs_prod]
    refine (Finset.prod_le_prod (fun _ _ => abs_nonneg _) fun s hs => ?_).trans_eq (Finset.prod_const _)
    rw [abs_le]
    have := hS s hs
    constructor <;> linarith [hx.1, hx.2, this.1, this.2]
  have hB0 : 0 ≤ B := (abs_nonneg _).trans (hB ξ hξ)
  gcongr
  exact hB ξ hξ

/-- Bound of the error of the derivative of this polynomial. -/
theorem interp_deriv_error {a b B : ℝ} (hab : a < b) {f f' : ℝ → ℝ} {m : ℕ} (S : Finset ℝ) (hc : S.card = m + 1)
    (hS : ∀ s ∈ S, s ∈ Icc a b) (hd : ∀ x ∈ Icc a b, HasDerivWithinAt f (f' x) (Icc a b) x)
    (hf : ContDiffOn ℝ m f' (Icc a b)) (hB : ∀ x ∈ Icc a b, |iteratedDerivWithin m f' (Icc a b) x| ≤ B) {P : ℝ[X]}
    (hP : P.degree < (m + 1 : ℕ)) (hv : ∀ s ∈ S, P.eval s = f s) {x : ℝ} (hx : x ∈ Icc a b) :
    |f' x - (derivative P).eval x| ≤ B * (b - a) ^ m / (m.factorial : ℝ) := by
  obtain ⟨T, hT, hTm, hT0⟩ := rolle_points (f := fun x => f x - P.eval x) (f' := fun x => f' x - (derivative P).eval x)
    (fun x hx => (hd x hx).sub (Polynomial.hasDerivAt _ _).hasDerivWithinAt) S hc hS fun s hs => by rw [hv s hs, sub_self]
  subst hT
  refine interp_error hab T hTm hf hB ?_ (fun s hs => (sub_eq_zero.mp (hT0 s hs)).symm) hx
  by_cases h0 : P = 0
  · rw [h0, derivative_zero, degree_zero]
    exact WithBot.bot_lt_coe _
  · refine lt_of_lt_of_le (degree_derivative_lt h0) ?_
    exact Order.le_of_lt_succ (by exact_mod_cast hP)

end CE
