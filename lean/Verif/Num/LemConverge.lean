import Verif.Num.PropsExist
import Mathlib.Analysis.Calculus.Taylor
import Mathlib.Analysis.Calculus.Deriv.Polynomial
import Mathlib.Analysis.SpecialFunctions.ExpDeriv

/-!
# Error of one collocation step and discrete Gronwall inequality
-/

open Polynomial Set

namespace CE

/-- A function with bounded `M`-th derivative is close to a polynomial of smaller degree. -/
theorem exists_taylor_poly {M : ℕ} (hM : 0 < M) {a b B : ℝ} (hab : a ≤ b) {f : ℝ → ℝ} (hf : ContDiffOn ℝ M f (Icc a b))
    (hB : ∀ τ ∈ Icc a b, |iteratedDerivWithin M f (Icc a b) τ| ≤ B) :
    ∃ p : ℝ[X], p.degree < M ∧ ∀ τ ∈ Icc a b, |f τ - p.eval τ| ≤ B * (b - a) ^ M / ((M - 1).factorial : ℝ) := by
  obtain ⟨m, rfl⟩ : ∃ m, M = m + 1 := ⟨M - 1, by omega⟩
  have hB0 : 0 ≤ B := (abs_nonneg _).trans (hB a ⟨le_rfl, hab⟩)
  refine ⟨∑ k ∈ Finset.range (m + 1), C ((k.factorial : ℝ)⁻¹ * iteratedDerivWithin k f (Icc a b) a) * (X - C a) ^ k, ?_, ?_⟩
  · refine lt_of_le_of_lt (degree_sum_le _ _) ?_
    refine (Finset.sup_lt_iff (WithBot.bot_lt_coe _)).mpr fun k hk => ?_
    refine lt_of_le_of_lt ((degree_mul_le _ _).trans (add_le_add degree_C_le le_rfl)) ?_
    rw [zero_add, degree_pow, degree_X_sub_C]
    have := Finset.mem_range.mp hk
    rw [nsmul_eq_mul, mul_one]
    exact_mod_cast this
  · intro τ hτ
    have h := taylor_mean_remainder_bound (n := m) hab (by exact_mod_cast hf) hτ (C := B) hB
    rw [taylor_within_apply, Real.norm_eq_abs] at h
    have he : (∑ k ∈ Finset.range (m + 1), C ((k.factorial : ℝ)⁻¹ * iteratedDerivWithin k f (Icc a b) a) * (X - C a) ^ k).eval τ =
        ∑ k ∈ Finset.range (m + 1), ((k.factorial : ℝ)⁻¹ * (τ - a) ^ k) • iteratedDerivWithin k f (Icc a b) a := by
      simp only [eval_finset_sum, eval_mul, eval_C, eval_pow, eval_sub, eval_X, smul_eq_mul]
      exact Finset.sum_congr rfl fun k _ => by ring
    rw [he]
    refine h.trans ?_
    rw [Nat.add_sub_cancel]
    have : (τ - a) ^ (m + 1) ≤ (b - a) ^ (m + 1) := pow_le_pow_left₀ (by linarith [hτ.1]) (by linarith [hτ.2]) _
    gcongr

/-- Quadrature error of the weights of the tableau: integral from the left bound to the point `c`. -/
theorem quadrature_error {tau : List ℝ} (hd : tau.Nodup) (hpos : 0 < tau.length) (h01 : ∀ k < tau.length, nd tau k ∈ Icc (0 : ℝ) 1)
    {a h B : ℝ} (hh : 0 ≤ h) {y f : ℝ → ℝ} (hy : ∀ τ ∈ Icc a (a + h), HasDerivWithinAt y (f τ) (Icc a (a + h)) τ)
    (hf : ContDiffOn ℝ tau.length f (Icc a (a + h)))
    (hB : ∀ τ ∈ Icc a (a + h), |iteratedDerivWithin tau.length f (Icc a (a + h)) τ| ≤ B) {c : ℝ} (hc : c ∈ Icc (0 : ℝ) 1) :
    |y (a + h * c) - y a - h * ∑ k ∈ Finset.range tau.length, f (a + h * nd tau k) * ((butcherPoly tau k).polyint).eval c| ≤
      h * ((1 + ∑ k ∈ Finset.range tau.length, |((butcherPoly tau k).polyint).eval c|) *
        (B * h ^ tau.length / ((tau.length - 1).factorial : ℝ))) := by
  obtain ⟨p, hp, hpf⟩ := exists_taylor_poly hpos (by linarith : a ≤ a + h) hf hB
  rw [add_sub_cancel_left] at hpf
  set δ := B * h ^ tau.length / ((tau.length - 1).factorial : ℝ) with hδ
  obtain ⟨P, hP⟩ := exists_antiderivative p
  have hδ0 : 0 ≤ δ := (abs_nonneg _).trans (hpf a ⟨le_rfl, by linarith⟩)
  have hmem : ∀ r ∈ Icc (0 : ℝ) 1, a + h * r ∈ Icc a (a + h) := by
    intro r hr
    constructor <;> nlinarith [hr.1, hr.2]
  have h1 := weights_affine hd a h hp hP c
  have h2 : |(y (a + h * c) - P.eval (a + h * c)) - (y a - P.eval a)| ≤ δ * (h * c) := by
    have := norm_image_sub_le_of_norm_deriv_le_segment' (f := fun τ => y τ - P.eval τ) (f' := fun τ => f τ - p.eval τ)
      (a := a) (b := a + h) (C := δ) (fun τ hτ => by
        have := (hy τ hτ).sub (P.hasDerivWithinAt τ (Icc a (a + h)))
        rw [hP] at this
        exact this) (fun τ hτ => hpf τ ⟨hτ.1, hτ.2.le⟩) (a + h * c) (hmem c hc)
    rw [Real.norm_eq_abs, add_sub_cancel_left] at this
    exact this
  have h3 : |∑ k ∈ Finset.range tau.length, (p.eval (a + h * nd tau k) - f (a + h * nd tau k)) * ((butcherPoly tau k).polyint).eval c| ≤
      δ * ∑ k ∈ Finset.range tau.length, |((butcherPoly tau k).polyint).eval c| := by
    refine (Finset.abs_sum_le_sum_abs _ _).trans ?_
    rw [Finset.mul_sum]
    refine Finset.sum_le_sum fun k hk => ?_
    rw [abs_mul, abs_sub_comm]
    exact mul_le_mul_of_nonneg_right (hpf _ (hmem _ (h01 k (Finset.mem_range.mp hk)))) (abs_nonneg _)
  have h4 : y (a + h * c) - y a - h * ∑ k ∈ Finset.range tau.length, f (a + h * nd tau k) * ((butcherPoly tau k).polyint).eval c =
      ((y (a + h * c) - P.eval (a + h * c)) - (y a - P.eval a)) +
        h * ∑ k ∈ Finset.range tau.length, (p.eval (a + h * nd tau k) - f (a + h * nd tau k)) * ((butcherPoly tau k).polyint).eval c := by
    simp only [sub_mul, Finset.sum_sub_distrib, mul_sub]
    rw [h1]
    ring
  rw [h4]
  refine (abs_add_le _ _).trans ?_
  rw [abs_mul, abs_of_nonneg hh]
  have h5 := mul_le_mul_of_nonneg_left h3 hh
  have h6 : δ * (h * c) ≤ δ * h := mul_le_mul_of_nonneg_left (by nlinarith [hc.2]) hδ0
  nlinarith [h2, h5, h6]

/-- One step: from the error of the state at the left bound to the errors at the points and at the right bound. -/
theorem step_error {tau : List ℝ} (hd : tau.Nodup) (hpos : 0 < tau.length) (h01 : ∀ k < tau.length, nd tau k ∈ Icc (0 : ℝ) 1)
    {a h B L θ α β ε : ℝ} (hh : 0 ≤ h) (hL : 0 ≤ L) (hθ : θ < 1) (hε : 0 ≤ ε) (m : ℕ)
    (hα : ∀ j < tau.length, ∑ k ∈ Finset.range tau.length, |wA tau j k| ≤ α) (hβ : ∑ k ∈ Finset.range tau.length, |wb tau k| ≤ β)
    (hstep : L * (h * α) ≤ θ) {y : ℕ → ℝ → ℝ} {f : ℕ → ℝ → ℝ}
    (hy : ∀ i < m, ∀ τ ∈ Icc a (a + h), HasDerivWithinAt (y i) (f i τ) (Icc a (a + h)) τ)
    (hf : ∀ i < m, ContDiffOn ℝ tau.length (f i) (Icc a (a + h)))
    (hB : ∀ i < m, ∀ τ ∈ Icc a (a + h), |iteratedDerivWithin tau.length (f i) (Icc a (a + h)) τ| ≤ B)
    {x x' : ℕ → ℝ} {X k : ℕ → ℕ → ℝ} (hX : ∀ i < m, ∀ j < tau.length, X i j = x i + h * ∑ l ∈ Finset.range tau.length, k i l * wA tau j l)
    (hx' : ∀ i < m, x' i = x i + h * ∑ l ∈ Finset.range tau.length, k i l * wb tau l)
    (hk : ∀ j < tau.length, ∀ δ, (∀ i < m, |X i j - y i (a + h * nd tau j)| ≤ δ) → ∀ i < m, |k i j - f i (a + h * nd tau j)| ≤ L * δ)
    (h0 : ∀ i < m, |x i - y i a| ≤ ε) :
    let D := B * h ^ tau.length / ((tau.length - 1).factorial : ℝ)
    let E := (ε + h * ((1 + α) * D)) / (1 - θ)
    (∀ i < m, ∀ j < tau.length, |X i j - y i (a + h * nd tau j)| ≤ E) ∧
    ∀ i < m, |x' i - y i (a + h)| ≤ ε + h * (β * (L * E)) + h * ((1 + β) * D) := by
  intro D E
  by_cases hm : m = 0
  · subst hm
    exact ⟨fun i hi => absurd hi (Nat.not_lt_zero _), fun i hi => absurd hi (Nat.not_lt_zero _)⟩
  have hm : 0 < m := Nat.pos_of_ne_zero hm
  have hD : 0 ≤ D := by
    have : 0 ≤ B := (abs_nonneg _).trans (hB 0 hm a ⟨le_rfl, by linarith⟩)
    positivity
  obtain ⟨⟨i0, j0⟩, h1, h2⟩ := Finset.exists_max_image (Finset.range m ×ˢ Finset.range tau.length)
    (fun q => |X q.1 q.2 - y q.1 (a + h * nd tau q.2)|) ⟨(0, 0), by simp [hm, hpos]⟩
  obtain ⟨hi0, hj0⟩ : i0 < m ∧ j0 < tau.length := by simpa using h1
  set e := |X i0 j0 - y i0 (a + h * nd tau j0)| with he
  have hmax : ∀ i < m, ∀ j < tau.length, |X i j - y i (a + h * nd tau j)| ≤ e := fun i hi j hj =>
    h2 (i, j) (by simp [hi, hj])
  have he0 : 0 ≤ e := abs_nonneg _
  have hk' : ∀ i < m, ∀ j < tau.length, |k i j - f i (a + h * nd tau j)| ≤ L * e := fun i hi j hj =>
    hk j hj e (fun i hi => hmax i hi j hj) i hi
  -- the error with weights `w` of the point `c`
  have key : ∀ i < m, ∀ c ∈ Icc (0 : ℝ) 1, ∀ γ, ∑ l ∈ Finset.range tau.length, |((butcherPoly tau l).polyint).eval c| ≤ γ →
      |x i + h * ∑ l ∈ Finset.range tau.length, k i l * ((butcherPoly tau l).polyint).eval c - y i (a + h * c)| ≤
        ε + h * (γ * (L * e)) + h * ((1 + γ) * D) := by
    intro i hi c hc γ hγ
    have q1 := quadrature_error hd hpos h01 hh (hy i hi) (hf i hi) (hB i hi) hc
    have q2 : |∑ l ∈ Finset.range tau.length, (k i l - f i (a + h * nd tau l)) * ((butcherPoly tau l).polyint).eval c| ≤ γ * (L * e) := by
      refine (Finset.abs_sum_le_sum_abs _ _).trans ?_
      refine le_trans ?_ (mul_le_mul_of_nonneg_right hγ (mul_nonneg hL he0))
      rw [Finset.sum_mul]
      refine Finset.sum_le_sum fun l hl => ?_
      rw [abs_mul, mul_comm]
      exact mul_le_mul_of_nonneg_left (hk' i hi l (Finset.mem_range.mp hl)) (abs_nonneg _)
    have q3 : x i + h * ∑ l ∈ Finset.range tau.length, k i l * ((butcherPoly tau l).polyint).eval c - y i (a + h * c) =
        (x i - y i a) + h * (∑ l ∈ Finset.range tau.length, (k i l - f i (a + h * nd tau l)) * ((butcherPoly tau l).polyint).eval c) -
          (y i (a + h * c) - y i a - h * ∑ l ∈ Finset.range tau.length, f i (a + h * nd tau l) * ((butcherPoly tau l).polyint).eval c) := by
      simp only [sub_mul, Finset.sum_sub_distrib, mul_sub]
      ring
    rw [q3]
    refine (abs_sub _ _).trans ?_
    refine (add_le_add ((abs_add_le _ _).trans (add_le_add (h0 i hi) ?_)) (q1.trans ?_))
    · rw [abs_mul, abs_of_nonneg hh]
      exact mul_le_mul_of_nonneg_left q2 hh
    · exact mul_le_mul_of_nonneg_left (mul_le_mul_of_nonneg_right (by linarith) hD) hh
  have heE : e ≤ E := by
    have := key i0 hi0 (nd tau j0) (h01 j0 hj0) α (hα j0 hj0)
    have hXe := hX i0 hi0 j0 hj0
    unfold wA at hXe
    rw [← hXe, ← he] at this
    rw [le_div_iff₀ (by linarith)]
    have := mul_le_mul_of_nonneg_right hstep he0
    nlinarith
  refine ⟨fun i hi j hj => (hmax i hi j hj).trans heE, fun i hi => ?_⟩
  have := key i hi 1 ⟨zero_le_one, le_rfl⟩ β hβ
  rw [mul_one] at this
  rw [hx' i hi]
  refine this.trans ?_
  have hβ0 : 0 ≤ β := (Finset.sum_nonneg fun _ _ => abs_nonneg _).trans hβ
  gcongr

/-- Discrete Gronwall inequality on a grid. -/
theorem gronwall_grid (t : ℕ → ℝ) (N : ℕ) (ht : ∀ n < N, t n ≤ t (n + 1)) (ε : ℕ → ℝ) (Λ D : ℝ) (hΛ : 0 ≤ Λ) (hD : 0 ≤ D) (h0 : 0 ≤ ε 0)
    (hstep : ∀ n < N, ε (n + 1) ≤ (1 + (t (n + 1) - t n) * Λ) * ε n + (t (n + 1) - t n) * D) :
    ∀ n ≤ N, t 0 ≤ t n ∧ ε n ≤ Real.exp (Λ * (t n - t 0)) * (ε 0 + (t n - t 0) * D) := by
  intro n
  induction n with
  | zero => intro _; simp
  | succ n ih =>
    intro hn
    obtain ⟨h1, h2⟩ := ih (by omega)
    have h3 := ht n (by omega)
    refine ⟨h1.trans h3, (hstep n (by omega)).trans ?_⟩
    set h := t (n + 1) - t n with hh
    have hh0 : 0 ≤ h := sub_nonneg.mpr h3
    have e1 : Λ * (t (n + 1) - t 0) = h * Λ + Λ * (t n - t 0) := by rw [hh]; ring
    have e2 : t (n + 1) - t 0 = h + (t n - t 0) := by rw [hh]; ring
    rw [e1, Real.exp_add, e2]
    have g1 : 1 + h * Λ ≤ Real.exp (h * Λ) := by linarith [Real.add_one_le_exp (h * Λ)]
    have g2 : 1 ≤ Real.exp (h * Λ) := Real.one_le_exp (mul_nonneg hh0 hΛ)
    have g3 : 1 ≤ Real.exp (Λ * (t n - t 0)) := Real.one_le_exp (mul_nonneg hΛ (by linarith))
    have g4 : 0 ≤ ε 0 + (t n - t 0) * D := add_nonneg h0 (mul_nonneg (by linarith) hD)
    calc (1 + h * Λ) * ε n + h * D
        ≤ (1 + h * Λ) * (Real.exp (Λ * (t n - t 0)) * (ε 0 + (t n - t 0) * D)) + h * D :=
          add_le_add (mul_le_mul_of_nonneg_left h2 (by positivity)) le_rfl
      _ ≤ Real.exp (h * Λ) * (Real.exp (Λ * (t n - t 0)) * (ε 0 + (t n - t 0) * D)) + Real.exp (h * Λ) * Real.exp (Λ * (t n - t 0)) * (h * D) := by
          refine add_le_add (mul_le_mul_of_nonneg_right g1 (by positivity)) ?_
          exact le_mul_of_one_le_left (mul_nonneg hh0 hD) (one_le_mul_of_one_le_of_one_le g2 g3)
      _ = _ := by ring

end CE
