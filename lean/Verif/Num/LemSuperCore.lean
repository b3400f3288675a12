import Verif.Num.LemSuperStep

/-!
# Lemmas for C91 and C92: the error of all steps of the collocation method
-/

open Polynomial Set

namespace CE

/-- The errors at the grid points, if the rates at the collocation points are Lipschitz continuous in the states, with a linear part `J` and a
quadratic remainder. -/
theorem super_core {tau : List ℝ} (hd : tau.Nodup) (hpos : 0 < tau.length) (h01 : ∀ k < tau.length, nd tau k ∈ Icc (0 : ℝ) 1) {m : ℕ}
    (hm1 : 1 ≤ m) (hms : m ≤ tau.length) (hw : WeightsExact tau (tau.length + m)) {α β L θ Γ C₂ B ε H : ℝ}
    (hα' : ∀ j < tau.length, ∑ k ∈ Finset.range tau.length, |wA tau j k| ≤ α) (hβ' : ∑ k ∈ Finset.range tau.length, |wb tau k| ≤ β)
    (hL0 : 0 ≤ L) (hC0 : 0 ≤ C₂) (hB0 : 0 ≤ B) (hΓ : 1 ≤ Γ) (hε : 0 ≤ ε) (hH0 : 0 ≤ H) (hH1 : H ≤ 1) (hθ : θ < 1) (hstep : L * (H * α) ≤ θ)
    (nx N : ℕ) {t : ℕ → ℝ} (ht : ∀ n < N, t n < t (n + 1) ∧ t (n + 1) - t n ≤ H) {y : ℕ → ℝ → ℝ} {f : ℕ → ℕ → ℝ → ℝ}
    (hderiv : ∀ n < N, ∀ i < nx, ∀ τ ∈ Icc (t n) (t (n + 1)), HasDerivWithinAt (y i) (f n i τ) (Icc (t n) (t (n + 1))) τ)
    (hsm : ∀ n < N, ∀ i < nx, ContDiffOn ℝ (tau.length + m : ℕ) (f n i) (Icc (t n) (t (n + 1))))
    (hB : ∀ n < N, ∀ i < nx, ∀ q, tau.length ≤ q → q ≤ tau.length + m → ∀ τ ∈ Icc (t n) (t (n + 1)),
      |iteratedDerivWithin q (f n i) (Icc (t n) (t (n + 1))) τ| ≤ B)
    {J : ℕ → ℕ → ℕ → ℝ → ℝ} (hJs : ∀ n < N, ∀ i < nx, ∀ l < nx, ContDiffOn ℝ (m - 1 : ℕ) (J n i l) (Icc (t n) (t (n + 1))))
    (hJ : ∀ n < N, ∀ i < nx, ∀ l < nx, ∀ q < m, ∀ τ ∈ Icc (t n) (t (n + 1)),
      nx * |iteratedDerivWithin q (J n i l) (Icc (t n) (t (n + 1))) τ| ≤ Γ)
    {x : ℕ → ℕ → ℝ} {X' k : ℕ → ℕ → ℕ → ℝ}
    (hX : ∀ n < N, ∀ i < nx, ∀ j < tau.length, X' n i j = x n i + (t (n + 1) - t n) * ∑ l ∈ Finset.range tau.length, k n i l * wA tau j l)
    (hx' : ∀ n < N, ∀ i < nx, x (n + 1) i = x n i + (t (n + 1) - t n) * ∑ l ∈ Finset.range tau.length, k n i l * wb tau l)
    (hrate : ∀ n < N, ∀ j < tau.length, ∀ δ, (∀ i < nx, |X' n i j - y i (t n + (t (n + 1) - t n) * nd tau j)| ≤ δ) →
      ∀ i < nx, |k n i j - f n i (t n + (t (n + 1) - t n) * nd tau j)| ≤ L * δ)
    (hrem : ∀ n < N, ∀ j < tau.length, ∀ δ, (∀ i < nx, |X' n i j - y i (t n + (t (n + 1) - t n) * nd tau j)| ≤ δ) →
      ∀ i < nx, |k n i j - f n i (t n + (t (n + 1) - t n) * nd tau j) - ∑ l ∈ Finset.range nx,
        J n i l (t n + (t (n + 1) - t n) * nd tau j) * (X' n l j - y l (t n + (t (n + 1) - t n) * nd tau j))| ≤ C₂ * δ ^ 2)
    (h0 : ∀ i < nx, |x 0 i - y i (t 0)| ≤ ε) :
    let W := m ^ 2 * Γ ^ (m + 1)
    let Q := (1 + α) * B / (1 - θ)
    let G := W * (1 + β * (1 + 2 * (L + Γ)) / (1 - θ))
    let D := W * (β * (Q + 4 * C₂ * Q ^ 2) + (1 + β) * B)
    ∀ n ≤ N, ∀ i < nx, |x n i - y i (t n)| ≤ Real.exp (G * (t n - t 0)) * (ε + (t n - t 0) * (D * H ^ (tau.length + m))) := by
  intro W Q G D
  set order := tau.length with hlen
  have hβ0 : 0 ≤ β := (Finset.sum_nonneg fun _ _ => abs_nonneg _).trans hβ'
  have hα0 : 0 ≤ α := (Finset.sum_nonneg fun _ _ => abs_nonneg _).trans (hα' 0 hpos)
  have h1θ : 0 < 1 - θ := by linarith
  have hΓ0 : 0 ≤ Γ := by linarith
  have hW0 : 0 ≤ W := by positivity
  have hQ0 : 0 ≤ Q := by positivity
  have hG : 0 ≤ G := by positivity
  have hD : 0 ≤ D := by positivity
  obtain ⟨M, rfl⟩ : ∃ M, m = M + 1 := ⟨m - 1, by omega⟩
  rw [Nat.add_sub_cancel] at hJs
  have hW : W = (M + 1) ^ 2 * Γ ^ (M + 2) := by simp only [W]; push_cast; ring
  -- one step
  have step : ∀ n < N, ∀ εn, 0 ≤ εn → (∀ i < nx, |x n i - y i (t n)| ≤ εn) →
      ∀ i < nx, |x (n + 1) i - y i (t (n + 1))| ≤ (1 + (t (n + 1) - t n) * G) * εn +
        (t (n + 1) - t n) * (D * H ^ (order + (M + 1))) := by
    intro n hn εn hεn hx i0 hi0
    obtain ⟨t1, t2⟩ := ht n hn
    have hXs := hX n hn
    have hxs := hx' n hn
    have hrs := hrate n hn
    have hrq := hrem n hn
    set h := t (n + 1) - t n with hh
    have hh0 : 0 < h := sub_pos.mpr t1
    have hh1 : h ≤ 1 := t2.trans hH1
    have hadd : t n + h = t (n + 1) := by rw [hh]; ring
    have hy : ∀ i < nx, ∀ τ ∈ Icc (t n) (t n + h), HasDerivWithinAt (y i) (f n i τ) (Icc (t n) (t n + h)) τ := by
      rw [hadd]
      exact hderiv n hn
    have hfs : ∀ i < nx, ContDiffOn ℝ (tau.length + (M + 1) : ℕ) (f n i) (Icc (t n) (t n + h)) := by
      rw [hadd]
      exact hsm n hn
    have hBs : ∀ i < nx, ∀ q, tau.length ≤ q → q ≤ tau.length + (M + 1) → ∀ τ ∈ Icc (t n) (t n + h),
        |iteratedDerivWithin q (f n i) (Icc (t n) (t n + h)) τ| ≤ B := by
      rw [hadd]
      exact hB n hn
    -- the errors at the collocation points
    have key := (step_error hd hpos h01 (a := t n) (h := h) (B := B) (L := L) (θ := θ) (α := α) (β := β) (ε := εn)
      hh0.le hL0 hθ hεn nx hα' hβ' (le_trans (mul_le_mul_of_nonneg_left (mul_le_mul_of_nonneg_right t2 hα0) hL0) hstep)
      (y := y) (f := f n) hy (fun i hi => (hfs i hi).of_le (by exact_mod_cast Nat.le_add_right _ _))
      (fun i hi => hBs i hi _ le_rfl (Nat.le_add_right _ _))
      (x := x n) (x' := x (n + 1)) (X := X' n) (k := k n) hXs hxs hrs hx).1
    rw [← hlen] at key
    set q := (1 + α) * B * h ^ (order + 1) with hq
    have hq0 : 0 ≤ q := by positivity
    set E := (εn + q) / (1 - θ) with hE
    have hE0 : 0 ≤ E := by positivity
    have hEs : ∀ i < nx, ∀ j < order, |X' n i j - y i (t n + h * nd tau j)| ≤ E := by
      intro i hi j hj
      refine (key i hi j hj).trans ?_
      have e1 : B * h ^ order / ((order - 1).factorial : ℝ) ≤ B * h ^ order :=
        div_le_self (by positivity) (by exact_mod_cast Nat.succ_le_of_lt (Nat.factorial_pos _))
      have e2 : h * ((1 + α) * (B * h ^ order / ((order - 1).factorial : ℝ))) ≤ q := by
        calc _ ≤ h * ((1 + α) * (B * h ^ order)) := by gcongr
          _ = q := by rw [hq]; ring
      rw [hE]
      gcongr
    have hmem : ∀ j < order, t n + h * nd tau j ∈ Icc (t n) (t (n + 1)) := by
      intro j hj
      have := h01 j hj
      constructor
      · nlinarith [this.1]
      · have : h * nd tau j ≤ h := by nlinarith [this.2]
        linarith
    -- the Jacobian
    have hnx0 : (0 : ℝ) < nx := by exact_mod_cast (by omega : 0 < nx)
    have hentry : ∀ i < nx, ∀ l < nx, ∀ q < M + 1, ∀ τ ∈ Icc (t n) (t (n + 1)),
        |iteratedDerivWithin q (J n i l) (Icc (t n) (t (n + 1))) τ| ≤ Γ / nx := by
      intro i hi l hl q hq τ hτ
      rw [le_div_iff₀ hnx0, mul_comm]
      exact hJ n hn i hi l hl q hq τ hτ
    have hsum : ∀ g : ℕ → ℝ, ∀ c, (∀ l < nx, g l ≤ c * (Γ / nx)) → ∑ l ∈ Finset.range nx, g l ≤ c * Γ := by
      intro g c hg
      calc _ ≤ ∑ l ∈ Finset.range nx, c * (Γ / nx) := Finset.sum_le_sum fun l hl => hg l (Finset.mem_range.mp hl)
        _ = c * Γ := by
          rw [Finset.sum_const, Finset.card_range, nsmul_eq_mul]
          field_simp
    let Jc : ℕ → ℕ → ℕ → ℝ := fun q i l => if q < M + 1 then
      iteratedDerivWithin q (J n i l) (Icc (t n) (t (n + 1))) (t (n + 1)) / (q.factorial : ℝ) else 0
    have hJc : ∀ q, ∀ i < nx, ∑ l ∈ Finset.range nx, |Jc q i l| ≤ Γ := by
      intro q i hi
      rw [← one_mul Γ]
      refine hsum _ _ fun l hl => ?_
      rw [one_mul]
      simp only [Jc]
      split_ifs with hq
      · rw [abs_div, Nat.abs_cast]
        refine (div_le_self (abs_nonneg _) ?_).trans (hentry i hi l hl q hq _ ⟨t1.le, le_rfl⟩)
        exact_mod_cast Nat.succ_le_of_lt (Nat.factorial_pos _)
      · rw [abs_zero]
        positivity
    have hJt : ∀ j < order, ∀ i < nx, ∑ l ∈ Finset.range nx, |J n i l (t n + h * nd tau j) -
        ∑ q ∈ Finset.range M, Jc q i l * (t n + h * nd tau j - (t n + h)) ^ q| ≤ h ^ M * Γ := by
      intro j hj i hi
      refine hsum _ _ fun l hl => ?_
      have e1 := taylor_right_contDiff t1 M (hJs n hn i hi l hl) (hentry i hi l hl M (Nat.lt_succ_self M)) _ (hmem j hj)
      have e2 : ∑ q ∈ Finset.range M, Jc q i l * (t n + h * nd tau j - (t n + h)) ^ q =
          ∑ q ∈ Finset.range M, iteratedDerivWithin q (J n i l) (Icc (t n) (t (n + 1))) (t (n + 1)) / (q.factorial : ℝ) *
            (t n + h * nd tau j - t (n + 1)) ^ q := by
        refine Finset.sum_congr rfl fun q hq => ?_
        have := Finset.mem_range.mp hq
        simp only [Jc, if_pos (by omega : q < M + 1), hadd]
      rw [e2]
      refine e1.trans ?_
      rw [mul_comm]
      have hm1 := hmem j hj
      refine mul_le_mul_of_nonneg_right (pow_le_pow_left₀ (by linarith [hm1.2]) (by linarith [hm1.1]) _) (by positivity)
    have hJrow : ∀ j < order, ∀ i < nx, ∑ l ∈ Finset.range nx, |J n i l (t n + h * nd tau j)| ≤ Γ := by
      intro j hj i hi
      rw [← one_mul Γ]
      refine hsum _ _ fun l hl => ?_
      have := hentry i hi l hl 0 (Nat.succ_pos _) _ (hmem j hj)
      rw [iteratedDerivWithin_zero] at this
      rw [one_mul]
      exact this
    -- the remainder
    set R := 4 * C₂ * (q / (1 - θ)) ^ 2 + 2 * (L + Γ) * εn / (1 - θ) with hR
    have hR0 : 0 ≤ R := by positivity
    have hRs : ∀ i < nx, ∀ j < order, |k n i j - f n i (t n + h * nd tau j) -
        ∑ l ∈ Finset.range nx, J n i l (t n + h * nd tau j) * (X' n l j - y l (t n + h * nd tau j))| ≤ R := by
      intro i hi j hj
      rcases le_total εn q with hle | hle
      · refine (hrq j hj E (fun i hi => hEs i hi j hj) i hi).trans ?_
        have e4 : E ≤ 2 * (q / (1 - θ)) := by
          rw [hE, ← mul_div_assoc]
          exact div_le_div_of_nonneg_right (by linarith) h1θ.le
        calc C₂ * E ^ 2 ≤ C₂ * (2 * (q / (1 - θ))) ^ 2 := by gcongr
          _ = 4 * C₂ * (q / (1 - θ)) ^ 2 := by ring
          _ ≤ R := le_add_of_nonneg_right (by positivity)
      · have e1 := hrs j hj E (fun i hi => hEs i hi j hj) i hi
        have e2 : |∑ l ∈ Finset.range nx, J n i l (t n + h * nd tau j) * (X' n l j - y l (t n + h * nd tau j))| ≤ Γ * E := by
          refine (Finset.abs_sum_le_sum_abs _ _).trans ?_
          refine le_trans (Finset.sum_le_sum fun l hl => ?_) (le_trans (le_of_eq (Finset.sum_mul _ _ _).symm)
            (mul_le_mul_of_nonneg_right (hJrow j hj i hi) hE0))
          rw [abs_mul]
          exact mul_le_mul_of_nonneg_left (hEs l (Finset.mem_range.mp hl) j hj) (abs_nonneg _)
        have e3 : E ≤ 2 * εn / (1 - θ) := by
          rw [hE]
          exact div_le_div_of_nonneg_right (by linarith) h1θ.le
        calc _ ≤ L * E + Γ * E := (abs_sub _ _).trans (add_le_add e1 e2)
          _ = (L + Γ) * E := by ring
          _ ≤ (L + Γ) * (2 * εn / (1 - θ)) := by gcongr
          _ = 2 * (L + Γ) * εn / (1 - θ) := by ring
          _ ≤ R := le_add_of_nonneg_left (by positivity)
    have fin := super_step (M := M) (a := t n) (h := h) (B := B) (β := β) (Γ := Γ) (ε := εn) (E := E) (R := R) hd hw h01
      hh0 hh1 hΓ hβ' hE0 hR0 hB0 nx (y := y) (f := f n) hy hfs hBs (x := x n) (x' := x (n + 1))
      (X' := X' n) (k := k n) hXs hxs hJc
      (Jt := fun j i l => J n i l (t n + h * nd tau j)) hJt hEs hRs hx i0 hi0
    rw [← hlen, hadd, ← hW] at fin
    refine fin.trans ?_
    -- collect the terms
    have hP : h ^ (order + (M + 1)) ≤ H ^ (order + (M + 1)) := pow_le_pow_left₀ hh0.le t2 _
    have hM1 : h ^ M ≤ 1 := pow_le_one₀ hh0.le hh1
    have c1 : h ^ M * E ≤ εn / (1 - θ) + Q * H ^ (order + (M + 1)) := by
      have : h ^ M * E = h ^ M * εn / (1 - θ) + Q * h ^ (order + (M + 1)) := by
        simp only [hE, hq, Q]
        rw [show order + (M + 1) = M + (order + 1) by omega, pow_add h M]
        field_simp
      rw [this]
      have : h ^ M * εn ≤ εn := mul_le_of_le_one_left hεn hM1
      gcongr
    have c2 : R ≤ 4 * C₂ * Q ^ 2 * H ^ (order + (M + 1)) + 2 * (L + Γ) * εn / (1 - θ) := by
      have e1 : (q / (1 - θ)) ^ 2 ≤ Q ^ 2 * H ^ (order + (M + 1)) := by
        have : (q / (1 - θ)) ^ 2 = Q ^ 2 * h ^ (2 * (order + 1)) := by
          simp only [hq, Q]
          rw [mul_comm 2, pow_mul]
          field_simp
        rw [this]
        refine mul_le_mul_of_nonneg_left ((pow_le_pow_of_le_one hh0.le hh1 (by omega)).trans hP) (by positivity)
      rw [hR]
      have := mul_le_mul_of_nonneg_left e1 (by positivity : 0 ≤ 4 * C₂)
      linarith
    have c3 : h ^ (order + (M + 1) + 1) * (W * ((1 + β) * B)) ≤ h * (W * ((1 + β) * B) * H ^ (order + (M + 1))) := by
      rw [pow_succ]
      calc _ = h * (W * ((1 + β) * B) * h ^ (order + (M + 1))) := by ring
        _ ≤ _ := by gcongr
    have c4 : h * (β * (W * (h ^ M * E + R))) ≤ h * (β * (W * ((εn / (1 - θ) + Q * H ^ (order + (M + 1))) +
        (4 * C₂ * Q ^ 2 * H ^ (order + (M + 1)) + 2 * (L + Γ) * εn / (1 - θ))))) := by
      gcongr
    calc _ ≤ (1 + h * W) * εn + h * (β * (W * ((εn / (1 - θ) + Q * H ^ (order + (M + 1))) +
        (4 * C₂ * Q ^ 2 * H ^ (order + (M + 1)) + 2 * (L + Γ) * εn / (1 - θ))))) + h * (W * ((1 + β) * B) * H ^ (order + (M + 1))) :=
          add_le_add (add_le_add le_rfl c4) c3
      _ = _ := by
        simp only [G, D]
        field_simp
        ring
  -- all steps
  have gron := gronwall_grid t N (fun n hn => (ht n hn).1.le)
    (fun n => Nat.rec ε (fun n e => (1 + (t (n + 1) - t n) * G) * e + (t (n + 1) - t n) * (D * H ^ (order + (M + 1)))) n)
    G (D * H ^ (order + (M + 1))) hG (by positivity) hε (fun n hn => le_rfl)
  have err : ∀ n ≤ N, 0 ≤ (Nat.rec ε (fun n e => (1 + (t (n + 1) - t n) * G) * e +
      (t (n + 1) - t n) * (D * H ^ (order + (M + 1)))) n : ℝ) ∧ ∀ i < nx, |x n i - y i (t n)| ≤
      (Nat.rec ε (fun n e => (1 + (t (n + 1) - t n) * G) * e + (t (n + 1) - t n) * (D * H ^ (order + (M + 1)))) n : ℝ) := by
    intro n
    induction n with
    | zero => intro _; exact ⟨hε, h0⟩
    | succ n ih =>
      intro hn
      obtain ⟨i1, i2⟩ := ih (by omega)
      have hh0 : 0 ≤ t (n + 1) - t n := sub_nonneg.mpr (ht n (by omega)).1.le
      exact ⟨by positivity, step n (by omega) _ i1 i2⟩
  exact fun n hn i hi => ((err n hn).2 i hi).trans (gron n hn).2

end CE
