import Verif.Num.FloatInterpolators
import Verif.Num.PropsFloatIntegral
import Verif.Num.PropsFloatCompose

/-!
# C127: `barycentricInterpolator` and `polynomialInterpolator` in floating point
-/

open Polynomial

namespace CE

namespace Flt

variable {f : Flt}

/-- **C127** `barycentricInterpolator(x)(u, xq)` with rounding errors: for distinct nodes it succeeds; the results differ from the values of the
interpolating polynomial at most by rounding errors relative to the sum of the absolute values of the terms of the Lagrange form; at a query point
that is a node the result is exactly the given value, if that is a floating point number. -/
theorem C127_barycentric (x : List ℝ) (hne : x ≠ []) (hd : x.Nodup) (u : Mat ℝ) (hu : u.cols = x.length) (xq : List ℝ) (hq : xq ≠ []) :
    ∃ V, f.barycentricInterpolator x u xq = .ok V ∧ V.rows = u.rows ∧ V.cols = xq.length ∧ ∀ q < xq.length, ∀ r,
      (let l := fun j => (Lagrange.basis (Finset.range x.length) (nd x) j).eval (nd xq q)
       let E := (1 / (1 - f.u) ^ (3 * x.length + 1) - 1) * ∑ k ∈ Finset.range x.length, |l k|
       E < 1 → ∀ P : ℝ[X], P.degree < x.length → (∀ k < x.length, P.eval (nd x k) = u.e r k) →
         |V.e r q - P.eval (nd xq q)| ≤ (1 / (1 - f.u) ^ x.length * (1 + 2 * E / (1 - E)) - 1) *
           ∑ j ∈ Finset.range x.length, |u.e r j * l j|) ∧
      ((∀ j < x.length, f.IsFl (u.e r j)) → ∀ j < x.length, nd xq q = nd x j → V.e r q = u.e r j) := by
  obtain ⟨L, V, hL, hV, hVr, hVc, h⟩ := dot_ok (f := f) hne hd _ (f.polynomialBasis_ok hne) u hu xq hq
  refine ⟨V, ?_, hVr, hVc, fun q hq' r => ⟨fun hE P hP hv => ?_, (h q hq' r).2⟩⟩
  · unfold barycentricInterpolator
    rw [f.polynomialBasis_ok hne]
    simp only [bind, Except.bind, hL]
    exact hV
  · have h1 := (h q hq' r).1 hE
    have hinj := nd_injOn hd
    have he := Lagrange.eq_interpolate hinj (f := P) (by rw [Finset.card_range]; exact hP)
    have hs : ∑ j ∈ Finset.range x.length, u.e r j * lag x j (nd xq q) = P.eval (nd xq q) := by
      conv_rhs => rw [he]
      rw [Lagrange.interpolate_apply, eval_finsetSum]
      refine Finset.sum_congr rfl fun j hj => ?_
      rw [eval_mul, eval_C, hv j (Finset.mem_range.mp hj)]
    rw [hs] at h1
    unfold evalBound at h1
    rw [f.one_add_γ] at h1
    exact h1

/-- **C127** A number of columns other than the number of nodes raises ValueError. -/
theorem C127_columns (x : List ℝ) (hne : x ≠ []) (hd : x.Nodup) (u : Mat ℝ) (hu : u.cols ≠ x.length) (xq : List ℝ) (hq : xq ≠ []) :
    f.barycentricInterpolator x u xq = .error .value := by
  obtain ⟨b, L, hb, hL, -, hLc, -⟩ := f.C111_interpolation x hne hd xq hq
  unfold barycentricInterpolator matDot
  rw [hb]
  simp only [bind, Except.bind, hL]
  rw [if_neg (by simpa only [Mat.T, hLc] using hu)]

end Flt

namespace FltP

variable {f : FltP}

theorem pow_rel (h : ℝ) (k : ℕ) : f.toRounding.Rel f.powErr (f.pow h k) (h ^ k) := by
  obtain ⟨g, h1, h2, h3⟩ := f.pow_spec h k
  exact ⟨g, h1, h2, h3⟩

/-- Rows of the Vandermonde matrix: the exact residual of weights that solve the computed equations approximately. -/
theorem power_residual {x : List ℝ} {b i : ℕ} {w : ℕ → ℝ} {s t : ℝ} (ht : f.toRounding.Rel f.powErr t (s ^ i))
    (h : |∑ k ∈ Finset.range x.length, f.pow (nd x k) i * w k - t| ≤ f.γ b * ∑ k ∈ Finset.range x.length, |f.pow (nd x k) i * w k|) :
    |∑ k ∈ Finset.range x.length, nd x k ^ i * w k - s ^ i| ≤
      f.γ (f.powErr + b) * ∑ k ∈ Finset.range x.length, |nd x k| ^ i * |w k| + f.γ f.powErr * |s| ^ i := by
  set S := ∑ k ∈ Finset.range x.length, |nd x k| ^ i * |w k| with hS
  have h1 : |∑ k ∈ Finset.range x.length, nd x k ^ i * w k - ∑ k ∈ Finset.range x.length, f.pow (nd x k) i * w k| ≤ f.γ f.powErr * S := by
    rw [← Finset.sum_sub_distrib, hS, Finset.mul_sum]
    refine (Finset.abs_sum_le_sum_abs _ _).trans (Finset.sum_le_sum fun k _ => ?_)
    rw [← sub_mul, abs_mul, abs_sub_comm, ← mul_assoc, ← abs_pow]
    exact mul_le_mul_of_nonneg_right (pow_rel _ _).abs_sub (abs_nonneg _)
  have h2 : ∑ k ∈ Finset.range x.length, |f.pow (nd x k) i * w k| ≤ (1 + f.γ f.powErr) * S := by
    rw [hS, Finset.mul_sum]
    refine Finset.sum_le_sum fun k _ => ?_
    rw [abs_mul, ← mul_assoc, ← abs_pow]
    exact mul_le_mul_of_nonneg_right (pow_rel _ _).abs_le (abs_nonneg _)
  have h3 := ht.abs_sub
  rw [abs_pow] at h3
  have h4 := h.trans (mul_le_mul_of_nonneg_left h2 (f.γ_nonneg b))
  have h5 : f.γ (f.powErr + b) * S = f.γ f.powErr * S + f.γ b * ((1 + f.γ f.powErr) * S) := by
    have := f.one_add_γ_add f.powErr b
    have e : f.γ (f.powErr + b) = (1 + f.γ f.powErr) * (1 + f.γ b) - 1 := by linarith
    rw [e]
    ring
  rw [h5]
  rw [abs_le] at h1 h3 h4 ⊢
  constructor <;> linarith [h1.1, h1.2, h3.1, h3.2, h4.1, h4.2]

/-- A polynomial in the points of the Vandermonde matrix. -/
theorem eval_sum_coeff {n : ℕ} {P : ℝ[X]} (hP : P.degree < (n : WithBot ℕ)) (y : ℝ) : P.eval y = ∑ i ∈ Finset.range n, P.coeff i * y ^ i := by
  by_cases h0 : P = 0
  · simp [h0]
  · exact eval_eq_sum_range' (by rwa [← natDegree_lt_iff_degree_lt h0] at hP) _

theorem sum_residual {x : List ℝ} {P : ℝ[X]} (hP : P.degree < (x.length : WithBot ℕ)) (w : ℕ → ℝ) (s : ℝ) :
    ∑ k ∈ Finset.range x.length, P.eval (nd x k) * w k - P.eval s =
      ∑ i ∈ Finset.range x.length, P.coeff i * (∑ k ∈ Finset.range x.length, nd x k ^ i * w k - s ^ i) := by
  have h : ∀ y, P.eval y = ∑ i ∈ Finset.range x.length, P.coeff i * y ^ i := eval_sum_coeff hP
  simp only [h, mul_sub, Finset.sum_sub_distrib, Finset.sum_mul, Finset.mul_sum]
  congr 1
  rw [Finset.sum_comm]
  exact Finset.sum_congr rfl fun i _ => Finset.sum_congr rfl fun k _ => by ring

/-- A bound for the weights. -/
theorem weights_bound {x : List ℝ} {w : ℕ → ℝ} {s A B κ M : ℝ} (hd : x.Nodup)
    (hres : ∀ i < x.length, |∑ k ∈ Finset.range x.length, nd x k ^ i * w k - s ^ i| ≤
      (A * ∑ k ∈ Finset.range x.length, |nd x k| ^ i * |w k|) + B * |s| ^ i) (hA : 0 ≤ A) (hκ : κ < 1)
    (h : ∀ m < x.length, A * ∑ i ∈ Finset.range x.length,
        |(Lagrange.basis (Finset.range x.length) (nd x) m).coeff i| * ∑ k ∈ Finset.range x.length, |nd x k| ^ i ≤ κ ∧
      |(Lagrange.basis (Finset.range x.length) (nd x) m).eval s| + B * ∑ i ∈ Finset.range x.length,
        |(Lagrange.basis (Finset.range x.length) (nd x) m).coeff i| * |s| ^ i ≤ M) : ∀ k < x.length, |w k| ≤ M / (1 - κ) := by
  intro k0 hk0
  obtain ⟨K, hK, hmax⟩ := Finset.exists_max_image (Finset.range x.length) (fun k => |w k|) ⟨k0, by simpa using hk0⟩
  have hK' := Finset.mem_range.mp hK
  have hle : ∀ k < x.length, |w k| ≤ |w K| := fun k hk => hmax k (by simpa using hk)
  set L := Lagrange.basis (Finset.range x.length) (nd x) K with hL
  have hLd : L.degree < (x.length : WithBot ℕ) := by
    rw [hL, Lagrange.degree_basis (nd_injOn hd) (by simpa), Finset.card_range]
    exact_mod_cast (by omega : x.length - 1 < x.length)
  have e : ∑ k ∈ Finset.range x.length, L.eval (nd x k) * w k = w K := by
    rw [Finset.sum_eq_single K]
    · rw [hL, Lagrange.eval_basis_self (nd_injOn hd) (by simpa), one_mul]
    · intro k hk hkm
      rw [hL, Lagrange.eval_basis_of_ne (Ne.symm hkm) hk, zero_mul]
    · intro hm'; exact absurd hK hm'
  have h1 := sum_residual hLd w s
  rw [e] at h1
  have h2 : |w K - L.eval s| ≤ (A * ∑ i ∈ Finset.range x.length, |L.coeff i| * ∑ k ∈ Finset.range x.length, |nd x k| ^ i) * |w K| +
      B * ∑ i ∈ Finset.range x.length, |L.coeff i| * |s| ^ i := by
    rw [h1, mul_assoc, Finset.sum_mul, Finset.mul_sum, Finset.mul_sum, ← Finset.sum_add_distrib]
    refine (Finset.abs_sum_le_sum_abs _ _).trans (Finset.sum_le_sum fun i hi => ?_)
    rw [abs_mul]
    have h3 : ∑ k ∈ Finset.range x.length, |nd x k| ^ i * |w k| ≤ (∑ k ∈ Finset.range x.length, |nd x k| ^ i) * |w K| := by
      rw [Finset.sum_mul]
      exact Finset.sum_le_sum fun k hk => mul_le_mul_of_nonneg_left (hle k (Finset.mem_range.mp hk)) (pow_nonneg (abs_nonneg _) _)
    calc _ ≤ |L.coeff i| * (A * ((∑ k ∈ Finset.range x.length, |nd x k| ^ i) * |w K|) + B * |s| ^ i) :=
          mul_le_mul_of_nonneg_left ((hres i (Finset.mem_range.mp hi)).trans (add_le_add_left (mul_le_mul_of_nonneg_left h3 hA) _)) (abs_nonneg _)
      _ = _ := by ring
  obtain ⟨h4, h5⟩ := h K hK'
  refine (hle k0 hk0).trans ?_
  rw [le_div_iff₀ (by linarith)]
  have h6 := mul_le_mul_of_nonneg_right h4 (abs_nonneg (w K))
  have h7 := abs_sub_abs_le_abs_sub (w K) (L.eval s)
  nlinarith

/-- **C127** `polynomialInterpolator(x)(u, xx)` with rounding errors, for a solver whose residuals are at most `b` relative rounding errors: the
results are inner products with computed weights `W` that satisfy the equations up to rounding errors, and that are bounded by the Lagrange
polynomials, if the rounding errors are small in comparison to the condition of the equations.  The results differ from the value of the interpolating polynomial `P` at most by rounding errors
relative to the coefficients of `P`. -/
theorem C127_polynomial (solve : Mat ℝ → Mat ℝ → Except PyErr (Mat ℝ)) (b : ℕ) (hs : f.Solves b solve) (x : List ℝ) (u : Mat ℝ) (xx : List ℝ)
    (V : Mat ℝ) (hV : f.polynomialInterpolator solve x u xx = .ok V) :
    u.cols = x.length ∧ V.rows = u.rows ∧ V.cols = xx.length ∧ ∃ W : ℕ → ℕ → ℝ, ∀ q < xx.length,
      (∀ i < x.length, |∑ k ∈ Finset.range x.length, nd x k ^ i * W k q - nd xx q ^ i| ≤
        (1 / (1 - f.u) ^ (f.powErr + b) - 1) * ∑ k ∈ Finset.range x.length, |nd x k| ^ i * |W k q| + (1 / (1 - f.u) ^ f.powErr - 1) * |nd xx q| ^ i) ∧
      (∀ κ M, κ < 1 → (∀ m < x.length, (1 / (1 - f.u) ^ (f.powErr + b) - 1) * ∑ i ∈ Finset.range x.length,
          |(Lagrange.basis (Finset.range x.length) (nd x) m).coeff i| * ∑ k ∈ Finset.range x.length, |nd x k| ^ i ≤ κ ∧
        |(Lagrange.basis (Finset.range x.length) (nd x) m).eval (nd xx q)| + (1 / (1 - f.u) ^ f.powErr - 1) * ∑ i ∈ Finset.range x.length,
          |(Lagrange.basis (Finset.range x.length) (nd x) m).coeff i| * |nd xx q| ^ i ≤ M) → x.Nodup → ∀ k < x.length, |W k q| ≤ M / (1 - κ)) ∧
      ∀ r, ∀ P : ℝ[X], P.degree < (x.length : WithBot ℕ) → (∀ k < x.length, P.eval (nd x k) = u.e r k) →
      |V.e r q - P.eval (nd xx q)| ≤ (1 / (1 - f.u) ^ x.length - 1) * ∑ k ∈ Finset.range x.length, |u.e r k * W k q| +
        ∑ i ∈ Finset.range x.length, |P.coeff i| * ((1 / (1 - f.u) ^ (f.powErr + b) - 1) * ∑ k ∈ Finset.range x.length, |nd x k| ^ i * |W k q| +
          (1 / (1 - f.u) ^ f.powErr - 1) * |nd xx q| ^ i) := by
  unfold polynomialInterpolator at hV
  rcases hW : solve ⟨x.length, x.length, fun i k => f.pow (nd x k) i⟩ ⟨x.length, xx.length, fun i q => f.pow (nd xx q) i⟩ with e | W
  · simp only [hW, bind, Except.bind] at hV
    cases hV
  obtain ⟨hWr, hWc, hWv⟩ := hs _ _ W (by rfl) (by rfl) hW
  simp only [hW, bind, Except.bind, Flt.matDot] at hV
  split_ifs at hV with hc
  have hV := Except.ok.inj hV
  subst hV
  have hu : u.cols = x.length := by rw [hc, hWr]
  have hres := fun q (hq : q < xx.length) i (hi : i < x.length) => power_residual (pow_rel (nd xx q) i) (hWv i hi q hq)
  refine ⟨hu, rfl, hWc, fun k q => W.e k q, fun q hq => ⟨hres q hq, fun κ M hκ h hd => ?_, fun r P hP hv => ?_⟩⟩
  · intro k hk
    exact weights_bound hd (hres q hq) (f.γ_nonneg _) hκ h k hk
  have h1 := f.toRounding.dotOf_err (f.dot_spec u W r q)
  rw [List.length_map, List.length_range, List.map_map, List.map_map, hu, list_range_sum, list_range_sum] at h1
  have h2 : |∑ k ∈ Finset.range x.length, u.e r k * W.e k q - P.eval (nd xx q)| ≤ ∑ i ∈ Finset.range x.length, |P.coeff i| *
      (f.γ (f.powErr + b) * ∑ k ∈ Finset.range x.length, |nd x k| ^ i * |W.e k q| + f.γ f.powErr * |nd xx q| ^ i) := by
    have := sum_residual hP (fun k => W.e k q) (nd xx q)
    rw [Finset.sum_congr rfl fun k hk => by rw [hv k (Finset.mem_range.mp hk)]] at this
    rw [this]
    refine (Finset.abs_sum_le_sum_abs _ _).trans (Finset.sum_le_sum fun i hi => ?_)
    rw [abs_mul]
    exact mul_le_mul_of_nonneg_left (power_residual (pow_rel _ _) (hWv i (Finset.mem_range.mp hi) q hq)) (abs_nonneg _)
  simp only [Function.comp_def] at h1
  unfold Rounding.γ at h1 h2
  rw [abs_le] at h1 h2 ⊢
  constructor <;> linarith [h1.1, h1.2, h2.1, h2.2]

/-- **C127** If the relative error of the powers is small in comparison to the condition of the Vandermonde matrix, and the solver succeeds for all
nonsingular matrices, `polynomialInterpolator` succeeds exactly if the data have as many columns as there are nodes. -/
theorem C127_returns (solve : Mat ℝ → Mat ℝ → Except PyErr (Mat ℝ)) (b : ℕ) (hs : f.Solves b solve) (x : List ℝ) (hd : x.Nodup)
    (hn : ∀ A B : Mat ℝ, A.rows = x.length → A.Nonsingular → B.rows = A.rows → ∃ W, solve A B = .ok W)
    (hsmall : ∀ m < x.length, (1 / (1 - f.u) ^ f.powErr - 1) * ∑ i ∈ Finset.range x.length,
      |(Lagrange.basis (Finset.range x.length) (nd x) m).coeff i| * ∑ k ∈ Finset.range x.length, |nd x k| ^ i < 1) (u : Mat ℝ) (xx : List ℝ) :
    (∃ V, f.polynomialInterpolator solve x u xx = .ok V) ↔ u.cols = x.length := by
  constructor
  · rintro ⟨V, hV⟩
    exact (C127_polynomial solve b hs x u xx V hV).1
  intro hu
  obtain ⟨W, hW⟩ := hn ⟨x.length, x.length, fun i k => f.pow (nd x k) i⟩ ⟨x.length, xx.length, fun i q => f.pow (nd xx q) i⟩ rfl
    ⟨rfl, fun v hv => by
      simp only at hv ⊢
      intro k0 hk0
      obtain ⟨K, hK, hmax⟩ := Finset.exists_max_image (Finset.range x.length) (fun k => |v k|) ⟨k0, by simpa using hk0⟩
      have hK' := Finset.mem_range.mp hK
      have hle : ∀ k < x.length, |v k| ≤ |v K| := fun k hk => hmax k (by simpa using hk)
      have hres : ∀ i < x.length, |∑ k ∈ Finset.range x.length, nd x k ^ i * v k| ≤ f.γ f.powErr * ∑ k ∈ Finset.range x.length, |nd x k| ^ i * |v k| := by
        intro i hi
        have h1 : |∑ k ∈ Finset.range x.length, nd x k ^ i * v k - ∑ k ∈ Finset.range x.length, f.pow (nd x k) i * v k| ≤
            f.γ f.powErr * ∑ k ∈ Finset.range x.length, |nd x k| ^ i * |v k| := by
          rw [← Finset.sum_sub_distrib, Finset.mul_sum]
          refine (Finset.abs_sum_le_sum_abs _ _).trans (Finset.sum_le_sum fun k _ => ?_)
          rw [← sub_mul, abs_mul, abs_sub_comm, ← mul_assoc, ← abs_pow]
          exact mul_le_mul_of_nonneg_right (pow_rel _ _).abs_sub (abs_nonneg _)
        rwa [hv i hi, sub_zero] at h1
      set B := Lagrange.basis (Finset.range x.length) (nd x) K with hB
      have hBd : B.degree < (x.length : WithBot ℕ) := by
        rw [hB, Lagrange.degree_basis (nd_injOn hd) (by simpa), Finset.card_range]
        exact_mod_cast (by omega : x.length - 1 < x.length)
      have hvK : v K = ∑ i ∈ Finset.range x.length, B.coeff i * ∑ k ∈ Finset.range x.length, nd x k ^ i * v k := by
        have e : ∑ k ∈ Finset.range x.length, B.eval (nd x k) * v k = v K := by
          rw [Finset.sum_eq_single K]
          · rw [hB, Lagrange.eval_basis_self (nd_injOn hd) (by simpa), one_mul]
          · intro k hk hkm
            rw [hB, Lagrange.eval_basis_of_ne (Ne.symm hkm) hk, zero_mul]
          · intro hm'; exact absurd hK hm'
        rw [← e]
        simp only [eval_sum_coeff hBd, Finset.sum_mul, Finset.mul_sum]
        rw [Finset.sum_comm]
        exact Finset.sum_congr rfl fun i _ => Finset.sum_congr rfl fun k _ => by ring
      have hb : |v K| ≤ ((1 / (1 - f.u) ^ f.powErr - 1) * ∑ i ∈ Finset.range x.length,
          |B.coeff i| * ∑ k ∈ Finset.range x.length, |nd x k| ^ i) * |v K| := by
        conv_lhs => rw [hvK]
        refine (Finset.abs_sum_le_sum_abs _ _).trans ?_
        rw [mul_assoc, Finset.sum_mul, Finset.mul_sum]
        refine Finset.sum_le_sum fun i hi => ?_
        rw [abs_mul]
        have h1 := (hres i (Finset.mem_range.mp hi)).trans (mul_le_mul_of_nonneg_left (Finset.sum_le_sum fun k hk =>
          mul_le_mul_of_nonneg_left (hle k (Finset.mem_range.mp hk)) (pow_nonneg (abs_nonneg (nd x k)) i)) (f.γ_nonneg f.powErr))
        rw [← Finset.sum_mul] at h1
        calc _ ≤ _ := mul_le_mul_of_nonneg_left h1 (abs_nonneg _)
          _ = _ := by rw [Rounding.γ]; ring
      have hz : |v K| = 0 := by
        by_contra h
        have hp : 0 < |v K| := lt_of_le_of_ne (abs_nonneg _) (Ne.symm h)
        have := hsmall K hK'
        nlinarith
      exact abs_nonpos_iff.mp (hz ▸ hle k0 hk0)⟩ rfl
  obtain ⟨hWr, -, -⟩ := hs _ _ W (by rfl) (by rfl) hW
  refine ⟨⟨u.rows, W.cols, f.dot u W⟩, ?_⟩
  unfold polynomialInterpolator
  simp only [hW, bind, Except.bind, Flt.matDot]
  rw [if_pos (by rw [hu, hWr])]

/-- **C127** Without rounding errors, and with an exact solver, both interpolators return the value of the interpolating polynomial. -/
theorem C127_exact (h0 : f.u = 0) (solve : Mat ℝ → Mat ℝ → Except PyErr (Mat ℝ)) (hs : f.Solves 0 solve) (x : List ℝ) (hne : x ≠ []) (hd : x.Nodup)
    (u : Mat ℝ) (xx : List ℝ) (hq : xx ≠ []) (V : Mat ℝ) (hV : f.polynomialInterpolator solve x u xx = .ok V) :
    ∃ V', f.barycentricInterpolator x u xx = .ok V' ∧ ∀ q < xx.length, ∀ r, ∀ P : ℝ[X], P.degree < (x.length : WithBot ℕ) →
      (∀ k < x.length, P.eval (nd x k) = u.e r k) → V.e r q = P.eval (nd xx q) ∧ V'.e r q = P.eval (nd xx q) := by
  obtain ⟨hu, -, -, W, hW⟩ := C127_polynomial solve 0 hs x u xx V hV
  obtain ⟨V', hV', -, -, h'⟩ := Flt.C127_barycentric (f := f.toFlt) x hne hd u hu xx hq
  refine ⟨V', hV', fun q hq' r P hP hv => ?_⟩
  have h1 := (hW q hq').2.2 r P hP hv
  have h2 := (h' q hq' r).1
  simp only [h0, sub_zero, one_pow, div_one, sub_self, zero_mul, add_zero, mul_zero, Finset.sum_const_zero, zero_div, mul_one] at h1 h2
  exact ⟨sub_eq_zero.mp (abs_nonpos_iff.mp h1), sub_eq_zero.mp (abs_nonpos_iff.mp (h2 one_pos P hP hv))⟩

/-- The exact solution, rounded: a solver whose residuals are at most one relative rounding error. -/
theorem exists_solves : ∃ solve : Mat ℝ → Mat ℝ → Except PyErr (Mat ℝ), f.Solves 1 solve ∧
    ∀ A B : Mat ℝ, A.Nonsingular → B.rows = A.rows → ∃ W, solve A B = .ok W := by
  classical
  refine ⟨fun A B => if h : A.Nonsingular then .ok ⟨A.cols, B.cols, fun i j => f.rnd ((exists_solution A B h).choose i j)⟩ else .error .value,
    fun A B W _ _ hW => ?_, fun A B hA _ => ⟨_, dif_pos hA⟩⟩
  beta_reduce at hW
  by_cases h : A.Nonsingular
  · rw [dif_pos h] at hW
    have hW := Except.ok.inj hW
    subst hW
    refine ⟨rfl, rfl, fun i hi j hj => ?_⟩
    simp only
    rw [← (exists_solution A B h).choose_spec i hi j, ← Finset.sum_sub_distrib, Finset.mul_sum]
    refine (Finset.abs_sum_le_sum_abs _ _).trans (Finset.sum_le_sum fun k _ => ?_)
    have := ((Rounding.Rel.refl (A.e i k)).mul (Rounding.Rel.rnd (R := f.toRounding) ((exists_solution A B h).choose k j))).symm.abs_sub
    rw [abs_sub_comm]
    simpa [Rounding.γ] using this
  · rw [dif_neg h] at hW
    cases hW

open Flt (tenth) in
/-- The line through the values 0 and 1 at the nodes 0 and 1, with doubles, at the double next to 1/10: both interpolators succeed;
`polynomialInterpolator` raises for other data. -/
example : ∃ solve, doubleP.Solves 1 solve ∧ ∃ V V', doubleP.polynomialInterpolator solve [0, 1] ⟨1, 2, fun _ j => nd [0, 1] j⟩ [tenth] = .ok V ∧
    doubleP.barycentricInterpolator [0, 1] ⟨1, 2, fun _ j => nd [0, 1] j⟩ [tenth, 1] = .ok V' ∧ |V.e 0 0 - tenth| ≤ 100 / 2 ^ 53 ∧ |V'.e 0 0 - tenth| ≤ 100 / 2 ^ 53 ∧ V'.e 0 1 = 1 ∧
    ∀ Y, doubleP.polynomialInterpolator solve [0, 1] ⟨1, 3, fun _ _ => 1⟩ [tenth] ≠ .ok Y := by
  obtain ⟨solve, hs, hr⟩ := exists_solves (f := doubleP)
  have hu : doubleP.u = 1 / 2 ^ 53 := rfl
  have hp : doubleP.powErr = 1 := rfl
  have hd : ([0, 1] : List ℝ).Nodup := by simp
  have e0 : Lagrange.basis (Finset.range 2) (nd ([0, 1] : List ℝ)) 0 = 1 - X := by
    rw [Lagrange.basis, show (Finset.range 2).erase 0 = {1} by decide, Finset.prod_singleton, Lagrange.basisDivisor]
    norm_num [nd]
  have e1 : Lagrange.basis (Finset.range 2) (nd ([0, 1] : List ℝ)) 1 = X := by
    rw [Lagrange.basis, show (Finset.range 2).erase 1 = {0} by decide, Finset.prod_singleton, Lagrange.basisDivisor]
    norm_num [nd]
  have h := C127_returns (f := doubleP) solve 1 hs [0, 1] hd (fun A B _ hA hB => hr A B hA hB) (by
    intro m hm
    have hm : m = 0 ∨ m = 1 := by simp at hm; omega
    simp only [List.length_cons, List.length_nil, Nat.zero_add, show (1 + 1 : ℕ) = 2 from rfl, hu, hp]
    rcases hm with rfl | rfl
    · rw [e0]
      norm_num [Finset.sum_range_succ, nd, coeff_one]
    · rw [e1]
      norm_num [Finset.sum_range_succ, nd])
  obtain ⟨V, hV⟩ := (h ⟨1, 2, fun _ j => nd [0, 1] j⟩ [tenth]).mpr rfl
  obtain ⟨V', hV', -, -, h'⟩ := Flt.C127_barycentric (f := doubleP.toFlt) [0, 1] (by simp) hd ⟨1, 2, fun _ j => nd [0, 1] j⟩ rfl [tenth, 1] (by simp)
  refine ⟨solve, hs, V, V', hV, hV', ?_, ?_, ?_, fun Y hY => ?_⟩
  · obtain ⟨-, -, -, W, hW⟩ := C127_polynomial (f := doubleP) solve 1 hs _ _ _ V hV
    obtain ⟨-, hb, hv⟩ := hW 0 (by simp)
    have q0 : nd [tenth] 0 = tenth := rfl
    have hb := hb (1 / 2) 2 (by norm_num) (by
      intro m hm
      have hm : m = 0 ∨ m = 1 := by simp at hm; omega
      simp only [List.length_cons, List.length_nil, Nat.zero_add, show (1 + 1 : ℕ) = 2 from rfl, hu, hp, q0]
      rcases hm with rfl | rfl
      · rw [e0]
        norm_num [Finset.sum_range_succ, nd, coeff_one, tenth, abs_of_pos]
      · rw [e1]
        norm_num [Finset.sum_range_succ, nd, tenth, abs_of_pos]) hd
    have b0 := hb 0 (by simp)
    have b1 := hb 1 (by simp)
    have hv := hv 0 X (by rw [degree_X]; exact_mod_cast Nat.one_lt_two) (by
      intro k hk
      have hk : k = 0 ∨ k = 1 := by simp at hk; omega
      rcases hk with rfl | rfl <;> simp [nd])
    simp only [List.length_cons, List.length_nil, Nat.zero_add, show (1 + 1 : ℕ) = 2 from rfl, hu, hp, q0, eval_X, Finset.sum_range_succ,
      Finset.range_zero, Finset.sum_empty] at hv
    refine hv.trans ?_
    norm_num [nd, tenth, abs_of_pos] at b0 b1 ⊢
    linarith
  · have h1 := (h' 0 (by simp) 0).1
    have q0 : nd [tenth, 1] 0 = tenth := rfl
    simp only [List.length_cons, List.length_nil, Nat.zero_add, show (1 + 1 : ℕ) = 2 from rfl, hu, q0, Finset.sum_range_succ, Finset.range_zero,
      Finset.sum_empty, e0, e1, eval_sub, eval_one, eval_X] at h1
    have h2 := h1 (by norm_num [tenth, abs_of_pos]) X (by rw [degree_X]; exact_mod_cast Nat.one_lt_two) (by
      intro k hk
      have hk : k = 0 ∨ k = 1 := by omega
      rcases hk with rfl | rfl <;> simp [nd])
    rw [eval_X] at h2
    refine h2.trans ?_
    norm_num [tenth, nd, abs_of_pos]
  · have := (h' 1 (by simp) 0).2 (by
      intro j hj
      have hj : j = 0 ∨ j = 1 := by simp at hj; omega
      rcases hj with rfl | rfl
      · exact double.zero
      · exact double.one) 1 (by simp) rfl
    exact this
  · have := (h _ _).mp ⟨Y, hY⟩
    simp at this

end FltP

end CE
