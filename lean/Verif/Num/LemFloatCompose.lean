import Verif.Num.FloatCompose
import Verif.Num.LemFloatPoly
import Verif.Num.LemFloatPdq
import Verif.Num.PiecewisePolyLemmas

/-!
# Rounding errors of `compose` and `poly`
-/

open Polynomial

namespace CE

open Poly1d

namespace Rounding

variable {R : Rounding}

theorem step_err {m k : ℕ} {c p M v s : ℝ} (h : |c - p| ≤ R.γ m * M) (hp : |p| ≤ M) (hv : R.Rel k v (c * s)) :
    |v - p * s| ≤ R.γ (m + k) * (M * |s|) := by
  have h1 := hv.abs_sub
  have hs := abs_nonneg s
  have hc : |c| ≤ (1 + R.γ m) * M := by
    have := abs_sub_abs_le_abs_sub c p
    linarith
  have h2 : |c * s - p * s| ≤ R.γ m * M * |s| := by
    rw [← sub_mul, abs_mul]
    exact mul_le_mul_of_nonneg_right h hs
  have h3 : |c * s| ≤ (1 + R.γ m) * M * |s| := by
    rw [abs_mul]
    exact mul_le_mul_of_nonneg_right hc hs
  have h4 : R.γ k * |c * s| ≤ R.γ k * ((1 + R.γ m) * M * |s|) := mul_le_mul_of_nonneg_left h3 (R.γ_nonneg k)
  have h5 := abs_add_le (v - c * s) (c * s - p * s)
  rw [show v - c * s + (c * s - p * s) = v - p * s by ring] at h5
  have h6 := R.one_add_γ_add m k
  have : R.γ (m + k) = R.γ k * (1 + R.γ m) + R.γ m := by linarith
  rw [this]
  linarith

theorem Rel.pow {m : ℕ} {a b : ℝ} (h : R.Rel m a b) (k : ℕ) : R.Rel (m * k) (a ^ k) (b ^ k) := by
  induction k with
  | zero => simpa using Rel.refl (R := R) 1
  | succ k ih =>
    rw [pow_succ, pow_succ, Nat.mul_succ]
    exact ih.mul h

end Rounding

namespace FltC

variable {f : FltC}

theorem psmul_err {m : ℕ} {p : Poly1d ℝ} {P M : ℝ[X]} (h : f.CoeffErr m p.coef P M) (s : ℝ) :
    f.CoeffErr (m + 1) (f.psmul s p).coef (C s * P) (C |s| * M) := by
  unfold psmul
  refine Rounding.CoeffErr.trim fun i => ?_
  rw [coeff_C_mul, coeff_C_mul, abs_mul]
  refine ⟨?_, mul_le_mul_of_nonneg_left (h i).2 (abs_nonneg s)⟩
  rw [mul_comm s, mul_comm |s|]
  refine Rounding.step_err (h i).1 (h i).2 ?_
  rw [coeff_listPoly, coeff_listPoly, List.length_map]
  split
  · rename_i hi
    rw [nd_map _ (by omega), mul_comm s]
    exact Rounding.Rel.rnd _
  · rw [zero_mul]
    exact (Rounding.Rel.refl 0).mono (Nat.zero_le 1)

theorem psmul_length (s : ℝ) (p : Poly1d ℝ) : (f.psmul s p).coef.length ≤ max 1 p.coef.length := by
  unfold psmul
  exact (ofCoeffs_length _).trans (by simp)

theorem padd_err {m : ℕ} {p q : Poly1d ℝ} {P Q M N : ℝ[X]} (h : f.CoeffErr m p.coef P M) (h' : f.CoeffErr m q.coef Q N) :
    f.CoeffErr (m + 1) (f.padd p q).coef (P + Q) (M + N) := by
  unfold padd
  refine Rounding.CoeffErr.trim fun i => ?_
  rw [coeff_add, coeff_add]
  refine ⟨?_, (abs_add_le _ _).trans (add_le_add (h i).2 (h' i).2)⟩
  have key := Rounding.step_err (R := f.toRounding) (m := m) (k := 1) (c := (listPoly p.coef).coeff i + (listPoly q.coef).coeff i)
    (p := P.coeff i + Q.coeff i) (M := M.coeff i + N.coeff i) (s := 1)
    (v := (listPoly (List.zipWith (fun a b => f.rnd (a + b)) (List.replicate (q.coef.length - p.coef.length) 0 ++ p.coef)
      (List.replicate (p.coef.length - q.coef.length) 0 ++ q.coef))).coeff i) (by
      rw [show (listPoly p.coef).coeff i + (listPoly q.coef).coeff i - (P.coeff i + Q.coeff i) =
        ((listPoly p.coef).coeff i - P.coeff i) + ((listPoly q.coef).coeff i - Q.coeff i) by ring, mul_add]
      exact (abs_add_le _ _).trans (add_le_add (h i).1 (h' i).1)) ((abs_add_le _ _).trans (add_le_add (h i).2 (h' i).2)) (by
      have e : ∀ (k : ℕ) (l : List ℝ), listPoly (List.replicate k 0 ++ l) = listPoly l := fun k l => by
        rw [listPoly_append, listPoly_replicate, zero_mul, zero_add]
      rw [mul_one, ← e (q.coef.length - p.coef.length) p.coef, ← e (p.coef.length - q.coef.length) q.coef]
      set A := List.replicate (q.coef.length - p.coef.length) (0 : ℝ) ++ p.coef with hA
      set B := List.replicate (p.coef.length - q.coef.length) (0 : ℝ) ++ q.coef with hB
      have hl : A.length = B.length := by simp [hA, hB]; omega
      rw [coeff_listPoly, coeff_listPoly, coeff_listPoly, List.length_zipWith, ← hl, min_self]
      split
      · have hz : nd (List.zipWith (fun a b => f.rnd (a + b)) A B) (A.length - 1 - i) =
            f.rnd (nd A (A.length - 1 - i) + nd B (A.length - 1 - i)) := by
          have h1 : A.length - 1 - i < A.length := by omega
          have h2 : A.length - 1 - i < B.length := by omega
          simp [nd, List.getElem?_zipWith, h1, h2]
        rw [hz]
        exact Rounding.Rel.rnd _
      · rw [add_zero]
        exact (Rounding.Rel.refl 0).mono (Nat.zero_le 1))
  rwa [mul_one, abs_one, mul_one] at key

theorem padd_length (p q : Poly1d ℝ) : (f.padd p q).coef.length ≤ max 1 (max p.coef.length q.coef.length) := by
  unfold padd
  refine (ofCoeffs_length _).trans ?_
  simp
  omega

/-- The polynomial whose coefficients bound those of the Lagrange polynomial `j`. -/
noncomputable abbrev lagAbs (tau : List ℝ) (j : ℕ) : ℝ[X] :=
  ∏ r ∈ (Finset.range tau.length).erase j, (C |nd tau j - nd tau r|⁻¹ * (X + C |nd tau r|))

theorem composeRow_ok (tau : List ℝ) (hne : tau ≠ []) (c : Mat ℝ) (hc : c.cols ≤ tau.length) (i : ℕ) :
    ∃ q, f.composeRow tau c i = .ok q ∧ q.coef.length ≤ tau.length ∧ q.Trimmed ∧
      f.CoeffErr (4 * (tau.length - 1) + 1 + c.cols) q.coef
        (∑ j ∈ Finset.range c.cols, C (c.e i j) * Lagrange.basis (Finset.range tau.length) (nd tau) j)
        (∑ j ∈ Finset.range c.cols, C |c.e i j| * lagAbs tau j) := by
  have hpos : 1 ≤ tau.length := List.length_pos_iff.mpr hne
  unfold composeRow
  have key : ∀ m ≤ tau.length, ∃ q, (List.range m).foldlM
      (fun q j => if j < tau.length then .ok (f.padd q (f.psmul (c.e i j) (f.lagrangePoly tau j))) else .error PyErr.index)
      (Poly1d.ofCoeffs [0]) = Except.ok q ∧ q.coef.length ≤ tau.length ∧ q.Trimmed ∧
      f.CoeffErr (4 * (tau.length - 1) + 1 + m) q.coef
        (∑ j ∈ Finset.range m, C (c.e i j) * Lagrange.basis (Finset.range tau.length) (nd tau) j)
        (∑ j ∈ Finset.range m, C |c.e i j| * lagAbs tau j) := by
    intro m
    induction m with
    | zero =>
      intro _
      refine ⟨_, rfl, ?_, trimmed_ofCoeffs _, fun i => ?_⟩
      · exact (ofCoeffs_length _).trans (by simpa using hpos)
      · simp [ofCoeffs, listPoly_cons]
    | succ m ih =>
      intro hm
      obtain ⟨q, hq, hl, -, he⟩ := ih (by omega)
      obtain ⟨e1, e2⟩ := lagrange_err (f := f) tau m (by omega)
      refine ⟨f.padd q (f.psmul (c.e i m) (f.lagrangePoly tau m)), ?_, ?_, trimmed_ofCoeffs _, ?_⟩
      · rw [List.range_succ, List.foldlM_append, hq]
        simp only [bind, Except.bind, List.foldlM_cons, List.foldlM_nil, pure, Except.pure, if_pos (show m < tau.length by omega)]
      · have h1 := psmul_length (f := f) (c.e i m) (f.lagrangePoly tau m)
        have h2 := padd_length (f := f) q (f.psmul (c.e i m) (f.lagrangePoly tau m))
        omega
      · rw [Finset.sum_range_succ, Finset.sum_range_succ]
        exact padd_err he ((psmul_err e1 (c.e i m)).mono (Nat.le_add_right _ m))
  exact key c.cols hc

theorem composeRow_index (tau : List ℝ) (c : Mat ℝ) (hc : tau.length < c.cols) (i : ℕ) : f.composeRow tau c i = .error .index := by
  unfold composeRow
  have ok : ∀ m ≤ tau.length, ∃ q, (List.range m).foldlM
      (fun q j => if j < tau.length then .ok (f.padd q (f.psmul (c.e i j) (f.lagrangePoly tau j))) else .error PyErr.index)
      (Poly1d.ofCoeffs [0]) = Except.ok q := by
    intro m
    induction m with
    | zero => exact fun _ => ⟨_, rfl⟩
    | succ m ih =>
      intro hm
      obtain ⟨q, hq⟩ := ih (by omega)
      refine ⟨f.padd q (f.psmul (c.e i m) (f.lagrangePoly tau m)), ?_⟩
      rw [List.range_succ, List.foldlM_append, hq]
      simp only [bind, Except.bind, List.foldlM_cons, List.foldlM_nil, pure, Except.pure, if_pos (show m < tau.length by omega)]
  obtain ⟨q, hq⟩ := ok _ le_rfl
  obtain ⟨d, hd⟩ : ∃ d, c.cols = tau.length + 1 + d := ⟨c.cols - tau.length - 1, by omega⟩
  rw [hd, show List.range (tau.length + 1 + d) = List.range tau.length ++ tau.length :: List.range' (tau.length + 1) d by
    rw [List.range_eq_range', List.range_eq_range', add_assoc, ← List.range'_append, show (1 : ℕ) + d = d + 1 by omega, List.range'_succ]
    simp, List.foldlM_append, hq]
  simp only [bind, Except.bind, List.foldlM_cons, lt_irrefl, if_false]

end FltC

namespace FltP

variable {f : FltP}

theorem rescale_err {m n : ℕ} {p : Poly1d ℝ} {P M : ℝ[X]} (h : f.CoeffErr m p.coef P M) (hl : p.coef.length = n + 1) (a b : ℝ) :
    ∃ q, f.rescale (f.rnd (b - a)) n p = .ok q ∧ q.coef.length = n + 1 ∧
      f.CoeffErr (m + (n + f.powErr + 1)) q.coef (P.comp (C (b - a)⁻¹ * X)) (M.comp (C |b - a|⁻¹ * X)) := by
  unfold rescale
  rw [if_pos hl]
  have hlen : (List.zipWith (fun c (k : ℕ) => f.rnd (c / f.pow (f.rnd (b - a)) k)) p.coef (List.range (n + 1)).reverse).length = n + 1 := by
    simp [hl]
  refine ⟨_, rfl, hlen, fun i => ?_⟩
  rw [comp_C_mul_X_coeff, comp_C_mul_X_coeff, show |b - a|⁻¹ ^ i = |(b - a)⁻¹ ^ i| by rw [abs_pow, abs_inv]]
  refine ⟨Rounding.step_err (h i).1 (h i).2 ?_, ?_⟩
  · rw [coeff_listPoly, coeff_listPoly, hlen, hl]
    rcases Nat.lt_or_ge i (n + 1) with hi | hi
    · rw [if_pos hi, if_pos hi]
      have h1 : n + 1 - 1 - i < p.coef.length := by omega
      have h2 : n + 1 - 1 - i < (List.range (n + 1)).reverse.length := by simp
      have h3 : (List.range (n + 1)).reverse[n + 1 - 1 - i] = i := by
        rw [List.getElem_reverse, List.getElem_range, List.length_range]
        omega
      have hval : nd (List.zipWith (fun c (k : ℕ) => f.rnd (c / f.pow (f.rnd (b - a)) k)) p.coef (List.range (n + 1)).reverse) (n + 1 - 1 - i) =
          f.rnd (nd p.coef (n + 1 - 1 - i) / f.pow (f.rnd (b - a)) i) := by
        unfold nd
        rw [List.getD_eq_getElem?_getD, List.getD_eq_getElem?_getD, List.getElem?_zipWith, List.getElem?_eq_getElem h1,
          List.getElem?_eq_getElem h2, h3]
        rfl
      rw [hval]
      have r1 : f.Rel i (f.rnd (b - a) ^ i) ((b - a) ^ i) := by
        simpa using (Rounding.Rel.rnd (R := f.toRounding) (b - a)).pow i
      have r2 : f.Rel f.powErr (f.pow (f.rnd (b - a)) i) (f.rnd (b - a) ^ i) := f.pow_spec _ _
      have r3 := (Rounding.Rel.refl (R := f.toRounding) (nd p.coef (n + 1 - 1 - i))).div (r2.trans r1)
      have r4 := (Rounding.Rel.rnd (R := f.toRounding) _).trans r3
      rw [div_eq_mul_inv _ ((b - a) ^ i), ← inv_pow] at r4
      exact r4.mono (by omega)
    · rw [if_neg (by omega), if_neg (by omega), zero_mul]
      exact (Rounding.Rel.refl 0).mono (Nat.zero_le _)
  · rw [abs_mul]
    exact mul_le_mul_of_nonneg_right (h i).2 (abs_nonneg _)

end FltP

end CE
