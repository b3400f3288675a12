import Verif.Num.Poly1d
import Mathlib.Algebra.Polynomial.Derivative
import Mathlib.Algebra.Polynomial.Degree.Lemmas
import Mathlib.Algebra.Polynomial.Eval.Degree
import Mathlib.Algebra.CharZero.Defs
import Mathlib.Tactic.Ring
import Mathlib.Tactic.FieldSimp

/-! # Lemmas: `Poly1d` computes in Mathlib's `Polynomial K` -/

open Polynomial

namespace CE
namespace Poly1d

variable {K : Type*} [Field K]

/-- The polynomial denoted by a coefficient list, highest degree first. -/
noncomputable def listPoly (l : List K) : K[X] := l.foldl (fun acc c => acc * X + C c) 0

theorem foldl_listPoly (l : List K) (a : K[X]) :
    l.foldl (fun acc c => acc * X + C c) a = a * X ^ l.length + listPoly l := by
  induction l generalizing a with
  | nil => simp [listPoly]
  | cons c l ih =>
    simp only [List.foldl_cons, listPoly, List.length_cons]
    rw [ih, ih (0 * X + C c)]
    ring

@[simp] theorem listPoly_nil : listPoly ([] : List K) = 0 := rfl

theorem listPoly_cons (c : K) (l : List K) : listPoly (c :: l) = C c * X ^ l.length + listPoly l := by
  conv_lhs => rw [listPoly, List.foldl_cons, foldl_listPoly]
  simp

theorem listPoly_append (l r : List K) :
    listPoly (l ++ r) = listPoly l * X ^ r.length + listPoly r := by
  conv_lhs => rw [listPoly, List.foldl_append, foldl_listPoly]
  rfl

@[simp] theorem listPoly_replicate (n : ℕ) : listPoly (List.replicate n (0 : K)) = 0 := by
  induction n with
  | zero => rfl
  | succ n ih => simp [List.replicate_succ, listPoly_cons, ih]

theorem listPoly_zipWith_add (a b : List K) (h : a.length = b.length) :
    listPoly (List.zipWith (· + ·) a b) = listPoly a + listPoly b := by
  induction a generalizing b with
  | nil => cases b <;> simp_all
  | cons x a ih =>
    cases b with
    | nil => simp at h
    | cons y b =>
      simp only [List.length_cons, Nat.add_right_cancel_iff] at h
      simp only [List.zipWith_cons_cons, listPoly_cons, ih b h, List.length_zipWith, h, min_self,
        map_add]
      ring

theorem listPoly_addPad (a b : List K) : listPoly (addPad a b) = listPoly a + listPoly b := by
  unfold addPad
  rw [listPoly_zipWith_add _ _ (by simp; omega), listPoly_append, listPoly_append]
  simp

theorem length_addPad (a b : List K) : (addPad a b).length = max a.length b.length := by
  unfold addPad; simp; omega

theorem listPoly_map_mul (s : K) (l : List K) : listPoly (l.map (s * ·)) = C s * listPoly l := by
  induction l with
  | nil => simp
  | cons c l ih => simp [listPoly_cons, ih, mul_add, mul_assoc]

theorem listPoly_map_div (s : K) (l : List K) : listPoly (l.map (· / s)) = C s⁻¹ * listPoly l := by
  rw [← listPoly_map_mul]; congr 1; simp [div_eq_mul_inv, mul_comm]

theorem listPoly_convolve (a b : List K) : listPoly (convolve a b) = listPoly a * listPoly b := by
  induction a with
  | nil => simp [convolve]
  | cons x a ih =>
    simp only [convolve, listPoly_addPad, listPoly_append, listPoly_replicate, listPoly_map_mul,
      List.length_replicate, ih, listPoly_cons]
    ring

theorem listPoly_dropWhile [DecidableEq K] (l : List K) :
    listPoly (l.dropWhile (fun a => decide (a = 0))) = listPoly l := by
  induction l with
  | nil => rfl
  | cons c l ih =>
    by_cases h : c = 0
    · simp [h, ih, listPoly_cons]
    · simp [h]

/-- The polynomial denoted by a `poly1d`. -/
noncomputable def toPoly (p : Poly1d K) : K[X] := listPoly p.coef

variable [DecidableEq K]

@[simp] theorem toPoly_ofCoeffs (l : List K) : (ofCoeffs l).toPoly = listPoly l := by
  rw [← listPoly_dropWhile l]
  unfold ofCoeffs toPoly
  split
  · next h => rw [h]; simp [listPoly_cons]
  · rfl

@[simp] theorem toPoly_mul (p q : Poly1d K) : (p.mul q).toPoly = p.toPoly * q.toPoly := by
  rw [mul, toPoly_ofCoeffs, listPoly_convolve]; rfl

@[simp] theorem toPoly_divs (p : Poly1d K) (s : K) : (p.divs s).toPoly = C s⁻¹ * p.toPoly := by
  rw [divs, toPoly_ofCoeffs, listPoly_map_div]; rfl

@[simp] theorem toPoly_smul (p : Poly1d K) (s : K) : (smul s p).toPoly = C s * p.toPoly := by
  rw [smul, toPoly_ofCoeffs, listPoly_map_mul]; rfl

@[simp] theorem toPoly_add (p q : Poly1d K) : (p.add q).toPoly = p.toPoly + q.toPoly := by
  rw [add, toPoly_ofCoeffs, listPoly_addPad]; rfl

omit [DecidableEq K] in
theorem foldl_horner (l : List K) (x a : K) :
    l.foldl (fun y c => y * x + c) a = a * x ^ l.length + (listPoly l).eval x := by
  induction l generalizing a with
  | nil => simp
  | cons c l ih =>
    simp only [List.foldl_cons, List.length_cons, listPoly_cons, eval_add, eval_mul, eval_C, eval_pow,
      eval_X]
    rw [ih]; ring

theorem eval_eq (p : Poly1d K) (x : K) : p.eval x = p.toPoly.eval x := by
  unfold Poly1d.eval; rw [foldl_horner]; simp [toPoly]

theorem derivative_polyint [CharZero K] (p : Poly1d K) :
    derivative p.polyint.toPoly = p.toPoly := by
  rw [polyint, toPoly_ofCoeffs, listPoly_append, toPoly]
  generalize p.coef = l
  simp only [List.length_cons, List.length_nil, listPoly_cons, listPoly_nil]
  induction l with
  | nil => simp
  | cons c l ih =>
    have h : ((l.length + 1 : ℕ) : K) ≠ 0 := Nat.cast_ne_zero.mpr (Nat.succ_ne_zero _)
    have hlen : (List.zipWith (· / ·) l
        (List.map (fun i => ((i + 1 : ℕ) : K)) (List.range l.length).reverse)).length = l.length := by
      simp
    simp only [List.length_cons, List.range_succ, List.reverse_append, List.reverse_cons,
      List.reverse_nil, List.nil_append, List.cons_append, List.map_cons, List.zipWith_cons_cons,
      listPoly_cons, hlen]
    rw [← ih]
    simp only [zero_add, pow_one, pow_zero, map_zero, mul_one, add_zero, derivative_add, add_mul,
      mul_assoc, ← pow_succ, derivative_C_mul, derivative_X_pow, Nat.add_sub_cancel]
    congr 1
    rw [← mul_assoc]
    rw [← C_mul, div_mul_cancel₀ _ h]

theorem eval_zero_polyint (p : Poly1d K) : p.polyint.toPoly.eval 0 = 0 := by
  simp [polyint, toPoly_ofCoeffs, listPoly_append, listPoly_cons]

theorem degree_listPoly_lt (l : List K) : (listPoly l).degree < l.length := by
  induction l with
  | nil => simp
  | cons c l ih =>
    rw [listPoly_cons]
    refine (degree_add_le _ _).trans_lt (max_lt ?_ ?_)
    · refine (degree_C_mul_X_pow_le _ _).trans_lt ?_
      exact_mod_cast Nat.lt_succ_self _
    · exact ih.trans (by exact_mod_cast Nat.lt_succ_self _)

/-- A trimmed coefficient list: non-empty, and the leading coefficient is nonzero unless the list has length 1. -/
def Trimmed (p : Poly1d K) : Prop :=
  p.coef = [0] ∨ ∃ c l, p.coef = c :: l ∧ c ≠ 0

theorem trimmed_ofCoeffs (l : List K) : (ofCoeffs l).Trimmed := by
  unfold ofCoeffs Trimmed
  split
  · left; rfl
  · next t ht =>
    right
    cases hd : l.dropWhile (fun a => decide (a = 0)) with
    | nil => exact absurd hd ht
    | cons c m =>
      refine ⟨c, m, rfl, ?_⟩
      have := List.head_dropWhile_not (p := fun a => decide (a = 0)) (l := l) (by simp [hd])
      simpa [hd] using this

theorem coef_length_of_trimmed {p : Poly1d K} (h : p.Trimmed) :
    p.coef.length = p.toPoly.natDegree + 1 := by
  rcases h with h | ⟨c, l, h, hc⟩
  · simp [toPoly, h, listPoly_cons]
  · simp only [toPoly, h, listPoly_cons, List.length_cons, Nat.add_right_cancel_iff]
    symm
    rw [natDegree_add_eq_left_of_degree_lt]
    · rw [natDegree_C_mul_X_pow _ _ hc]
    · rw [degree_C_mul_X_pow _ hc]; exact degree_listPoly_lt l

end Poly1d
end CE
