import Mathlib.Algebra.Polynomial.Derivative
import Mathlib.Algebra.Polynomial.Roots
import Mathlib.LinearAlgebra.Matrix.NonsingularInverse

/-! # The transfer matrix of a collocation step for linear equations

Polynomials `v` with `v' = A*v + M*w` for a polynomial `M` and a vector `w`: `E(0)*v(t) = E(t)*v(0)` with
`E(t) = sum_j M^(j)(t) * A^(k-j)`. -/

open Polynomial

namespace CE

variable {K : Type} [Field K]

/-- The node polynomial of the nodes. -/
noncomputable def nodePoly (tau : List K) : K[X] := (tau.map fun c => X - C c).prod

theorem nodePoly_monic (tau : List K) : (nodePoly tau).Monic := by
  unfold nodePoly
  induction tau with
  | nil => simp
  | cons c tau ih =>
    rw [List.map_cons, List.prod_cons]
    exact (monic_X_sub_C c).mul ih

theorem nodePoly_natDegree (tau : List K) : (nodePoly tau).natDegree = tau.length := by
  induction tau with
  | nil => simp [nodePoly]
  | cons c tau ih =>
    have : nodePoly (c :: tau) = (X - C c) * nodePoly tau := by simp [nodePoly]
    rw [this, (monic_X_sub_C c).natDegree_mul (nodePoly_monic tau), ih, natDegree_X_sub_C, List.length_cons, add_comm]

theorem nodePoly_dvd {tau : List K} (hd : tau.Nodup) {p : K[X]} (hp : ∀ c ∈ tau, p.eval c = 0) : nodePoly tau ∣ p := by
  induction tau generalizing p with
  | nil => simp [nodePoly]
  | cons c tau ih =>
    have e : nodePoly (c :: tau) = (X - C c) * nodePoly tau := by simp [nodePoly]
    obtain ⟨q, rfl⟩ := dvd_iff_isRoot.2 (hp c List.mem_cons_self)
    rw [e]
    refine mul_dvd_mul_left _ (ih hd.tail fun x hx => ?_)
    have := hp x (List.mem_cons_of_mem _ hx)
    rw [eval_mul, eval_sub, eval_X, eval_C] at this
    refine (mul_eq_zero.1 this).resolve_left (sub_ne_zero.2 ?_)
    rintro rfl
    exact (List.nodup_cons.1 hd).1 hx

/-- A polynomial of at most the degree of the node polynomial that vanishes at the nodes is a multiple of it. -/
theorem eq_nodePoly_mul {tau : List K} (hd : tau.Nodup) {p : K[X]} (hdeg : p.degree ≤ tau.length) (hp : ∀ c ∈ tau, p.eval c = 0) :
    ∃ w : K, p = nodePoly tau * C w := by
  obtain ⟨q, rfl⟩ := nodePoly_dvd hd hp
  refine ⟨q.coeff 0, ?_⟩
  congr 1
  by_cases hq : q = 0
  · simp [hq]
  · apply eq_C_of_natDegree_le_zero
    have h1 : ((nodePoly tau * q).natDegree : WithBot ℕ) ≤ tau.length := by
      rw [← degree_eq_natDegree (mul_ne_zero (nodePoly_monic tau).ne_zero hq)]
      exact hdeg
    rw [(nodePoly_monic tau).natDegree_mul' hq, nodePoly_natDegree] at h1
    have : tau.length + q.natDegree ≤ tau.length := by exact_mod_cast h1
    omega

variable {r : ℕ}

/-- `sum_j M^(j)(x) * A^(k-j)` -/
noncomputable def transfer (M : K[X]) (k : ℕ) (A : Matrix (Fin r) (Fin r) K) (x : K) : Matrix (Fin r) (Fin r) K :=
  ∑ j ∈ Finset.range (k + 1), (derivative^[j] M).eval x • A ^ (k - j)

theorem transfer_commute (M : K[X]) (k : ℕ) (A : Matrix (Fin r) (Fin r) K) (x : K) : Commute (transfer M k A x) A := by
  unfold transfer
  refine Commute.sum_left _ _ _ fun j _ => ?_
  exact ((Commute.refl A).pow_left _).smul_left _

theorem linear_poly_unique [CharZero K] {A : Matrix (Fin r) (Fin r) K} {g : Fin r → K[X]}
    (hg : ∀ a, derivative (g a) = ∑ b, C (A a b) * g b) (h0 : ∀ a, (g a).eval 0 = 0) : ∀ a, g a = 0 := by
  suffices h : ∀ i a, (g a).coeff i = 0 from fun a => Polynomial.ext fun i => by rw [h, coeff_zero]
  intro i
  induction i with
  | zero => intro a; rw [coeff_zero_eq_eval_zero, h0]
  | succ i ih =>
    intro a
    have h1 := congrArg (fun p => p.coeff i) (hg a)
    simp only [coeff_derivative, finset_sum_coeff, coeff_C_mul, ih, mul_zero, Finset.sum_const_zero] at h1
    refine (mul_eq_zero.1 h1).resolve_right ?_
    exact_mod_cast Nat.succ_ne_zero i

/-- **Transfer** of polynomial solutions of `v' = A*v + M*w`. -/
theorem transfer_eq [CharZero K] {M : K[X]} {k : ℕ} (hM : M.natDegree ≤ k) (A : Matrix (Fin r) (Fin r) K) {v : Fin r → K[X]}
    {w : Fin r → K} (hdeg : ∀ a, (v a).natDegree ≤ k) (hv : ∀ a, derivative (v a) = ∑ b, C (A a b) * v b + M * C (w a)) (x : K) :
    (transfer M k A 0).mulVec (fun a => (v a).eval x) = (transfer M k A x).mulVec fun a => (v a).eval 0 := by
  -- the derivatives at 0
  let D : ℕ → Fin r → K := fun m a => (derivative^[m] (v a)).eval 0
  have hD : ∀ m, D (m + 1) = A.mulVec (D m) + (derivative^[m] M).eval 0 • w := by
    intro m
    funext a
    have : derivative^[m + 1] (v a) = ∑ b, C (A a b) * derivative^[m] (v b) + derivative^[m] M * C (w a) := by
      rw [Function.iterate_succ_apply, hv, iterate_map_add, iterate_derivative_sum, mul_comm M, iterate_derivative_C_mul,
        mul_comm]
      simp only [iterate_derivative_C_mul]
    simp only [D, this, eval_add, eval_finset_sum, eval_mul, eval_C, Pi.add_apply, Matrix.mulVec, dotProduct, Pi.smul_apply, smul_eq_mul]
  have hDk : D (k + 1) = 0 := by
    funext a
    simp only [D, Pi.zero_apply]
    rw [iterate_derivative_eq_zero (by have := hdeg a; omega), eval_zero]
  have hw : (transfer M k A 0).mulVec w = -(A ^ (k + 1)).mulVec fun a => (v a).eval 0 := by
    have tel := Finset.sum_range_sub (fun m => (A ^ (k + 1 - m)).mulVec (D m)) (k + 1)
    rw [hDk, Matrix.mulVec_zero, zero_sub, Nat.sub_zero] at tel
    rw [show (fun a => (v a).eval 0) = D 0 from rfl, ← tel]
    unfold transfer
    rw [Matrix.sum_mulVec]
    refine Finset.sum_congr rfl fun m hm => ?_
    have e1 : k + 1 - (m + 1) = k - m := by omega
    have e2 : k + 1 - m = k - m + 1 := by have := Finset.mem_range.1 hm; omega
    rw [e1, e2, hD, Matrix.mulVec_add, pow_succ, ← Matrix.mulVec_mulVec, add_sub_cancel_left, Matrix.mulVec_smul, Matrix.smul_mulVec]
  -- both sides as polynomials
  let E0 := transfer M k A 0
  let v0 : Fin r → K := fun a => (v a).eval 0
  let u : Fin r → K[X] := fun a => ∑ b, C (E0 a b) * v b
  let y : Fin r → K[X] := fun a => ∑ j ∈ Finset.range (k + 1), derivative^[j] M * C ((A ^ (k - j)).mulVec v0 a)
  have hu : ∀ a, derivative (u a) = ∑ b, C (A a b) * u b - M * C ((A ^ (k + 1)).mulVec v0 a) := by
    intro a
    have h1 : ∑ b, E0 a b * w b = -(A ^ (k + 1)).mulVec v0 a := congrFun hw a
    have h2 : ∀ c, ∑ b, E0 a b * A b c = ∑ b, A a b * E0 b c := fun c => by
      have := congrFun (congrFun (transfer_commute M k A 0).eq a) c
      rwa [Matrix.mul_apply, Matrix.mul_apply] at this
    simp only [u, derivative_sum, derivative_C_mul, hv, mul_add, Finset.sum_add_distrib, Finset.mul_sum]
    rw [sub_eq_add_neg]
    congr 1
    · rw [Finset.sum_comm]
      conv_rhs => rw [Finset.sum_comm]
      refine Finset.sum_congr rfl fun c _ => ?_
      simp only [← mul_assoc, ← C_mul, ← Finset.sum_mul, ← map_sum, h2]
    · rw [← mul_neg, ← C_neg, ← h1, map_sum, Finset.mul_sum]
      refine Finset.sum_congr rfl fun b _ => ?_
      rw [C_mul]
      ring
  have hy : ∀ a, derivative (y a) = ∑ b, C (A a b) * y b - M * C ((A ^ (k + 1)).mulVec v0 a) := by
    intro a
    have tel := Finset.sum_range_sub (fun m => derivative^[m] M * C ((A ^ (k + 1 - m)).mulVec v0 a)) (k + 1)
    rw [iterate_derivative_eq_zero (by omega), zero_mul, zero_sub, Nat.sub_zero, Function.iterate_zero_apply] at tel
    have h1 : derivative (y a) = ∑ j ∈ Finset.range (k + 1), derivative^[j + 1] M * C ((A ^ (k + 1 - (j + 1))).mulVec v0 a) := by
      simp only [y, derivative_sum, derivative_mul, derivative_C, mul_zero, add_zero, ← Function.iterate_succ_apply' (f := derivative),
        Nat.add_sub_add_right]
    have h2 : ∑ b, C (A a b) * y b = ∑ j ∈ Finset.range (k + 1), derivative^[j] M * C ((A ^ (k + 1 - j)).mulVec v0 a) := by
      simp only [y, Finset.mul_sum]
      rw [Finset.sum_comm]
      refine Finset.sum_congr rfl fun j hj => ?_
      have e2 : k + 1 - j = k - j + 1 := by have := Finset.mem_range.1 hj; omega
      rw [e2, pow_succ', ← Matrix.mulVec_mulVec]
      have : (A.mulVec ((A ^ (k - j)).mulVec v0)) a = ∑ b, A a b * (A ^ (k - j)).mulVec v0 b := rfl
      rw [this, map_sum, Finset.mul_sum]
      refine Finset.sum_congr rfl fun b _ => ?_
      rw [C_mul]
      ring
    rw [h1, h2, sub_eq_add_neg, ← tel, ← Finset.sum_add_distrib]
    exact Finset.sum_congr rfl fun j _ => by ring
  have hty : ∀ x a, ((transfer M k A x).mulVec v0) a = (y a).eval x := by
    intro x a
    simp only [y, eval_finset_sum, eval_mul, eval_C, transfer, Matrix.sum_mulVec, Finset.sum_apply, Matrix.smul_mulVec, Pi.smul_apply,
      smul_eq_mul]
  have htu : ∀ x a, (E0.mulVec fun a => (v a).eval x) a = (u a).eval x := by
    intro x a
    simp only [u, eval_finset_sum, eval_mul, eval_C, Matrix.mulVec, dotProduct]
  have huy : ∀ a, u a - y a = 0 := by
    apply linear_poly_unique (A := A)
    · intro a
      rw [derivative_sub, hu, hy]
      simp only [mul_sub, Finset.sum_sub_distrib]
      ring
    · intro a
      rw [eval_sub, sub_eq_zero]
      rw [← htu, ← hty]
  funext a
  rw [htu, hty, sub_eq_zero.1 (huy a)]

end CE
