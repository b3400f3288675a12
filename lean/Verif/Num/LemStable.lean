import Verif.Num.PropsInvariant
import Mathlib.Analysis.Calculus.Deriv.Polynomial
import Mathlib.Analysis.Calculus.Deriv.MeanValue

/-!
# Gauss and Radau weights over the reals: they are not negative, and they bound the increase of quadratic forms
-/

open Polynomial

namespace CE

/-- The nodes are those of a Radau quadrature formula on [0, 1]: the point 1 is a node, and the formula is exact for all
polynomials of degree less than twice the number of nodes minus one.  `'radau'` points are. -/
def IsRadau (tau : List ℝ) : Prop :=
  1 ∈ tau ∧ ∀ q P : ℝ[X], q.degree < (tau.length - 1 : ℕ) → derivative P = (tau.map fun c => X - C c).prod * q →
    P.eval 1 - P.eval 0 = 0

/-- The value of the quadratic form with matrix `S`. -/
def qform (S : ℕ → ℕ → ℝ) (m : ℕ) (v : ℕ → ℝ) : ℝ := ∑ i ∈ Finset.range m, ∑ j ∈ Finset.range m, S i j * (v i * v j)

theorem qform_congr {S : ℕ → ℕ → ℝ} {m : ℕ} {v w : ℕ → ℝ} (h : ∀ i < m, v i = w i) : qform S m v = qform S m w :=
  Finset.sum_congr rfl fun i hi => Finset.sum_congr rfl fun j hj => by
    rw [h i (Finset.mem_range.mp hi), h j (Finset.mem_range.mp hj)]

/-- The weights of Gauss nodes integrate the derivatives of quadratic forms exactly; those of Radau nodes overestimate them if
the form is not negative. -/
def StableNodes (tau : List ℝ) (S : ℕ → ℕ → ℝ) (m : ℕ) : Prop := IsGauss tau ∨ IsRadau tau ∧ ∀ v, 0 ≤ qform S m v

theorem integral_nonneg {P : ℝ[X]} (h : ∀ x, 0 ≤ x → x ≤ 1 → 0 ≤ (derivative P).eval x) : P.eval 0 ≤ P.eval 1 := by
  have hm : MonotoneOn (fun x => P.eval x) (Set.Icc 0 1) := by
    refine monotoneOn_of_deriv_nonneg (convex_Icc 0 1) P.continuous.continuousOn P.differentiable.differentiableOn ?_
    intro x hx
    rw [interior_Icc] at hx
    rw [Polynomial.deriv]
    exact h x hx.1.le hx.2.le
  exact hm (by simp) (by simp) zero_le_one

theorem nodes_natDegree (l : List ℝ) : ((l.map fun c => (X - C c : ℝ[X])).prod).natDegree = l.length := by
  induction l with
  | nil => simp
  | cons a l ih =>
    rw [List.map_cons, List.prod_cons, (monic_X_sub_C a).natDegree_mul (monic_nodes l), natDegree_X_sub_C, ih,
      List.length_cons, Nat.add_comm]

theorem nodes_eval {tau : List ℝ} {j : ℕ} (hj : j < tau.length) : ((tau.map fun c => (X - C c : ℝ[X])).prod).eval (nd tau j) = 0 := by
  rw [eval_list_prod]
  apply List.prod_eq_zero
  rw [List.map_map, List.mem_map]
  exact ⟨nd tau j, by rw [nd_eq_getElem hj]; exact List.getElem_mem hj, by simp⟩

/-- Exactness of the weights from orthogonality of the node polynomial. -/
theorem weights_exact {tau : List ℝ} (hd : tau.Nodup) {m : ℕ} (h : ∀ q P : ℝ[X], q.degree < m →
      derivative P = (tau.map fun c => X - C c).prod * q → P.eval 1 - P.eval 0 = 0) {p P : ℝ[X]}
    (hp : p.degree < (tau.length + m : ℕ)) (hP : derivative P = p) :
    ∑ j ∈ Finset.range tau.length, wb tau j * p.eval (nd tau j) = P.eval 1 - P.eval 0 := by
  obtain ⟨T, hT, h10⟩ := C10_quadrature_order tau hd m
  rw [← h10.mp h p P hp hP]
  refine Finset.sum_congr rfl fun k hk => ?_
  rw [butcher_ok] at hT; cases hT
  simp only [NdArray.vec, List.headD_cons, nd_map_range _ (Finset.mem_range.mp hk), wb]

/-- Gauss and Radau weights are not negative. -/
theorem weights_nonneg {tau : List ℝ} (hd : tau.Nodup) (h : IsGauss tau ∨ IsRadau tau) {j : ℕ} (hj : j < tau.length) :
    0 ≤ wb tau j := by
  have hor : ∀ q P : ℝ[X], q.degree < (tau.length - 1 : ℕ) → derivative P = (tau.map fun c => X - C c).prod * q →
      P.eval 1 - P.eval 0 = 0 := by
    rcases h with h | h
    · intro q P hq
      exact h q P (lt_of_lt_of_le hq (by exact_mod_cast Nat.sub_le _ _))
    · exact h.2
  set l := Lagrange.basis (Finset.range tau.length) (nd tau) j with hl
  obtain ⟨P, hP⟩ := exists_antiderivative (l ^ 2)
  have hdeg : (l ^ 2).degree < (tau.length + (tau.length - 1) : ℕ) := by
    have h1 : l.degree = (tau.length - 1 : ℕ) := by
      rw [hl, Lagrange.degree_basis (nd_injOn hd) (Finset.mem_range.mpr hj), Finset.card_range]
    rw [pow_two, degree_mul, h1]
    exact_mod_cast (by omega : tau.length - 1 + (tau.length - 1) < tau.length + (tau.length - 1))
  have hex := weights_exact hd hor hdeg hP
  rw [Finset.sum_eq_single j] at hex
  · rw [eval_pow, hl, Lagrange.eval_basis_self (nd_injOn hd) (Finset.mem_range.mpr hj), one_pow, mul_one] at hex
    rw [hex, sub_nonneg]
    refine integral_nonneg fun x _ _ => ?_
    rw [hP, eval_pow]
    exact sq_nonneg _
  · intro k hk hkj
    rw [eval_pow, hl, Lagrange.eval_basis_of_ne (fun h => hkj h.symm) hk]
    simp
  · intro h
    exact absurd (Finset.mem_range.mpr hj) h

/-- On [0, 1]: the increase of a quadratic form of polynomials is at most the weighted sum of its derivative at the nodes. -/
theorem form_increase_unit {tau : List ℝ} (hd : tau.Nodup) (hpos : 0 < tau.length) (S : ℕ → ℕ → ℝ) (m : ℕ)
    (hst : StableNodes tau S m) (P : ℕ → ℝ[X]) (hP : ∀ i, (P i).degree ≤ tau.length) (V : ℝ[X])
    (hV : V = ∑ i ∈ Finset.range m, ∑ j ∈ Finset.range m, C (S i j) * (P i * P j)) :
    V.eval 1 - V.eval 0 ≤ ∑ k ∈ Finset.range tau.length, wb tau k * (derivative V).eval (nd tau k) := by
  set s := tau.length with hs
  have hPn : ∀ i, (P i).natDegree ≤ s := fun i => natDegree_le_of_degree_le (hP i)
  have hVn : V.natDegree ≤ s + s := by
    rw [hV]
    refine natDegree_sum_le_of_forall_le _ _ fun i _ => natDegree_sum_le_of_forall_le _ _ fun j _ => ?_
    refine (natDegree_C_mul_le _ _).trans (natDegree_mul_le.trans (Nat.add_le_add (hPn i) (hPn j)))
  have hVdeg : (derivative V).degree < (s + s : ℕ) :=
    degree_deriv_lt (by omega) (degree_le_of_natDegree_le hVn)
  rcases hst with hg | ⟨⟨h1, hor⟩, hS⟩
  · exact (weights_exact hd hg hVdeg rfl).ge
  set N := (tau.map fun c => (X - C c : ℝ[X])).prod with hN
  have hNm : N.Monic := monic_nodes tau
  have hNd : N.natDegree = s := nodes_natDegree tau
  -- the node polynomial is (X - 1) R
  set R := ((tau.erase 1).map fun c => (X - C c : ℝ[X])).prod with hR
  have hRm : R.Monic := monic_nodes _
  have hRd : R.natDegree = s - 1 := by rw [hR, nodes_natDegree, List.length_erase_of_mem h1]
  have hNR : N = (X - C 1) * R := by
    rw [hN, hR, List.Perm.prod_eq ((List.perm_cons_erase h1).map _), List.map_cons, List.prod_cons]
  -- division of the derivative by the node polynomial
  set r := derivative V %ₘ N with hr
  set q := derivative V /ₘ N with hq
  have hdiv : r + N * q = derivative V := modByMonic_add_div _ N
  have hrdeg : r.degree < s := by
    have := degree_modByMonic_lt (derivative V) hNm
    rwa [degree_eq_natDegree hNm.ne_zero, hNd] at this
  have hqn : q.natDegree ≤ s - 1 := by
    rw [hq, natDegree_divByMonic _ hNm, hNd]
    have := natDegree_derivative_le V
    omega
  set a := q.coeff (s - 1) with ha
  -- its leading coefficient
  have hVc : V.coeff (s + s) = qform S m fun i => (P i).coeff s := by
    rw [hV, finset_sum_coeff]
    refine Finset.sum_congr rfl fun i _ => ?_
    rw [finset_sum_coeff]
    refine Finset.sum_congr rfl fun j _ => ?_
    rw [coeff_C_mul, coeff_mul_add_eq_of_natDegree_le (hPn i) (hPn j)]
  have ha0 : 0 ≤ a := by
    have e1 : (derivative V).coeff (s + s - 1) = a := by
      rw [← hdiv, coeff_add, coeff_eq_zero_of_degree_lt (lt_of_lt_of_le hrdeg (by exact_mod_cast (by omega : s ≤ s + s - 1))),
        zero_add, show s + s - 1 = s + (s - 1) by omega,
        coeff_mul_add_eq_of_natDegree_le hNd.le hqn]
      rw [show N.coeff s = 1 by rw [← hNd]; exact hNm.coeff_natDegree, one_mul]
    rw [← e1, coeff_derivative, show s + s - 1 + 1 = s + s by omega, hVc]
    exact mul_nonneg (hS _) (by positivity)
  -- the integrals
  obtain ⟨Ir, hIr⟩ := exists_antiderivative r
  obtain ⟨I1, hI1⟩ := exists_antiderivative (N * (q - C a * R))
  obtain ⟨I2, hI2⟩ := exists_antiderivative ((1 - X) * R ^ 2)
  have hsum : derivative V = derivative (Ir + I1 - C a * I2) := by
    rw [derivative_sub, derivative_add, derivative_C_mul, hIr, hI1, hI2, ← hdiv]
    have : N * q = N * (q - C a * R) + C a * (N * R) := by ring
    rw [this, hNR, C_1]
    ring
  have hlow : (q - C a * R).degree < (s - 1 : ℕ) := by
    rw [degree_lt_iff_coeff_zero]
    intro k hk
    rcases Nat.eq_or_lt_of_le hk with rfl | hk
    · rw [coeff_sub, coeff_C_mul, show R.coeff (s - 1) = 1 by rw [← hRd]; exact hRm.coeff_natDegree, mul_one, ← ha, sub_self]
    · rw [coeff_sub, coeff_C_mul, coeff_eq_zero_of_natDegree_lt (lt_of_le_of_lt hqn hk),
        coeff_eq_zero_of_natDegree_lt (by rw [hRd]; exact hk), mul_zero, sub_zero]
  have hz1 := hor _ I1 hlow hI1
  have hz2 : I2.eval 0 ≤ I2.eval 1 := by
    refine integral_nonneg fun x _ hx => ?_
    rw [hI2, eval_mul, eval_pow, eval_sub, eval_one, eval_X]
    exact mul_nonneg (by linarith) (sq_nonneg _)
  have hw : ∑ k ∈ Finset.range s, wb tau k * (derivative V).eval (nd tau k) = Ir.eval 1 - Ir.eval 0 := by
    have := sum_pint hd hrdeg hIr 1
    rw [← this]
    refine Finset.sum_congr rfl fun k hk => ?_
    rw [← hdiv, eval_add, eval_mul, nodes_eval (Finset.mem_range.mp hk), zero_mul, add_zero]
    rfl
  rw [hw, antiderivative_diff hsum 1 0]
  simp only [eval_sub, eval_add, eval_mul, eval_C]
  nlinarith [mul_nonneg ha0 (sub_nonneg.mpr hz2)]

/-- The same on an interval. -/
theorem form_increase {tau : List ℝ} (hd : tau.Nodup) (hpos : 0 < tau.length) (S : ℕ → ℕ → ℝ) (m : ℕ)
    (hst : StableNodes tau S m) (P : ℕ → ℝ[X]) (hP : ∀ i, (P i).degree ≤ tau.length) (V : ℝ[X])
    (hV : V = ∑ i ∈ Finset.range m, ∑ j ∈ Finset.range m, C (S i j) * (P i * P j)) (a h : ℝ) :
    V.eval (a + h) - V.eval a ≤ h * ∑ k ∈ Finset.range tau.length, wb tau k * (derivative V).eval (a + h * nd tau k) := by
  have := form_increase_unit hd hpos S m hst (fun i => (P i).comp (C h * X + C a)) (fun i => ?_) (V.comp (C h * X + C a)) ?_
  · rw [derivative_comp] at this
    simp only [eval_comp, eval_add, eval_mul, eval_C, eval_X, derivative_add, derivative_C, derivative_C_mul, derivative_X, mul_one,
      mul_zero, zero_add, add_zero] at this
    rw [add_comm a h]
    refine this.trans (le_of_eq ?_)
    rw [Finset.mul_sum]
    refine Finset.sum_congr rfl fun k _ => ?_
    rw [add_comm a]
    ring
  · refine degree_le_of_natDegree_le (natDegree_comp_le.trans ?_)
    refine (Nat.mul_le_mul (natDegree_le_of_degree_le (hP i)) natDegree_linear_le).trans ?_
    rw [Nat.mul_one]
  · rw [hV]
    simp only [sum_comp, mul_comp, C_comp]

end CE
