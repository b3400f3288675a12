import Verif.Num.Basis
import Verif.Num.Poly1dLemmas
import Mathlib.LinearAlgebra.Lagrange

/-! # Lemmas: the model of `PolynomialBasis` computes Mathlib's Lagrange basis -/

open Polynomial

namespace CE

variable {K : Type*} [Field K] [DecidableEq K]

theorem list_range_prod {M : Type*} [CommMonoid M] (n : ℕ) (f : ℕ → M) :
    ((List.range n).map f).prod = ∏ i ∈ Finset.range n, f i := rfl

theorem list_range_sum {M : Type*} [AddCommMonoid M] (n : ℕ) (f : ℕ → M) :
    ((List.range n).map f).sum = ∑ i ∈ Finset.range n, f i := rfl

theorem list_range_filter_prod {M : Type*} [CommMonoid M] (n k : ℕ) (f : ℕ → M) :
    (((List.range n).filter (fun i => decide (i ≠ k))).map f).prod
      = ∏ i ∈ (Finset.range n).erase k, f i := by
  have : (Finset.range n).erase k = (Finset.range n).filter (fun i => i ≠ k) := by
    ext; simp [and_comm]
  rw [this]; rfl

theorem list_range_filter_sum {M : Type*} [AddCommMonoid M] (n k : ℕ) (f : ℕ → M) :
    (((List.range n).filter (fun i => decide (i ≠ k))).map f).sum
      = ∑ i ∈ (Finset.range n).erase k, f i := by
  have : (Finset.range n).erase k = (Finset.range n).filter (fun i => i ≠ k) := by
    ext; simp [and_comm]
  rw [this]; rfl

/-- Distinct nodes as an injectivity statement. -/
theorem nd_injOn {tau : List K} (h : tau.Nodup) :
    Set.InjOn (nd tau) (Finset.range tau.length : Set ℕ) := by
  intro i hi j hj hij
  simp only [Finset.coe_range, Set.mem_Iio] at hi hj
  simp only [nd, List.getD_eq_getElem?_getD, List.getElem?_eq_getElem hi, List.getElem?_eq_getElem hj,
    Option.getD_some] at hij
  exact (List.Nodup.getElem_inj_iff h).mp hij

theorem nd_eq_getElem {tau : List K} {i : ℕ} (h : i < tau.length) : nd tau i = tau[i] := by
  simp [nd, List.getD_eq_getElem?_getD, h]

theorem toPoly_lagrangePoly (tau : List K) (j : ℕ) :
    (lagrangePoly tau j).toPoly = Lagrange.basis (Finset.range tau.length) (nd tau) j := by
  have key : ∀ (L : List ℕ) (p0 : Poly1d K),
      (L.foldl (fun pp r =>
        if r ≠ j then
          pp.mul ((Poly1d.ofCoeffs [1, -(nd tau r)]).divs (nd tau j - nd tau r))
        else pp) p0).toPoly
      = p0.toPoly * ((L.filter (fun i => decide (i ≠ j))).map
          (fun r => Lagrange.basisDivisor (nd tau j) (nd tau r))).prod := by
    intro L
    induction L with
    | nil => simp
    | cons r L ih =>
      intro p0
      rw [List.foldl_cons, ih]
      by_cases h : r = j
      · simp [h]
      · simp only [ne_eq, h, not_false_eq_true, ↓reduceIte, decide_true, List.filter_cons_of_pos,
          List.map_cons, List.prod_cons, Poly1d.toPoly_mul, Poly1d.toPoly_divs,
          Poly1d.toPoly_ofCoeffs, Poly1d.listPoly_cons, Lagrange.basisDivisor, Poly1d.listPoly_nil]
        simp only [List.length_cons, List.length_nil, zero_add, pow_one, pow_zero, map_one, map_neg]
        ring
  rw [lagrangePoly, key, list_range_filter_prod]
  simp [Poly1d.listPoly_cons, Lagrange.basis]

theorem lamAt_eq (tau : List K) (k : ℕ) :
    lamAt tau k = Lagrange.nodalWeight (Finset.range tau.length) (nd tau) k := by
  rw [lamAt, list_range_filter_prod, Lagrange.nodalWeight]
  simp

theorem lamAt_ne_zero {tau : List K} (h : tau.Nodup) {k : ℕ} (hk : k < tau.length) :
    lamAt tau k ≠ 0 := by
  rw [lamAt_eq]; exact Lagrange.nodalWeight_ne_zero (nd_injOn h) (by simpa)

theorem nd_map_range {n : ℕ} (f : ℕ → K) {i : ℕ} (h : i < n) : nd ((List.range n).map f) i = f i := by
  simp [nd, List.getD_eq_getElem?_getD, h]

/-- Successful construction, spelled out. -/
theorem polynomialBasis_ok {tau : List K} (h : tau ≠ []) :
    polynomialBasis tau = .ok
      { tau := tau, poly := (List.range tau.length).map (lagrangePoly tau),
        D := ⟨tau.length, tau.length, diffEntry tau ((List.range tau.length).map (lamAt tau))⟩,
        lam := (List.range tau.length).map (lamAt tau) } := by
  simp [polynomialBasis, h]

theorem diffEntry_off {tau : List K} {j k : ℕ} (hj : j < tau.length) (hk : k < tau.length)
    (hjk : j ≠ k) :
    diffEntry tau ((List.range tau.length).map (lamAt tau)) j k
      = lamAt tau k / lamAt tau j / (nd tau j - nd tau k) := by
  simp only [diffEntry, ne_eq, hjk, not_false_eq_true, ↓reduceIte, nd_map_range _ hj,
    nd_map_range _ hk]

theorem diffEntry_diag {tau : List K} {j : ℕ} (hj : j < tau.length) :
    diffEntry tau ((List.range tau.length).map (lamAt tau)) j j
      = -∑ i ∈ (Finset.range tau.length).erase j,
          lamAt tau i / lamAt tau j / (nd tau j - nd tau i) := by
  simp only [diffEntry, ne_eq, not_true_eq_false, ↓reduceIte]
  rw [list_range_filter_sum]
  congr 1
  apply Finset.sum_congr rfl
  intro i hi
  simp only [Finset.mem_erase, Finset.mem_range] at hi
  rw [nd_map_range _ hj, nd_map_range _ hi.2]

/-- Derivative of a Lagrange basis polynomial at another node. -/
theorem eval_derivative_basis_off {s : Finset ℕ} {v : ℕ → K} (hv : Set.InjOn v s) {j k : ℕ}
    (hj : j ∈ s) (hk : k ∈ s) (hjk : j ≠ k) :
    (derivative (Lagrange.basis s v k)).eval (v j)
      = Lagrange.nodalWeight s v k / Lagrange.nodalWeight s v j / (v j - v k) := by
  -- basis_k * (X - v k) = w_k * nodal
  have hprod : Lagrange.basis s v k * (X - C (v k))
      = C (Lagrange.nodalWeight s v k) * Lagrange.nodal s v := by
    rw [Lagrange.basis_eq_prod_sub_inv_mul_nodal_div hk, mul_assoc]
    congr 1
    rw [← Lagrange.nodal_erase_eq_nodal_div hk, mul_comm, ← Lagrange.nodal_eq_mul_nodal_erase hk]
  have hd := congrArg (fun p => (derivative p).eval (v j)) hprod
  simp only [derivative_mul, derivative_sub, derivative_X, derivative_C, sub_zero, mul_one, eval_add,
    eval_mul, eval_sub, eval_X, eval_C, zero_mul, zero_add] at hd
  rw [Lagrange.eval_basis_of_ne hjk.symm hj, add_zero] at hd
  have hne : v j - v k ≠ 0 := sub_ne_zero.mpr fun h => hjk (hv hj hk h)
  have hw := Lagrange.nodalWeight_eq_eval_derivative_nodal (s := s) (v := v) hj
  have hwj := Lagrange.nodalWeight_ne_zero hv hj
  rw [eq_div_iff hne, hd]
  rw [hw, div_inv_eq_mul]

theorem sum_eval_derivative_basis {s : Finset ℕ} {v : ℕ → K} (hv : Set.InjOn v s) (hs : s.Nonempty)
    (x : K) : ∑ k ∈ s, (derivative (Lagrange.basis s v k)).eval x = 0 := by
  have h := congrArg (fun p => (derivative p).eval x) (Lagrange.sum_basis hv hs)
  simpa [derivative_sum, eval_finset_sum] using h

/-- Every entry of the differentiation matrix is the derivative of a basis polynomial at a node. -/
theorem diffEntry_eq {tau : List K} (h : tau.Nodup) {j k : ℕ} (hj : j < tau.length)
    (hk : k < tau.length) :
    diffEntry tau ((List.range tau.length).map (lamAt tau)) j k
      = (derivative (Lagrange.basis (Finset.range tau.length) (nd tau) k)).eval (nd tau j) := by
  have hv := nd_injOn h
  have off : ∀ i, i < tau.length → j ≠ i →
      lamAt tau i / lamAt tau j / (nd tau j - nd tau i)
        = (derivative (Lagrange.basis (Finset.range tau.length) (nd tau) i)).eval (nd tau j) := by
    intro i hi hji
    rw [eval_derivative_basis_off hv (by simpa) (by simpa) hji, lamAt_eq, lamAt_eq]
  by_cases hjk : j = k
  · subst hjk
    rw [diffEntry_diag hj]
    have hsum := sum_eval_derivative_basis hv ⟨j, by simpa⟩ (nd tau j)
    rw [← Finset.add_sum_erase _ _ (Finset.mem_range.mpr hj)] at hsum
    rw [eq_comm, ← sub_eq_zero, sub_neg_eq_add, ← hsum]
    congr 1
    apply Finset.sum_congr rfl
    intro i hi
    simp only [Finset.mem_erase, Finset.mem_range] at hi
    exact off i hi.2 (Ne.symm hi.1)
  · rw [diffEntry_off hj hk hjk, off k hk hjk]

/-- A polynomial of degree `< n` is the combination of the basis polynomials with its node values. -/
theorem eq_sum_basis {tau : List K} (h : tau.Nodup) {p : K[X]} (hp : p.degree < tau.length) :
    p = ∑ k ∈ Finset.range tau.length,
      C (p.eval (nd tau k)) * Lagrange.basis (Finset.range tau.length) (nd tau) k := by
  have := Lagrange.eq_interpolate (nd_injOn h) (f := p) (by simpa)
  conv_lhs => rw [this]
  simp [Lagrange.interpolate_apply]

theorem sum_mul_basis_eval {tau : List K} (h : tau.Nodup) {p : K[X]} (hp : p.degree < tau.length)
    (x : K) :
    ∑ k ∈ Finset.range tau.length,
      (Lagrange.basis (Finset.range tau.length) (nd tau) k).eval x * p.eval (nd tau k) = p.eval x := by
  conv_rhs => rw [eq_sum_basis h hp]
  simp [eval_finset_sum, mul_comm]

theorem sum_mul_derivative_basis_eval {tau : List K} (h : tau.Nodup) {p : K[X]}
    (hp : p.degree < tau.length) (x : K) :
    ∑ k ∈ Finset.range tau.length,
      (derivative (Lagrange.basis (Finset.range tau.length) (nd tau) k)).eval x * p.eval (nd tau k)
        = (derivative p).eval x := by
  conv_rhs => rw [eq_sum_basis h hp]
  simp [eval_finset_sum, derivative_sum, mul_comm]

/-- The row of the interpolation matrix: both branches give the basis polynomials at the point. -/
theorem interpRow_ok {tau : List K} (h : tau.Nodup) (hne : tau ≠ []) (b : Basis K)
    (hb : polynomialBasis tau = .ok b) (xi : K) :
    ∃ r, b.interpRow xi = .ok r ∧ r.length = tau.length ∧
      ∀ j < tau.length, nd r j = (Lagrange.basis (Finset.range tau.length) (nd tau) j).eval xi := by
  rw [polynomialBasis_ok hne] at hb
  cases hb
  have hv := nd_injOn h
  unfold Basis.interpRow
  simp only
  by_cases hx : xi ∈ tau
  · have hany : (tau.map (fun x => decide (xi = x))).any id = true := by
      simp only [List.any_map, Function.comp_def, id, List.any_eq_true, decide_eq_true_eq]
      exact ⟨xi, hx, rfl⟩
    have hcount : (tau.map (fun x => decide (xi = x))).count true = 1 := by
      rw [List.count_eq_countP, List.countP_map]
      have : tau.countP ((fun x => x == true) ∘ fun x => decide (xi = x)) = tau.count xi := by
        rw [List.count_eq_countP]
        apply List.countP_congr
        intro a _
        simp only [Function.comp_apply, beq_true, decide_eq_true_eq, beq_iff_eq]
        exact eq_comm
      rw [this, List.count_eq_one_of_mem h hx]
    rw [if_pos hany, if_pos hcount]
    refine ⟨_, rfl, by simp, ?_⟩
    intro j hj
    obtain ⟨k, hk, rfl⟩ := List.getElem_of_mem hx
    have hke : tau[k] = nd tau k := (nd_eq_getElem hk).symm
    have hl : nd (List.map (fun c => if c = true then (1 : K) else 0)
        (List.map (fun x => decide (tau[k] = x)) tau)) j = if tau[k] = tau[j] then 1 else 0 := by
      simp [nd, List.getD_eq_getElem?_getD, hj]
    rw [hl]
    by_cases hkj : k = j
    · subst hkj
      rw [if_pos rfl, hke, Lagrange.eval_basis_self hv (by simpa)]
    · rw [if_neg (fun e => hkj ((List.Nodup.getElem_inj_iff h).mp e)), hke,
        Lagrange.eval_basis_of_ne (Ne.symm hkj) (by simpa)]
  · have hany : ¬ (tau.map (fun x => decide (xi = x))).any id = true := by
      simp only [List.any_map, Function.comp_def, id, List.any_eq_true, decide_eq_true_eq]
      rintro ⟨a, ha, rfl⟩; exact hx ha
    rw [if_neg hany]
    have hxn : ∀ i ∈ Finset.range tau.length, xi ≠ nd tau i := by
      intro i hi e
      rw [Finset.mem_range] at hi
      rw [nd_eq_getElem hi] at e
      exact hx (e ▸ List.getElem_mem hi)
    have hw : List.zipWith (fun l x => l / (xi - x)) ((List.range tau.length).map (lamAt tau)) tau
        = (List.range tau.length).map (fun i => lamAt tau i / (xi - nd tau i)) := by
      apply List.ext_getElem
      · simp
      · intro i h1 h2
        simp at h1 h2 ⊢
        simp [List.getElem?_eq_getElem h2]
    rw [hw]
    refine ⟨_, rfl, by simp, ?_⟩
    intro j hj
    have hsum : ((List.range tau.length).map (fun i => lamAt tau i / (xi - nd tau i))).sum
        = ((Lagrange.nodal (Finset.range tau.length) (nd tau)).eval xi)⁻¹ := by
      rw [list_range_sum]
      have h1 := congrArg (Polynomial.eval xi) (Lagrange.sum_basis hv
        (Finset.nonempty_range_iff.mpr (by simpa using hne)))
      rw [eval_finset_sum, eval_one] at h1
      have h2 : ∀ i ∈ Finset.range tau.length,
          (Lagrange.basis (Finset.range tau.length) (nd tau) i).eval xi
            = (Lagrange.nodal (Finset.range tau.length) (nd tau)).eval xi
              * (lamAt tau i / (xi - nd tau i)) := by
        intro i hi
        rw [Lagrange.eval_basis_not_at_node hi (hxn i hi), lamAt_eq, div_eq_mul_inv]
      rw [Finset.sum_congr rfl h2, ← Finset.mul_sum] at h1
      exact (inv_eq_of_mul_eq_one_right h1).symm
    have hg : nd (List.map (fun x => x / ((List.range tau.length).map
          (fun i => lamAt tau i / (xi - nd tau i))).sum)
        ((List.range tau.length).map (fun i => lamAt tau i / (xi - nd tau i)))) j
        = (lamAt tau j / (xi - nd tau j)) / ((List.range tau.length).map
          (fun i => lamAt tau i / (xi - nd tau i))).sum := by
      rw [List.map_map]
      exact nd_map_range _ hj
    rw [hg, hsum, div_inv_eq_mul, Lagrange.eval_basis_not_at_node (by simpa) (hxn j (by simpa)),
      lamAt_eq, mul_comm, div_eq_mul_inv]

/-- `mapM` in `Except` succeeds iff every element does. -/
theorem mapM_ok {α β : Type*} (f : α → Except PyErr β) (l : List α) (g : α → β)
    (h : ∀ a ∈ l, f a = .ok (g a)) : l.mapM f = .ok (l.map g) := by
  induction l with
  | nil => rfl
  | cons a l ih =>
    rw [List.mapM_cons, h a (by simp), ih (fun x hx => h x (by simp [hx]))]
    rfl

theorem interpolationMatrix_ok {tau : List K} (h : tau.Nodup) (hne : tau ≠ []) (b : Basis K)
    (hb : polynomialBasis tau = .ok b) (t : List K) (ht : t ≠ []) :
    ∃ L, b.interpolationMatrix t = .ok L ∧ L.rows = t.length ∧ L.cols = tau.length ∧
      ∀ i < t.length, ∀ j < tau.length,
        L.e i j = (Lagrange.basis (Finset.range tau.length) (nd tau) j).eval (nd t i) := by
  choose g hg hlen hval using interpRow_ok h hne b hb
  have hbt : b.tau = tau := by rw [polynomialBasis_ok hne] at hb; cases hb; rfl
  refine ⟨Mat.ofRows tau.length (t.map g), ?_, by simp [Mat.ofRows], rfl, ?_⟩
  · unfold Basis.interpolationMatrix
    rw [mapM_ok _ _ g (fun a _ => hg a), hbt]
    simp [bind, Except.bind, ht, pure, Except.pure]
  · intro i hi j hj
    have : (Mat.ofRows tau.length (t.map g)).e i j = nd (g (nd t i)) j := by
      simp [Mat.ofRows, nd, List.getD_eq_getElem?_getD, hi]
    rw [this, hval _ j hj]

end CE
