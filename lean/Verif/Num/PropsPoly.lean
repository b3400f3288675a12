import Verif.Num.BasisLemmas
import Verif.Num.Solver
import Mathlib.Tactic.NormNum

/-!
# Properties C01–C05: polynomial bases and interpolators

Specification vocabulary: Mathlib's `Polynomial K` (`p.eval x`, `p.degree`, `derivative p`), `List.Nodup`
("pairwise distinct nodes"), `nd l i` (the i-th element of an array).
-/

open Polynomial

namespace CE

variable {K : Type*} [Field K] [DecidableEq K]

/-- **C01** Lagrange basis: `len(tau)` polynomials of degree `len(tau)-1`, cardinal at the nodes. -/
theorem C01_lagrange_cardinal (tau : List K) (hne : tau ≠ []) (hd : tau.Nodup) :
    ∃ b, polynomialBasis tau = .ok b ∧ b.tau = tau ∧ b.poly.length = tau.length ∧
      b.order + 1 = tau.length ∧
      ∀ (j : ℕ) (hj : j < b.poly.length),
        (b.poly[j]).coef.length = tau.length ∧ (b.poly[j]).toPoly.natDegree = b.order ∧
        ∀ k < tau.length, (b.poly[j]).eval (nd tau k) = if j = k then 1 else 0 := by
  have hpos : 0 < tau.length := List.length_pos_iff.mpr hne
  refine ⟨_, polynomialBasis_ok hne, rfl, by simp, by simp [Basis.order]; omega, ?_⟩
  intro j hj
  simp only [List.length_map, List.length_range] at hj
  simp only [List.getElem_map, List.getElem_range, Basis.order]
  have hv := nd_injOn hd
  have hdeg : (lagrangePoly tau j).toPoly.natDegree = tau.length - 1 := by
    rw [toPoly_lagrangePoly, Lagrange.natDegree_basis hv (by simpa)]; simp
  refine ⟨?_, hdeg, ?_⟩
  · have htr : (lagrangePoly tau j).Trimmed := by
      have : ∀ (L : List ℕ) (p0 : Poly1d K), p0.Trimmed → (L.foldl (fun pp r =>
        if r ≠ j then
          pp.mul ((Poly1d.ofCoeffs [1, -(nd tau r)]).divs (nd tau j - nd tau r))
        else pp) p0).Trimmed := by
        intro L
        induction L with
        | nil => intro p0 h; exact h
        | cons r L ih =>
          intro p0 h
          rw [List.foldl_cons]
          apply ih
          split
          · exact Poly1d.trimmed_ofCoeffs _
          · exact h
      exact this _ _ (Poly1d.trimmed_ofCoeffs _)
    rw [Poly1d.coef_length_of_trimmed htr, hdeg]; omega
  · intro k hk
    rw [Poly1d.eval_eq, toPoly_lagrangePoly]
    split
    · next h => subst h; exact Lagrange.eval_basis_self hv (by simpa)
    · next h => exact Lagrange.eval_basis_of_ne h (by simpa)

/-- An empty node list is rejected (the only rejected input of a 1-D array). -/
theorem C01_empty_rejected : polynomialBasis ([] : List K) = .error .assertion := rfl

/-- **C02** `interpolationMatrix`: entry (i,j) is `poly[j](t[i])`; it reproduces every polynomial of degree
`<= order`; its rows sum to one. -/
theorem C02_interpolationMatrix (tau : List K) (hne : tau ≠ []) (hd : tau.Nodup)
    (t : List K) (ht : t ≠ []) :
    ∃ b L, polynomialBasis tau = .ok b ∧ b.interpolationMatrix t = .ok L ∧
      L.rows = t.length ∧ L.cols = tau.length ∧
      (∀ i < t.length, ∀ (j : ℕ) (hj : j < b.poly.length), L.e i j = (b.poly[j]).eval (nd t i)) ∧
      (∀ p : K[X], p.degree < tau.length → ∀ i < t.length,
        ∑ j ∈ Finset.range tau.length, L.e i j * p.eval (nd tau j) = p.eval (nd t i)) ∧
      (∀ i < t.length, ∑ j ∈ Finset.range tau.length, L.e i j = 1) := by
  obtain ⟨L, hL, hr, hc, hval⟩ := interpolationMatrix_ok hd hne _ (polynomialBasis_ok hne) t ht
  have hpos : 0 < tau.length := List.length_pos_iff.mpr hne
  have hrep : ∀ p : K[X], p.degree < tau.length → ∀ i < t.length,
        ∑ j ∈ Finset.range tau.length, L.e i j * p.eval (nd tau j) = p.eval (nd t i) := by
    intro p hp i hi
    rw [← sum_mul_basis_eval hd hp]
    apply Finset.sum_congr rfl
    intro j hj
    rw [hval i hi j (Finset.mem_range.mp hj)]
  refine ⟨_, L, polynomialBasis_ok hne, hL, hr, hc, ?_, hrep, ?_⟩
  · intro i hi j hj
    simp only [List.length_map, List.length_range] at hj
    simp only [List.getElem_map, List.getElem_range]
    rw [hval i hi j hj, Poly1d.eval_eq, toPoly_lagrangePoly]
  · intro i hi
    have := hrep 1 (by rw [degree_one]; exact_mod_cast hpos) i hi
    simpa using this

/-- A query exactly at a repeated node is rejected by the code's own assertion. -/
theorem C02_repeated_node_rejected (tau : List K) (x : K) (b : Basis K)
    (hb : polynomialBasis tau = .ok b) (h : 1 < tau.count x) (t : List K) (ht : x ∈ t) :
    ∃ e, b.interpolationMatrix t = .error e := by
  have hbt : b.tau = tau := by
    unfold polynomialBasis at hb
    split at hb
    · cases hb
    · cases hb; rfl
  have hrow : b.interpRow x = .error .assertion := by
    unfold Basis.interpRow
    rw [hbt]
    have hx : x ∈ tau := List.count_pos_iff.mp (by omega)
    have hany : (tau.map (fun y => decide (x = y))).any id = true := by
      simp only [List.any_map, Function.comp_def, id, List.any_eq_true, decide_eq_true_eq]
      exact ⟨x, hx, rfl⟩
    have hcount : (tau.map (fun y => decide (x = y))).count true = tau.count x := by
      rw [List.count_eq_countP, List.countP_map, List.count_eq_countP]
      apply List.countP_congr
      intro a _
      simp only [Function.comp_apply, beq_true, decide_eq_true_eq, beq_iff_eq]
      exact eq_comm
    simp only [hany, ↓reduceIte, hcount]
    rw [if_neg (by omega)]
  have : ∀ l : List K, x ∈ l → ∃ e, l.mapM b.interpRow = .error e := by
    intro l
    induction l with
    | nil => simp
    | cons a l ih =>
      intro hm
      rw [List.mapM_cons]
      cases ha : b.interpRow a with
      | error e => exact ⟨e, rfl⟩
      | ok r =>
        rcases List.mem_cons.mp hm with rfl | hm
        · rw [hrow] at ha; cases ha
        · obtain ⟨e, he⟩ := ih hm
          exact ⟨e, by rw [he]; rfl⟩
  obtain ⟨e, he⟩ := this t ht
  exact ⟨e, by unfold Basis.interpolationMatrix; rw [he]; rfl⟩

/-- With distinct nodes the query fails exactly when there is no query point (`np.vstack([])`). -/
theorem C02_no_points (tau : List K) (hne : tau ≠ []) (hd : tau.Nodup) (b : Basis K)
    (hb : polynomialBasis tau = .ok b) (t : List K) :
    (∃ e, b.interpolationMatrix t = .error e) ↔ t = [] := by
  constructor
  · rintro ⟨e, he⟩
    by_contra ht
    obtain ⟨L, hL, _⟩ := interpolationMatrix_ok hd hne _ hb t ht
    rw [hL] at he
    cases he
  · rintro rfl
    exact ⟨.value, rfl⟩

/-- **C03** The differentiation matrix is exact on polynomials of degree `<= order`; its entries are the
derivatives of the basis polynomials at the nodes; rows sum to zero. -/
theorem C03_differentiation_matrix (tau : List K) (hne : tau ≠ []) (hd : tau.Nodup) :
    ∃ b, polynomialBasis tau = .ok b ∧ b.D.rows = tau.length ∧ b.D.cols = tau.length ∧
      (∀ p : K[X], p.degree < tau.length → ∀ j < tau.length,
        ∑ k ∈ Finset.range tau.length, b.D.e j k * p.eval (nd tau k) = (derivative p).eval (nd tau j)) ∧
      (∀ j < tau.length, ∀ (k : ℕ) (hk : k < b.poly.length),
        b.D.e j k = (derivative (b.poly[k]).toPoly).eval (nd tau j)) ∧
      (∀ j < tau.length, ∑ k ∈ Finset.range tau.length, b.D.e j k = 0) := by
  refine ⟨_, polynomialBasis_ok hne, rfl, rfl, ?_, ?_, ?_⟩
  · intro p hp j hj
    rw [← sum_mul_derivative_basis_eval hd hp]
    apply Finset.sum_congr rfl
    intro k hk
    simp only [diffEntry_eq hd hj (Finset.mem_range.mp hk)]
  · intro j hj k hk
    simp only [List.length_map, List.length_range] at hk
    simp only [List.getElem_map, List.getElem_range, toPoly_lagrangePoly]
    exact diffEntry_eq hd hj hk
  · intro j hj
    rw [← sum_eval_derivative_basis (nd_injOn hd)
      (Finset.nonempty_range_iff.mpr (by simpa using hne)) (nd tau j)]
    apply Finset.sum_congr rfl
    intro k hk
    simp only [diffEntry_eq hd hj (Finset.mem_range.mp hk)]

/-- One row of `compose`. -/
theorem composeRow_ok {tau : List K} (hne : tau ≠ []) (b : Basis K)
    (hb : polynomialBasis tau = .ok b) (c : Mat K) (hc : c.cols ≤ tau.length) (i : ℕ) :
    ∃ q, b.composeRow c i = .ok q ∧ q.Trimmed ∧
      q.toPoly = ∑ j ∈ Finset.range c.cols,
        C (c.e i j) * Lagrange.basis (Finset.range tau.length) (nd tau) j := by
  rw [polynomialBasis_ok hne] at hb; cases hb
  unfold Basis.composeRow
  simp only
  have key : ∀ m ≤ tau.length, ∃ q : Poly1d K, (List.range m).foldlM
      (fun q j => match ((List.range tau.length).map (lagrangePoly tau))[j]? with
        | some p => Except.ok (q.add (Poly1d.smul (c.e i j) p))
        | none => Except.error PyErr.index)
      (Poly1d.ofCoeffs [0]) = Except.ok q ∧ q.Trimmed ∧
      q.toPoly = ∑ j ∈ Finset.range m,
        C (c.e i j) * Lagrange.basis (Finset.range tau.length) (nd tau) j := by
    intro m
    induction m with
    | zero => intro _; exact ⟨_, rfl, Poly1d.trimmed_ofCoeffs _, by simp [Poly1d.listPoly_cons]⟩
    | succ m ih =>
      intro hm
      obtain ⟨q, hq, _, hqp⟩ := ih (by omega)
      refine ⟨q.add (Poly1d.smul (c.e i m) (lagrangePoly tau m)), ?_, Poly1d.trimmed_ofCoeffs _, ?_⟩
      · rw [List.range_succ, List.foldlM_append, hq]
        have : ((List.range tau.length).map (lagrangePoly tau))[m]? = some (lagrangePoly tau m) := by
          simp [show m < tau.length by omega]
        simp only [bind, Except.bind, List.foldlM_cons, List.foldlM_nil, this, pure, Except.pure]
      · rw [Poly1d.toPoly_add, Poly1d.toPoly_smul, hqp, toPoly_lagrangePoly, Finset.sum_range_succ]
  exact key c.cols hc

/-- **C04** `compose(c)`: one polynomial per row, `sum_j c[i,j] poly[j]`; with one column per node it is the unique
polynomial of degree `<= order` through the points `(tau[k], c[i,k])`. -/
theorem C04_compose (tau : List K) (hne : tau ≠ []) (hd : tau.Nodup) (c : Mat K)
    (hc : c.cols ≤ tau.length) :
    ∃ b qs, polynomialBasis tau = .ok b ∧ b.compose c = .ok qs ∧ qs.length = c.rows ∧
      (∀ (i : ℕ) (hi : i < qs.length) (x : K),
        (qs[i]).eval x = ∑ j ∈ Finset.range c.cols, c.e i j * (b.poly.getD j ⟨[0]⟩).eval x) ∧
      (c.cols = tau.length → ∀ (i : ℕ) (hi : i < qs.length),
        (∀ k < tau.length, (qs[i]).eval (nd tau k) = c.e i k) ∧
        ∀ p : K[X], p.degree < tau.length → (∀ k < tau.length, p.eval (nd tau k) = c.e i k) →
          ∀ x, (qs[i]).eval x = p.eval x) := by
  choose g hg _ hgp using fun i => composeRow_ok hne _ (polynomialBasis_ok hne) c hc i
  refine ⟨_, (List.range c.rows).map g, polynomialBasis_ok hne, mapM_ok _ _ g (fun i _ => hg i),
    by simp, ?_, ?_⟩
  · intro i hi x
    simp only [List.getElem_map, List.getElem_range, Poly1d.eval_eq, hgp, eval_finset_sum, eval_mul,
      eval_C]
    apply Finset.sum_congr rfl
    intro j hj
    have hj' : j < tau.length := lt_of_lt_of_le (Finset.mem_range.mp hj) hc
    have : ((List.range tau.length).map (lagrangePoly tau)).getD j ⟨[0]⟩ = lagrangePoly tau j := by
      simp [List.getD_eq_getElem?_getD, hj']
    rw [this, toPoly_lagrangePoly]
  · intro hcn i hi
    have hval : ∀ p : K[X], p.degree < tau.length → (∀ k < tau.length, p.eval (nd tau k) = c.e i k) →
        ∀ x, (((List.range c.rows).map g)[i]).eval x = p.eval x := by
      intro p hp hk x
      simp only [List.getElem_map, List.getElem_range, Poly1d.eval_eq, hgp, eval_finset_sum, eval_mul,
        eval_C, hcn]
      rw [← sum_mul_basis_eval hd hp]
      apply Finset.sum_congr rfl
      intro j hj
      rw [hk j (Finset.mem_range.mp hj), mul_comm]
    refine ⟨?_, hval⟩
    intro k hk
    rw [hval (Lagrange.interpolate (Finset.range tau.length) (nd tau) (fun k => c.e i k))
      (by simpa using Lagrange.degree_interpolate_lt (fun k => c.e i k) (nd_injOn hd))
      (fun k hk => Lagrange.eval_interpolate_at_node _ (nd_injOn hd) (by simpa)) (nd tau k)]
    exact Lagrange.eval_interpolate_at_node _ (nd_injOn hd) (by simpa)

/-- More coefficient columns than nodes: `compose` raises IndexError. -/
theorem C04_too_many_columns (tau : List K) (hne : tau ≠ []) (c : Mat K)
    (hc : tau.length < c.cols) (hr : 0 < c.rows) (b : Basis K) (hb : polynomialBasis tau = .ok b) :
    b.compose c = .error .index := by
  rw [polynomialBasis_ok hne] at hb; cases hb
  have hrow : ∀ i, Basis.composeRow
      { tau := tau, poly := (List.range tau.length).map (lagrangePoly tau),
        D := ⟨tau.length, tau.length, diffEntry tau ((List.range tau.length).map (lamAt tau))⟩,
        lam := (List.range tau.length).map (lamAt tau) } c i = .error .index := by
    intro i
    obtain ⟨q, hq, _⟩ := composeRow_ok hne _ (polynomialBasis_ok hne)
      (⟨c.rows, tau.length, c.e⟩ : Mat K) le_rfl i
    unfold Basis.composeRow at hq ⊢
    simp only at hq ⊢
    obtain ⟨m, hm⟩ : ∃ m, c.cols = tau.length + (m + 1) := ⟨c.cols - tau.length - 1, by omega⟩
    rw [hm, List.range_add, List.foldlM_append, hq]
    simp [List.range_succ_eq_map, bind, Except.bind]
  unfold Basis.compose
  obtain ⟨m, hm⟩ : ∃ m, c.rows = m + 1 := ⟨c.rows - 1, by omega⟩
  rw [hm, List.range_succ_eq_map, List.mapM_cons, hrow]
  rfl

/-- Vandermonde systems with distinct nodes are nonsingular, and their solution is the Lagrange basis. -/
theorem vandermonde_nonsingular (x : List K) (hd : x.Nodup) :
    Mat.Nonsingular (⟨x.length, x.length, fun i k => nd x k ^ i⟩ : Mat K) := by
  refine ⟨rfl, ?_⟩
  intro v hv m hm
  simp only at hv hm
  have hsum : ∀ p : K[X], p.degree < x.length →
      ∑ k ∈ Finset.range x.length, p.eval (nd x k) * v k = 0 := by
    intro p hp
    have : ∀ k, p.eval (nd x k) = ∑ i ∈ Finset.range x.length, p.coeff i * nd x k ^ i := by
      intro k
      by_cases h0 : p = 0
      · simp [h0]
      · exact eval_eq_sum_range' (by rwa [← natDegree_lt_iff_degree_lt h0] at hp) _
    simp_rw [this, Finset.sum_mul]
    rw [Finset.sum_comm]
    apply Finset.sum_eq_zero
    intro i hi
    simp_rw [mul_assoc]
    rw [← Finset.mul_sum, hv i (Finset.mem_range.mp hi), mul_zero]
  have h := hsum (Lagrange.basis (Finset.range x.length) (nd x) m) (by
    rw [Lagrange.degree_basis (nd_injOn hd) (by simpa)]; simp
    omega)
  rw [Finset.sum_eq_single m] at h
  · rwa [Lagrange.eval_basis_self (nd_injOn hd) (by simpa), one_mul] at h
  · intro k hk hkm
    rw [Lagrange.eval_basis_of_ne (Ne.symm hkm) hk, zero_mul]
  · intro hm'; exact absurd (Finset.mem_range.mpr hm) hm'

/-- **C05** `polynomialInterpolator` and `barycentricInterpolator` return the same matrix: the values at the query
points of the unique polynomial through the data. -/
theorem C05_interpolators_agree (solve : Mat K → Mat K → Except PyErr (Mat K)) (hs : IsSolver solve)
    (x : List K) (hne : x ≠ []) (hd : x.Nodup) (u : Mat K) (hu : u.cols = x.length)
    (xq : List K) (hq : xq ≠ []) :
    ∃ A B, polynomialInterpolator solve x u xq = .ok A ∧ barycentricInterpolator x u xq = .ok B ∧
      A.Same B ∧ A.rows = u.rows ∧ A.cols = xq.length ∧
      ∀ i < u.rows, ∀ p : K[X], p.degree < x.length →
        (∀ k < x.length, p.eval (nd x k) = u.e i k) → ∀ q < xq.length, A.e i q = p.eval (nd xq q) := by
  obtain ⟨L, hL, hr, hc, hval⟩ := interpolationMatrix_ok hd hne _ (polynomialBasis_ok hne) xq hq
  obtain ⟨W, hW, hWr, hWc, hWe⟩ := hs _ (⟨x.length, xq.length, fun i q => nd xq q ^ i⟩ : Mat K)
    (vandermonde_nonsingular x hd) rfl
  simp only at hWr hWc hWe
  have hWp : ∀ q < xq.length, ∀ p : K[X], p.degree < x.length →
      ∑ k ∈ Finset.range x.length, p.eval (nd x k) * W.e k q = p.eval (nd xq q) := by
    intro q hq' p hp
    have : ∀ y, p.eval y = ∑ i ∈ Finset.range x.length, p.coeff i * y ^ i := by
      intro k
      by_cases h0 : p = 0
      · simp [h0]
      · exact eval_eq_sum_range' (by rwa [← natDegree_lt_iff_degree_lt h0] at hp) _
    simp_rw [this, Finset.sum_mul]
    rw [Finset.sum_comm]
    apply Finset.sum_congr rfl
    intro i hi
    simp_rw [mul_assoc]
    rw [← Finset.mul_sum, hWe i (Finset.mem_range.mp hi) q hq']
  have hWL : ∀ k < x.length, ∀ q < xq.length, W.e k q
      = (Lagrange.basis (Finset.range x.length) (nd x) k).eval (nd xq q) := by
    intro m hm q hq'
    have h := hWp q hq' (Lagrange.basis (Finset.range x.length) (nd x) m) (by
      rw [Lagrange.degree_basis (nd_injOn hd) (by simpa)]; simp
      omega)
    rw [Finset.sum_eq_single m] at h
    · rwa [Lagrange.eval_basis_self (nd_injOn hd) (by simpa), one_mul] at h
    · intro k hk hkm
      rw [Lagrange.eval_basis_of_ne (Ne.symm hkm) hk, zero_mul]
    · intro hm'; exact absurd (Finset.mem_range.mpr hm) hm'
  refine ⟨⟨u.rows, W.cols, fun i j => ∑ k ∈ Finset.range u.cols, u.e i k * W.e k j⟩,
    ⟨u.rows, L.rows, fun i j => ∑ k ∈ Finset.range u.cols, u.e i k * L.e j k⟩, ?_, ?_, ?_, rfl, hWc, ?_⟩
  · simp only [polynomialInterpolator, hW, bind, Except.bind, Mat.dot]
    rw [if_pos (by rw [hu, hWr])]
  · simp only [barycentricInterpolator, polynomialBasis_ok hne, hL, bind, Except.bind, Mat.dot]
    rw [if_pos (by rw [hu]; exact hc.symm)]
    rfl
  · refine ⟨rfl, by simp [hWc, hr], ?_⟩
    intro i _ j hj
    simp only [hWc] at hj ⊢
    apply Finset.sum_congr rfl
    intro k hk
    rw [hu, Finset.mem_range] at hk
    rw [hWL k hk j hj, hval j hj k hk]
  · intro i _ p hp hpu q hq'
    rw [← hWp q hq' p hp]
    simp only [hu]
    apply Finset.sum_congr rfl
    intro k hk
    rw [hpu k (Finset.mem_range.mp hk)]

/-! ## Non-vacuity: concrete inputs meet the hypotheses, and the model computes on them -/

/-- The nodes 0, 1/2, 1 are distinct (hypotheses of C01–C05). -/
example : ([0, 1/2, 1] : List ℚ) ≠ [] ∧ ([0, 1/2, 1] : List ℚ).Nodup := by decide +kernel

/-- Test (one input): the model's polynomials for the nodes 0, 1/2, 1. -/
example : (match polynomialBasis ([0, 1/2, 1] : List ℚ) with
    | .ok b => b.poly.map (·.coef) | .error _ => [])
    = [[2, -3, 1], [-4, 4, 0], [2, -1, 0]] := by decide +kernel

/-- Test (one input): interpolation at 1/4 and at the node 1/2. -/
example : (match polynomialBasis ([0, 1/2, 1] : List ℚ) with
    | .ok b => (match b.interpolationMatrix [1/4, 1/2] with
      | .ok L => some (L.rows, L.cols, [L.e 0 0, L.e 0 1, L.e 0 2, L.e 1 0, L.e 1 1, L.e 1 2])
      | .error _ => none) | .error _ => none)
    = some (2, 3, [3/8, 3/4, -1/8, 0, 1, 0]) := by decide +kernel

/-- A solver meeting the contract assumed in C05 exists. -/
example : ∃ solve : Mat ℚ → Mat ℚ → Except PyErr (Mat ℚ), IsSolver solve := exists_isSolver

/-- Repeated nodes exist and are constructed without complaint (hypotheses of `C02_repeated_node_rejected`). -/
example : ∃ b, polynomialBasis ([1, 1] : List ℚ) = .ok b ∧ 1 < ([1, 1] : List ℚ).count 1 :=
  ⟨_, polynomialBasis_ok (by simp), by decide +kernel⟩

/-- C01: the nodes 0, 1/2, 1 give three polynomials of degree 2, the second one is 1 at 1/2 and 0 at 0 and 1. -/
example : ∃ b, polynomialBasis ([0, 1/2, 1] : List ℚ) = .ok b ∧ b.order = 2 ∧ b.poly.length = 3 ∧ ∀ p, b.poly[1]? = some p →
    p.toPoly.natDegree = 2 ∧ p.eval 0 = 0 ∧ p.eval (1/2) = 1 ∧ p.eval 1 = 0 := by
  obtain ⟨b, h1, -, h3, h4, h5⟩ := C01_lagrange_cardinal ([0, 1/2, 1] : List ℚ) (by simp) (by decide +kernel)
  simp only [List.length_cons, List.length_nil, zero_add, Nat.reduceAdd] at h3 h4
  refine ⟨b, h1, by omega, h3, fun p hp => ?_⟩
  obtain ⟨hj, rfl⟩ := List.getElem?_eq_some_iff.1 hp
  obtain ⟨-, hdeg, hv⟩ := h5 1 hj
  exact ⟨by rw [hdeg]; omega, hv 0 (by decide), hv 1 (by decide), hv 2 (by decide)⟩

/-- C01: no nodes. -/
example : polynomialBasis ([] : List ℚ) = .error .assertion := C01_empty_rejected

/-- C02: interpolation with the nodes 0, 1/2, 1 at 1/3 and 1/2 reproduces `x^2`, and the rows sum to one. -/
example : ∃ b L, polynomialBasis ([0, 1/2, 1] : List ℚ) = .ok b ∧ b.interpolationMatrix [1/3, 1/2] = .ok L ∧ L.rows = 2 ∧ L.cols = 3 ∧
    L.e 0 1 * (1/4) + L.e 0 2 = 1/9 ∧ L.e 0 0 + L.e 0 1 + L.e 0 2 = 1 := by
  obtain ⟨b, L, h1, h2, h3, h4, -, h6, h7⟩ := C02_interpolationMatrix ([0, 1/2, 1] : List ℚ) (by simp) (by decide +kernel) [1/3, 1/2] (by simp)
  refine ⟨b, L, h1, h2, h3, h4, ?_, ?_⟩
  · have := h6 (X ^ 2) (by rw [degree_X_pow]; decide) 0 (by decide)
    simp [Finset.sum_range_succ, nd] at this
    linarith
  · have := h7 0 (by decide)
    simp [Finset.sum_range_succ] at this
    linarith

/-- C02: without query points the same basis raises. -/
example : ∃ b e, polynomialBasis ([0, 1/2, 1] : List ℚ) = .ok b ∧ b.interpolationMatrix [] = .error e := by
  obtain ⟨e, he⟩ := (C02_no_points ([0, 1/2, 1] : List ℚ) (by simp) (by decide +kernel) _ (polynomialBasis_ok (by simp)) []).2 rfl
  exact ⟨_, e, polynomialBasis_ok (by simp), he⟩

/-- C02: the nodes 1, 1, 2 are accepted, but a query at 1 raises. -/
example : ∃ b e, polynomialBasis ([1, 1, 2] : List ℚ) = .ok b ∧ b.interpolationMatrix [0, 1] = .error e := by
  obtain ⟨e, he⟩ := C02_repeated_node_rejected ([1, 1, 2] : List ℚ) 1 _ (polynomialBasis_ok (by simp)) (by decide +kernel) [0, 1] (by simp)
  exact ⟨_, e, polynomialBasis_ok (by simp), he⟩

/-- C03: the derivative of `x^2` at 1 from its values at 0, 1/2, 1. -/
example : ∃ b, polynomialBasis ([0, 1/2, 1] : List ℚ) = .ok b ∧ b.D.e 2 1 * (1/4) + b.D.e 2 2 = 2 ∧
    b.D.e 2 0 + b.D.e 2 1 + b.D.e 2 2 = 0 := by
  obtain ⟨b, h1, -, -, h4, -, h6⟩ := C03_differentiation_matrix ([0, 1/2, 1] : List ℚ) (by simp) (by decide +kernel)
  refine ⟨b, h1, ?_, ?_⟩
  · have := h4 (X ^ 2) (by rw [degree_X_pow]; decide) 2 (by decide)
    simp [Finset.sum_range_succ, nd] at this
    linarith
  · have := h6 2 (by decide)
    simp [Finset.sum_range_succ] at this
    linarith

/-- C04: composing the values 0, 1, 4 at 0, 1, 2 gives `x^2`: 9 at 3. -/
example : ∃ b qs, polynomialBasis ([0, 1, 2] : List ℚ) = .ok b ∧ b.compose (Mat.ofRows 3 [[0, 1, 4]]) = .ok qs ∧
    ∀ q ∈ qs, q.eval 3 = 9 := by
  obtain ⟨b, qs, h1, h2, h3, -, h5⟩ := C04_compose ([0, 1, 2] : List ℚ) (by simp) (by decide +kernel) (Mat.ofRows 3 [[0, 1, 4]]) (by decide)
  refine ⟨b, qs, h1, h2, fun q hq => ?_⟩
  obtain ⟨i, hi, rfl⟩ := List.getElem_of_mem hq
  obtain rfl : i = 0 := by rw [h3] at hi; simp [Mat.ofRows] at hi; omega
  rw [(h5 rfl 0 hi).2 (X ^ 2) (by rw [degree_X_pow]; decide) (by
    intro k hk
    have : k = 0 ∨ k = 1 ∨ k = 2 := by simp at hk; omega
    rcases this with rfl | rfl | rfl <;> (simp [Mat.ofRows, nd]; try norm_num)) 3]
  simp
  norm_num

/-- C04: four coefficients for three nodes. -/
example : ∃ b, polynomialBasis ([0, 1, 2] : List ℚ) = .ok b ∧ b.compose (Mat.ofRows 4 [[0, 1, 4, 9]]) = .error .index :=
  ⟨_, polynomialBasis_ok (by simp), C04_too_many_columns _ (by simp) _ (by decide) (by decide) _ (polynomialBasis_ok (by simp))⟩

end CE
