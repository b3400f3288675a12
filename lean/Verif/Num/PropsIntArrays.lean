import Verif.Num.IntArrays
import Verif.Num.PropsPoly
import Verif.Num.PropsPiecewise2
import Mathlib.Data.Nat.Factorial.BigOperators
import Mathlib.Tactic.LinearCombination

/-!
# C128: integer arrays
-/

open Polynomial

namespace CE

theorem wrap_eq {x : ℤ} (h : |x| < 2 ^ 63) : wrap x = x := by
  rw [abs_lt] at h
  unfold wrap Int.bmod
  norm_num at h ⊢
  split_ifs <;> omega

theorem wprod_eq (l : List ℤ) : wprod l = wrap l.prod := by
  have key : ∀ (l : List ℤ) (a : ℤ), l.foldl (fun a b => wrap (a * b)) (wrap a) = wrap (a * l.prod) := by
    intro l
    induction l with
    | nil => simp
    | cons b l ih =>
      intro a
      rw [List.foldl_cons, List.prod_cons, ← mul_assoc, ← ih]
      congr 1
      exact Int.bmod_mul_bmod
  have := key l 1
  rw [one_mul, wrap_eq (by norm_num)] at this
  exact this

theorem wpow_eq (x : ℤ) (k : ℕ) : wpow x k = wrap (x ^ k) := by
  rw [wpow, wprod_eq, List.prod_replicate]

theorem wpow_fits {x : ℤ} {k : ℕ} (h : |x| ^ k < 2 ^ 63) : wpow x k = x ^ k := by
  rw [wpow_eq, wrap_eq (by rwa [abs_pow])]

theorem list_prod_erase (n k : ℕ) (g : ℕ → ℤ) :
    (((List.range n).filter fun i => decide (i ≠ k)).map g).prod = ∏ i ∈ (Finset.range n).erase k, g i := by
  rw [← List.prod_toFinset _ (List.nodup_range.filter _)]
  congr 1
  ext i
  simp [and_comm]

section
variable {K : Type} [Field K] [DecidableEq K]

theorem nd_map_cast (l : List ℤ) (i : ℕ) : nd (l.map fun (x : ℤ) => (x : K)) i = ((nd l i : ℤ) : K) := by
  by_cases h : i < l.length
  · simp [nd, h]
  · simp [nd, List.getElem?_eq_none (by omega : l.length ≤ i)]

theorem nd_small {l : List ℤ} (h : ∀ x ∈ l, |x| < 2 ^ 62) (i : ℕ) : |nd l i| < 2 ^ 62 := by
  by_cases hi : i < l.length
  · have : nd l i = l[i] := by simp [nd, hi]
    rw [this]
    exact h _ (List.getElem_mem hi)
  · simp [nd, List.getElem?_eq_none (by omega : l.length ≤ i)]

theorem wsub_nd {l : List ℤ} (h : ∀ x ∈ l, |x| < 2 ^ 62) (i j : ℕ) : wsub (nd l i) (nd l j) = nd l i - nd l j := by
  have h1 := nd_small h i
  have h2 := nd_small h j
  refine wrap_eq ?_
  rw [abs_lt] at *
  constructor <;> linarith

/-- **C128 (partial)** `PolynomialBasis(tau)` for an integer array is the basis for the same floating point nodes, provided the products of
differences of nodes fit into 64 bits.  Missing from the full claim: nodes for which they do not (`C128_refuted`, `C128_zero`). -/
theorem C128_basis_partial (tau : List ℤ) (hs : ∀ x ∈ tau, |x| < 2 ^ 62)
    (hp : ∀ k < tau.length, |∏ i ∈ (Finset.range tau.length).erase k, (nd tau k - nd tau i)| < 2 ^ 63) :
    (polynomialBasisI tau : Except PyErr (Basis K)) = polynomialBasis (tau.map fun (x : ℤ) => (x : K)) := by
  have hlam : ∀ k < tau.length, (lamAtI tau k : K) = lamAt (tau.map fun (x : ℤ) => (x : K)) k := by
    intro k hk
    unfold lamAtI lamAt lamDenI
    rw [wprod_eq]
    simp only [wsub_nd hs, nd_map_cast, List.length_map]
    rw [list_prod_erase, wrap_eq (hp k hk), ← list_prod_erase, Int.cast_list_prod, List.map_map]
    simp only [Function.comp_def, Int.cast_sub]
  have hL : (List.range tau.length).map (lamAtI tau : ℕ → K) = (List.range tau.length).map (lamAt (tau.map fun (x : ℤ) => (x : K))) :=
    List.map_congr_left fun k hk => hlam k (List.mem_range.mp hk)
  have hpoly : ∀ j, (lagrangePolyI tau j : Poly1d K) = lagrangePoly (tau.map fun (x : ℤ) => (x : K)) j := by
    intro j
    unfold lagrangePolyI lagrangePoly
    have hneg : ∀ r, wrap (-(nd tau r)) = -(nd tau r) := fun r => wrap_eq (by
      rw [abs_neg]
      exact (nd_small hs r).trans (by norm_num))
    simp only [wsub_nd hs, hneg, nd_map_cast, List.length_map, Int.cast_sub, Int.cast_neg]
  unfold polynomialBasisI polynomialBasis
  by_cases h0 : tau = []
  · simp [h0]
  · rw [if_neg h0, if_neg (by simpa using h0)]
    simp only [hL, List.length_map]
    congr 3
    · exact funext hpoly
    · funext j k
      unfold diffEntryI diffEntry
      simp only [wsub_nd hs, nd_map_cast, List.length_map, Int.cast_sub]

end

theorem prod_consecutive (a : ℤ) (k m : ℕ) :
    ∏ i ∈ (Finset.range (k + 1 + m)).erase k, ((a + k) - (a + i) : ℤ) = (-1) ^ m * (k.factorial * m.factorial : ℕ) := by
  have h1 : ∀ i, ((a + k) - (a + i) : ℤ) = (k : ℤ) - i := fun i => by ring
  have h2 : ∏ i ∈ Finset.range k, ((k : ℤ) - i) = (k.factorial : ℕ) := by
    rw [← Finset.prod_range_reflect, ← Finset.prod_range_add_one_eq_factorial, Nat.cast_prod]
    refine Finset.prod_congr rfl fun i hi => ?_
    have := Finset.mem_range.mp hi
    push_cast [Nat.cast_sub (show 1 ≤ k by omega), Nat.cast_sub (show i ≤ k - 1 by omega)]
    ring
  have h3 : ∏ i ∈ Finset.range m, ((k : ℤ) - (k + 1 + i : ℕ)) = (-1) ^ m * (m.factorial : ℕ) := by
    rw [← Finset.prod_range_add_one_eq_factorial, Nat.cast_prod]
    have : ∀ i ∈ Finset.range m, ((k : ℤ) - (k + 1 + i : ℕ)) = -1 * ((i + 1 : ℕ) : ℤ) := fun i _ => by push_cast; ring
    rw [Finset.prod_congr rfl this, Finset.prod_mul_distrib, Finset.prod_const, Finset.card_range]
  have h4 : (Finset.range (k + 1 + m)).erase k = Finset.range k ∪ (Finset.range m).image (k + 1 + ·) := by
    ext i
    simp only [Finset.mem_erase, Finset.mem_range, Finset.mem_union, Finset.mem_image]
    constructor
    · rintro ⟨h, h'⟩
      by_cases hi : i < k
      · exact .inl hi
      · exact .inr ⟨i - k - 1, by omega, by omega⟩
    · rintro (h | ⟨j, h, rfl⟩) <;> omega
  simp only [h1]
  rw [h4, Finset.prod_union, Finset.prod_image (by intro i _ j _ h; simpa using h), h2, h3]
  · push_cast; ring
  · rw [Finset.disjoint_left]
    intro i hi hj
    simp only [Finset.mem_range, Finset.mem_image] at hi hj
    obtain ⟨j, -, rfl⟩ := hj
    omega

theorem nd_consecutive (a : ℤ) {n k : ℕ} (hk : k < n) : nd ((List.range n).map fun (i : ℕ) => a + i) k = a + k := by
  simp [nd, hk]

theorem consecutive_small {a : ℤ} (ha : |a| ≤ 2 ^ 61) {n : ℕ} (hn : n ≤ 2 ^ 61 - 1) : ∀ x ∈ (List.range n).map fun (i : ℕ) => a + i, |x| < 2 ^ 62 := by
  intro x hx
  obtain ⟨i, hi, rfl⟩ := List.mem_map.mp hx
  have hi := List.mem_range.mp hi
  have : (i : ℤ) < 2 ^ 61 - 1 := by
    norm_num at hn ⊢
    omega
  rw [abs_le] at ha
  rw [abs_lt]
  constructor <;> linarith [ha.1, ha.2, Int.natCast_nonneg i]

/-- The denominators of the barycentric weights for consecutive integers. -/
theorem lamDenI_consecutive {a : ℤ} (ha : |a| ≤ 2 ^ 61) (k m : ℕ) (hn : k + 1 + m ≤ 2 ^ 61 - 1) :
    lamDenI ((List.range (k + 1 + m)).map fun (i : ℕ) => a + i) k = wrap ((-1) ^ m * (k.factorial * m.factorial : ℕ)) := by
  unfold lamDenI
  simp only [wsub_nd (consecutive_small ha hn), List.length_map, List.length_range]
  rw [wprod_eq, list_prod_erase, ← prod_consecutive a]
  congr 1
  refine Finset.prod_congr rfl fun i hi => ?_
  have hi := Finset.mem_range.mp (Finset.mem_erase.mp hi).2
  rw [nd_consecutive a (by omega), nd_consecutive a hi]

/-- **C128** For up to 21 consecutive integers, `PolynomialBasis` is right. -/
theorem C128_consecutive {K : Type} [Field K] [DecidableEq K] (a : ℤ) (ha : |a| ≤ 2 ^ 61) (n : ℕ) (hn : n ≤ 21) :
    (polynomialBasisI ((List.range n).map fun (i : ℕ) => a + i) : Except PyErr (Basis K)) =
      polynomialBasis ((List.range n).map fun (i : ℕ) => ((a + i : ℤ) : K)) := by
  rw [C128_basis_partial _ (consecutive_small ha (by norm_num; omega)), List.map_map]
  · rfl
  · intro k hk
    simp only [List.length_map, List.length_range] at hk ⊢
    obtain ⟨m, rfl⟩ : ∃ m, n = k + 1 + m := ⟨n - 1 - k, by omega⟩
    have : ∏ i ∈ (Finset.range (k + 1 + m)).erase k, (nd ((List.range (k + 1 + m)).map fun (i : ℕ) => a + i) k -
        nd ((List.range (k + 1 + m)).map fun (i : ℕ) => a + i) i) = (-1) ^ m * (k.factorial * m.factorial : ℕ) := by
      rw [← prod_consecutive a]
      refine Finset.prod_congr rfl fun i hi => ?_
      have hi := Finset.mem_range.mp (Finset.mem_erase.mp hi).2
      rw [nd_consecutive a (by omega), nd_consecutive a hi]
    rw [this, abs_mul, abs_pow, abs_neg, abs_one, one_pow, one_mul, Nat.abs_cast]
    have h1 : k.factorial * m.factorial ≤ (k + m).factorial := Nat.le_of_dvd (Nat.factorial_pos _) (Nat.factorial_mul_factorial_dvd_factorial_add k m)
    have h2 : (k + m).factorial ≤ Nat.factorial 20 := Nat.factorial_le (by omega)
    have h3 : Nat.factorial 20 < 2 ^ 63 := by decide
    exact_mod_cast h1.trans_lt (h2.trans_lt h3)

theorem two_pow_dvd_factorial (k : ℕ) : 2 ^ (k / 2) ∣ k.factorial := by
  induction k using Nat.strong_induction_on with
  | _ k ih =>
    match k with
    | 0 => simp
    | 1 => simp
    | k + 2 =>
      rw [show (k + 2) / 2 = k / 2 + 1 by omega, pow_succ, Nat.factorial_succ, Nat.factorial_succ, ← mul_assoc, mul_comm]
      refine mul_dvd_mul ?_ (ih k (by omega))
      rcases Nat.even_or_odd k with h | h
      · exact Dvd.dvd.mul_right (by obtain ⟨r, rfl⟩ := h; omega) _
      · exact Dvd.dvd.mul_left (by obtain ⟨r, rfl⟩ := h; omega) _

/-- **C128, refutation**: for 131 or more consecutive integers all the products are 0 modulo 2^64, so that every barycentric weight is a
division by zero (numpy: inf, and nan in all interpolation and differentiation matrices), although the nodes are distinct. -/
theorem C128_zero (a : ℤ) (ha : |a| ≤ 2 ^ 61) (n : ℕ) (hn : 131 ≤ n) (hn' : n ≤ 2 ^ 61 - 1) (k : ℕ) (hk : k < n) :
    lamDenI ((List.range n).map fun (i : ℕ) => a + i) k = 0 := by
  obtain ⟨m, rfl⟩ : ∃ m, n = k + 1 + m := ⟨n - 1 - k, by omega⟩
  rw [lamDenI_consecutive ha k m hn']
  have h : (2 : ℤ) ^ 64 ∣ (-1) ^ m * (k.factorial * m.factorial : ℕ) := by
    refine Dvd.dvd.mul_left ?_ _
    have h1 := mul_dvd_mul (two_pow_dvd_factorial k) (two_pow_dvd_factorial m)
    rw [← pow_add] at h1
    exact_mod_cast (pow_dvd_pow 2 (show 64 ≤ k / 2 + m / 2 by omega)).trans h1
  exact Int.bmod_eq_zero_of_dvd (by exact_mod_cast h)

/-- The denominators for the nodes 0, 1, ..., 21; the first and the last one have overflown. -/
theorem den22 : (List.range 22).map (lamDenI ((List.range 22).map fun (i : ℕ) => (i : ℤ))) =
    [4249290049419214848, 2432902008176640000, -243290200817664000, 38414242234368000, -8536498274304000, 2510734786560000, -941525544960000, 439378587648000, -251073478656000, 173820100608000, -144850083840000, 144850083840000, -173820100608000, 251073478656000, -439378587648000, 941525544960000, -2510734786560000, 8536498274304000, -38414242234368000, 243290200817664000, -2432902008176640000, -4249290049419214848] := by
  decide +kernel

/-- **C128, refutation**: for the 22 nodes 0, 1, ..., 21 the products overflow at both ends, and the differentiation matrix gives a positive number for
the derivative of the square at 0, which is 0. -/
theorem C128_refuted : ∃ b : Basis ℚ, polynomialBasisI ((List.range 22).map fun (i : ℕ) => (i : ℤ)) = .ok b ∧
    19 < ∑ k ∈ Finset.range 22, b.D.e 0 k * (k : ℚ) ^ 2 ∧ b.D.e 0 1 ≠ 21 := by
  set tau := (List.range 22).map fun (i : ℕ) => (i : ℤ) with htau
  have hlen : tau.length = 22 := by simp [htau]
  have hlam : (List.range 22).map (lamAtI tau : ℕ → ℚ) = ((List.range 22).map (lamDenI tau)).map fun (x : ℤ) => 1 / (x : ℚ) := by
    rw [List.map_map]
    rfl
  rw [htau, den22, ← htau] at hlam
  have hsub : ∀ k < 22, wsub (nd tau 0) (nd tau k) = -(k : ℤ) := by rw [htau]; decide
  have hent : ∀ k < 22, k ≠ 0 → diffEntryI tau ((List.range 22).map (lamAtI tau : ℕ → ℚ)) 0 k =
      nd ((List.range 22).map (lamAtI tau : ℕ → ℚ)) k / nd ((List.range 22).map (lamAtI tau : ℕ → ℚ)) 0 / (-(k : ℚ)) := by
    intro k hk h0
    rw [diffEntryI, if_pos (Ne.symm h0), hsub k hk]
    push_cast
    rfl
  refine ⟨_, if_neg (by rw [← List.length_eq_zero_iff, hlen]; norm_num), ?_, ?_⟩
  · simp only [hlen]
    rw [Finset.sum_range_succ', Nat.cast_zero, zero_pow two_ne_zero, mul_zero, add_zero]
    rw [Finset.sum_congr rfl fun k hk => by rw [hent (k + 1) (by have := Finset.mem_range.mp hk; omega) (by omega)], hlam]
    norm_num [Finset.sum_range_succ, nd]
  · simp only [hlen]
    rw [hent 1 (by norm_num) (by norm_num), hlam]
    norm_num [nd]

section
variable {K : Type} [Field K] [DecidableEq K]

omit [DecidableEq K] in
theorem nonsingular_congr {n : ℕ} {a b : ℕ → ℕ → K} (h : ∀ i < n, ∀ k < n, a i k = b i k) (hA : Mat.Nonsingular (⟨n, n, a⟩ : Mat K)) :
    Mat.Nonsingular (⟨n, n, b⟩ : Mat K) := by
  refine ⟨rfl, fun v hv => hA.2 v fun i hi => ?_⟩
  rw [← hv i hi]
  exact Finset.sum_congr rfl fun k hk => congrArg (· * v k) (h i hi k (Finset.mem_range.mp hk))

/-- **C128 (partial)** `polynomialInterpolator` for an integer array `x` returns the values of the interpolating polynomials, provided the powers
of the nodes fit into 64 bits.  Missing from the full claim: nodes for which they do not (`C128_vandermonde_refuted`). -/
theorem C128_vandermonde_partial (solve : Mat K → Mat K → Except PyErr (Mat K)) (hs : IsSolver solve) (x : List ℤ) (hne : x ≠ [])
    (hd : (x.map fun (y : ℤ) => (y : K)).Nodup) (hp : ∀ k < x.length, ∀ i < x.length, |nd x k| ^ i < 2 ^ 63) (u : Mat K) (hu : u.cols = x.length)
    (xq : List K) (hq : xq ≠ []) :
    ∃ A, polynomialInterpolatorI solve x u xq = .ok A ∧ A.rows = u.rows ∧ A.cols = xq.length ∧
      ∀ i < u.rows, ∀ p : K[X], p.degree < x.length → (∀ k < x.length, p.eval ((nd x k : ℤ) : K) = u.e i k) →
        ∀ q < xq.length, A.e i q = p.eval (nd xq q) := by
  classical
  have hlen : (x.map fun (y : ℤ) => (y : K)).length = x.length := List.length_map ..
  let X : Mat K := ⟨x.length, x.length, fun i k => nd (x.map fun (y : ℤ) => (y : K)) k ^ i⟩
  let Y : Mat K := ⟨x.length, x.length, fun i k => ((wpow (nd x k) i : ℤ) : K)⟩
  have he : ∀ i < x.length, ∀ k < x.length, X.e i k = Y.e i k := by
    intro i hi k hk
    simp only [X, Y, nd_map_cast, wpow_fits (hp k hk i hi), Int.cast_pow]
  have hX : X.Nonsingular := by
    have := vandermonde_nonsingular _ hd
    rwa [hlen] at this
  have hY : Y.Nonsingular := nonsingular_congr he hX
  let solve' : Mat K → Mat K → Except PyErr (Mat K) := fun A B => if A = X then solve Y B else solve A B
  have hs' : IsSolver solve' := by
    intro A B hA hB
    by_cases h : A = X
    · subst h
      obtain ⟨W, h1, h2, h3, h4⟩ := hs Y B hY hB
      refine ⟨W, (if_pos rfl).trans h1, h2, h3, fun i hi q hq => ?_⟩
      rw [← h4 i hi q hq]
      exact Finset.sum_congr rfl fun k hk => by rw [he i hi k (Finset.mem_range.mp hk)]
    · obtain ⟨W, h1, h2⟩ := hs A B hA hB
      exact ⟨W, (if_neg h).trans h1, h2⟩
  obtain ⟨A, -, h1, -, -, h2, h3, h4⟩ := C05_interpolators_agree solve' hs' (x.map fun (y : ℤ) => (y : K)) (by simpa using hne) hd u (by rw [hlen, hu]) xq hq
  refine ⟨A, ?_, h2, h3, ?_⟩
  · rw [← h1]
    unfold polynomialInterpolatorI polynomialInterpolator
    simp only [hlen]
    congr 1
    exact (if_pos rfl).symm
  · intro i hi p hdeg hv
    exact h4 i hi p (by rwa [hlen]) (by
      intro k hk
      rw [nd_map_cast]
      exact hv k (by simpa using hk))

/-- The powers of 0, ..., 16 up to the 16th: only `16 ** 16 = 2 ** 64` does not fit. -/
theorem wpow17 : ∀ k < 17, ∀ i < 17, wpow (nd ((List.range 17).map fun (i : ℕ) => (i : ℤ)) k) i = if k = 16 ∧ i = 16 then 0 else (k : ℤ) ^ i := by
  decide +kernel

theorem eval_moments {n : ℕ} {P : K[X]} (hP : P.degree < (n : WithBot ℕ)) (m : ℕ) (w : ℕ → K) (t : ℕ → K)
    (h : ∀ i < n, ∑ k ∈ Finset.range m, (k : K) ^ i * w k = t i) :
    ∑ k ∈ Finset.range m, P.eval (k : K) * w k = ∑ i ∈ Finset.range n, P.coeff i * t i := by
  have e : ∀ y, P.eval y = ∑ i ∈ Finset.range n, P.coeff i * y ^ i := by
    intro y
    by_cases h0 : P = 0
    · simp [h0]
    · exact eval_eq_sum_range' (by rwa [← natDegree_lt_iff_degree_lt h0] at hP) _
  simp only [e, Finset.sum_mul]
  rw [Finset.sum_comm]
  refine Finset.sum_congr rfl fun i hi => ?_
  rw [← h i (Finset.mem_range.mp hi), Finset.mul_sum]
  exact Finset.sum_congr rfl fun k _ => by ring

/-- **C128, refutation**: with the 17 nodes 0, 1, ..., 16 `polynomialInterpolator` does not reproduce the 16th power: as `16 ** 16` overflows to 0, the result is off by
a multiple of the product of the differences to the first 16 nodes. -/
theorem C128_vandermonde_refuted [CharZero K] (solve : Mat K → Mat K → Except PyErr (Mat K)) (hs : IsSolver solve) (s : K) :
    ∃ A, polynomialInterpolatorI solve ((List.range 17).map fun (i : ℕ) => (i : ℤ)) ⟨1, 17, fun _ k => (k : K) ^ 16⟩ [s] = .ok A ∧
      A.e 0 0 = s ^ 16 - 16 ^ 16 / (16 ^ 16 - 20922789888000) * ∏ i ∈ Finset.range 16, (s - i) ∧
      ((∀ i : ℕ, i < 16 → s ≠ (i : K)) → A.e 0 0 ≠ s ^ 16) := by
  set x := (List.range 17).map fun (i : ℕ) => (i : ℤ) with hx
  have hlen : x.length = 17 := by simp [hx]
  set N : K[X] := Lagrange.nodal (Finset.range 16) (fun i : ℕ => (i : K)) with hN
  have hNd : N.degree = (16 : ℕ) := by rw [hN, Lagrange.degree_nodal, Finset.card_range]
  have hNl : (N - X ^ 16).degree < ((16 : ℕ) : WithBot ℕ) := by
    rw [← hNd]
    refine degree_sub_lt (by rw [hNd, degree_X_pow]) (Lagrange.nodal_ne_zero) ?_
    rw [hN, (Lagrange.nodal_monic).leadingCoeff, (monic_X_pow 16).leadingCoeff]
  have hN0 : ∀ k : ℕ, k < 16 → N.eval (k : K) = 0 := fun k hk => Lagrange.eval_nodal_at_node (Finset.mem_range.mpr hk)
  have hN16 : N.eval ((16 : ℕ) : K) = 20922789888000 := by
    rw [hN, Lagrange.eval_nodal]
    norm_num [Finset.prod_range_succ]
  have hent : ∀ i < 17, ∀ k < 17, ((wpow (nd x k) i : ℤ) : K) = if k = 16 ∧ i = 16 then 0 else (k : K) ^ i := by
    intro i hi k hk
    rw [hx, wpow17 k hk i hi]
    split_ifs <;> simp
  have hlow : ∀ (w : ℕ → K), ∀ i < 16, ∑ k ∈ Finset.range 17, ((wpow (nd x k) i : ℤ) : K) * w k = ∑ k ∈ Finset.range 17, (k : K) ^ i * w k := by
    intro w i hi
    refine Finset.sum_congr rfl fun k hk => ?_
    rw [hent i (by omega) k (Finset.mem_range.mp hk), if_neg (by omega)]
  have htop : ∀ (w : ℕ → K), ∑ k ∈ Finset.range 17, (k : K) ^ 16 * w k =
      ∑ k ∈ Finset.range 17, ((wpow (nd x k) 16 : ℤ) : K) * w k + 16 ^ 16 * w 16 := by
    intro w
    rw [Finset.sum_range_succ, Finset.sum_range_succ _ 16, hent 16 (by norm_num) 16 (by norm_num), if_pos ⟨rfl, rfl⟩, zero_mul, add_zero]
    congr 1
    refine Finset.sum_congr rfl fun k hk => ?_
    have := Finset.mem_range.mp hk
    rw [hent 16 (by norm_num) k (by omega), if_neg (by omega)]
  have hNsum : ∀ (w : ℕ → K), ∑ k ∈ Finset.range 17, N.eval (k : K) * w k = 20922789888000 * w 16 := by
    intro w
    rw [Finset.sum_range_succ, hN16, Finset.sum_eq_zero, zero_add]
    intro k hk
    rw [hN0 k (Finset.mem_range.mp hk), zero_mul]
  have hsplit : ∀ (w : ℕ → K), ∑ k ∈ Finset.range 17, N.eval (k : K) * w k =
      ∑ k ∈ Finset.range 17, (N - X ^ 16).eval (k : K) * w k + ∑ k ∈ Finset.range 17, (k : K) ^ 16 * w k := by
    intro w
    rw [← Finset.sum_add_distrib]
    refine Finset.sum_congr rfl fun k _ => ?_
    rw [eval_sub, eval_pow, eval_X]
    ring
  have hc : (20922789888000 : K) - 16 ^ 16 ≠ 0 := by norm_num
  have hns : Mat.Nonsingular (⟨17, 17, fun i k => ((wpow (nd x k) i : ℤ) : K)⟩ : Mat K) := by
    refine ⟨rfl, fun v hv => ?_⟩
    simp only at hv
    have h1 := eval_moments hNl 17 v (fun _ => 0) (fun i hi => by rw [← hlow v i hi, hv i (by omega)])
    have h2 := hsplit v
    rw [hNsum, h1, htop, hv 16 (by norm_num)] at h2
    simp only [mul_zero, Finset.sum_const_zero, zero_add] at h2
    have h3 : v 16 = 0 := by
      have : ((20922789888000 : K) - 16 ^ 16) * v 16 = 0 := by rw [sub_mul, h2, sub_self]
      exact (mul_eq_zero.mp this).resolve_left hc
    have hd : ((List.range 17).map fun (i : ℕ) => (i : K)).Nodup := List.nodup_range.map Nat.cast_injective
    have hV := vandermonde_nonsingular _ hd
    simp only [List.length_map, List.length_range] at hV
    refine hV.2 v fun i hi => ?_
    have hnd : ∀ k ∈ Finset.range 17, nd ((List.range 17).map fun (i : ℕ) => (i : K)) k ^ i * v k = (k : K) ^ i * v k := by
      intro k hk
      have hk := Finset.mem_range.mp hk
      congr 2
      simp [nd, hk]
    rw [Finset.sum_congr rfl hnd]
    rcases Nat.lt_or_ge i 16 with h | h
    · rw [← hlow v i h, hv i hi]
    · obtain rfl : i = 16 := by simp only at hi; omega
      rw [htop, hv 16 (by norm_num), h3, mul_zero, add_zero]
  obtain ⟨W, hW, hWr, hWc, hWe⟩ := hs _ ⟨17, 1, fun i q => nd [s] q ^ i⟩ hns rfl
  simp only at hWr hWc hWe
  have hs0 : nd [s] 0 = s := rfl
  have hWe : ∀ i < 17, ∑ k ∈ Finset.range 17, ((wpow (nd x k) i : ℤ) : K) * W.e k 0 = s ^ i := fun i hi => hWe i hi 0 (by norm_num)
  have h1 := eval_moments hNl 17 (fun k => W.e k 0) (fun i => s ^ i) (fun i hi => by rw [← hlow _ i hi, hWe i (by omega)])
  have h2 := hsplit fun k => W.e k 0
  have h3 : ∑ i ∈ Finset.range 16, (N - X ^ 16).coeff i * s ^ i = N.eval s - s ^ 16 := by
    by_cases h0 : N - X ^ 16 = 0
    · have : N = X ^ 16 := sub_eq_zero.mp h0
      rw [this]
      simp
    · rw [← eval_eq_sum_range' (by rwa [← natDegree_lt_iff_degree_lt h0] at hNl) s, eval_sub, eval_pow, eval_X]
  rw [hNsum, h1, h3, htop, hWe 16 (by norm_num)] at h2
  have hw : W.e 16 0 = -(N.eval s / (16 ^ 16 - 20922789888000)) := by
    have hc' : (16 : K) ^ 16 - 20922789888000 ≠ 0 := by norm_num
    rw [← neg_div, eq_div_iff hc']
    linear_combination -h2
  have hres : ∑ k ∈ Finset.range 17, (k : K) ^ 16 * W.e k 0 = s ^ 16 - 16 ^ 16 / (16 ^ 16 - 20922789888000) * ∏ i ∈ Finset.range 16, (s - i) := by
    rw [htop, hWe 16 (by norm_num), hw, hN, Lagrange.eval_nodal]
    ring
  refine ⟨⟨1, W.cols, fun i j => ∑ k ∈ Finset.range 17, (k : K) ^ 16 * W.e k j⟩, ?_, hres, fun h => ?_⟩
  · unfold polynomialInterpolatorI
    simp only [hlen, List.length_singleton, hW, bind, Except.bind, Mat.dot, hWr]
    rfl
  · simp only
    rw [hres]
    intro h'
    have h4 : (16 : K) ^ 16 / (16 ^ 16 - 20922789888000) * ∏ i ∈ Finset.range 16, (s - i) = 0 := by linear_combination -h'
    rcases mul_eq_zero.mp h4 with h5 | h5
    · norm_num at h5
    · obtain ⟨i, hi, h6⟩ := Finset.prod_eq_zero_iff.mp h5
      exact h i (Finset.mem_range.mp hi) (sub_eq_zero.mp h6)

end

theorem zipWith_congr_right {α β γ : Type*} {f g : α → β → γ} (l : List α) (m : List β) (h : ∀ a, ∀ b ∈ m, f a b = g a b) :
    List.zipWith f l m = List.zipWith g l m := by
  induction m generalizing l with
  | nil => simp
  | cons b m ih =>
    cases l with
    | nil => simp
    | cons a l => rw [List.zipWith_cons_cons, List.zipWith_cons_cons, h a b (by simp), ih l fun a b hb => h a b (by simp [hb])]

section
variable {K : Type} [Field K] [LinearOrder K] [IsStrictOrderedRing K]

omit [LinearOrder K] [IsStrictOrderedRing K] in
theorem pyIndex_map_cast (l : List ℤ) (n : ℤ) :
    pyIndex (l.map fun (x : ℤ) => (x : K)) n = (pyIndex l n).map fun (x : ℤ) => (x : K) := by
  unfold pyIndex
  simp only [List.length_map, List.getElem?_map]
  split_ifs
  · rfl
  · cases l[(n + (l.length : ℤ)).toNat]? <;> rfl
  · cases l[n.toNat]? <;> rfl

/-- **C128 (partial)** `poly(n)` for an integer array of intervals is that for the same floating point intervals, provided the powers of the length of
the interval fit into 64 bits, and the composed polynomials are not integer arrays.  Missing from the full claim: `C128_poly_refuted`, `C128_type`. -/
theorem C128_poly_partial (intervals : List ℤ) (intCoef : Bool) (coefficients : List (Mat K)) (basis : Basis K) (n : ℤ)
    (hc : intCoef = false ∨ basis.order ≠ 0)
    (hp : ∀ a b, pyIndex intervals n = .ok a → pyIndex intervals (n + 1) = .ok b → |b - a| < 2 ^ 63 ∧ |b - a| ^ basis.order < 2 ^ 63) :
    polyI intervals intCoef coefficients basis n = PiecewisePoly.poly ⟨intervals.map fun (x : ℤ) => (x : K), coefficients, basis⟩ n := by
  unfold polyI PiecewisePoly.poly
  simp only [pyIndex_map_cast]
  congr 1
  funext c
  congr 1
  funext p
  congr 1
  funext p_i
  rcases hb : pyIndex intervals (n + 1) with e | b
  · rfl
  rcases ha : pyIndex intervals n with e | a
  · rfl
  simp only [bind, Except.bind, Except.map]
  obtain ⟨h1, h2⟩ := hp a b ha hb
  rw [if_neg (by rcases hc with h | h <;> simp [h]), rescaleI, PiecewisePoly.rescale, wsub, wrap_eq h1]
  have hw : ∀ k ≤ basis.order, wpow (b - a) k = (b - a) ^ k := by
    intro k hk
    refine wpow_fits ?_
    rcases eq_or_ne (b - a) 0 with h0 | h0
    · rw [h0, abs_zero]
      rcases Nat.eq_zero_or_pos k with rfl | hk'
      · norm_num
      · rw [zero_pow hk'.ne']; norm_num
    · exact (pow_le_pow_right₀ (Int.one_le_abs h0) hk).trans_lt h2
  split_ifs with hl
  · congr 2
    refine zipWith_congr_right _ _ fun c k hk => ?_
    have hk : k < basis.order + 1 := by simpa using hk
    rw [hw k (by omega), Int.cast_pow, Int.cast_sub]
  · rfl

/-- **C128, refutation**: on an interval of length 10 with 20 nodes, `10 ** 19` overflows, and the polynomials that `poly(0)` returns are wrong at every
point but 0. -/
theorem C128_poly_refuted (pp : PiecewisePoly K) (tau : List K) (R : ℕ) (w : pp.WF tau R) (hi : pp.intervals = [0, 10]) (ht : tau.length = 20)
    (hfull : ∀ r < R, ∀ P, IsPiece tau pp 0 r P → P.natDegree = 19) :
    ∃ ps, polyI [0, 10] false pp.coefficients pp.basis 0 = .ok ps ∧ ps.length = R ∧
      ∀ (r : ℕ) (hr : r < ps.length) (s : K), s ≠ 0 → ∀ P, IsPiece tau pp 0 r P → (ps[r]).eval s ≠ P.eval s := by
  obtain ⟨c, qs, hc, hqs, hlen, hq⟩ := compose_pieces w (n := 0) (by simp [hi])
  have hord : pp.basis.order = 19 := by
    have hb := w.basis
    rw [polynomialBasis_ok w.ne] at hb
    injection hb with hb
    rw [← hb]
    simp only [Basis.order, ht]
  obtain ⟨ps, hps, hpl, hall⟩ := mapM_ok' (fun p_i : Poly1d K => do
      let b ← pyIndex ([0, 10] : List ℤ) (0 + 1)
      let a ← pyIndex ([0, 10] : List ℤ) 0
      if (false : Bool) ∧ pp.basis.order = 0 then .error .type else rescaleI (wsub b a) pp.basis.order p_i) qs
    (fun q p => ∃ (c0 : K) (l : List K), q.coef = c0 :: l ∧ l.length = 19 ∧ p.coef = (c0 / ((-8446744073709551616 : ℤ) : K)) ::
      List.zipWith (fun c (k : ℕ) => c / (10 : K) ^ k) l (List.range 19).reverse) (by
      intro q hqm
      obtain ⟨r, hr, rfl⟩ := List.mem_iff_getElem.mp hqm
      obtain ⟨P, hP⟩ := w.exists_piece (n := 0) (by simp [hi]) r
      have hl := (hq r hr P hP).1
      rw [hfull r (by omega) P hP] at hl
      obtain ⟨c0, l, hcl⟩ : ∃ c0 l, (qs[r]).coef = c0 :: l := by
        cases h : (qs[r]).coef with
        | nil => rw [h] at hl; simp at hl
        | cons c0 l => exact ⟨c0, l, rfl⟩
      have hl' : l.length = 19 := by rw [hcl] at hl; simpa using hl
      refine ⟨⟨_⟩, ?_, c0, l, hcl, hl', rfl⟩
      have e1 : pyIndex ([0, 10] : List ℤ) (0 + 1) = .ok 10 := rfl
      have e0 : pyIndex ([0, 10] : List ℤ) 0 = .ok 0 := rfl
      rw [e1, e0]
      simp only [bind, Except.bind]
      rw [if_neg (by simp), hord, rescaleI, if_pos hl, hcl, show (List.range (19 + 1)).reverse = 19 :: (List.range 19).reverse by decide,
        List.zipWith_cons_cons, show wpow (wsub 10 0) 19 = -8446744073709551616 by decide +kernel,
        zipWith_congr_right (g := fun c (k : ℕ) => c / (10 : K) ^ k) l (List.range 19).reverse fun c k hk => by
          have hk : k < 19 := by simpa using hk
          rw [show wsub 10 0 = 10 by decide +kernel, wpow_fits (x := 10) (k := k) (by
            rw [abs_of_pos (by norm_num)]
            exact (pow_le_pow_right₀ (by norm_num) (show k ≤ 18 by omega)).trans_lt (by norm_num))]
          push_cast
          rfl])
  refine ⟨ps, ?_, by omega, ?_⟩
  · unfold polyI
    have hc : pyIndex pp.coefficients 0 = .ok c := hc
    rw [hc]
    simp only [bind, Except.bind]
    rw [hqs]
    exact hps
  · intro r hr s hs P hP
    obtain ⟨-, c0, l, h1, h2, h3⟩ := hall r (by omega) hr
    obtain ⟨hl, hv⟩ := hq r (by omega) P hP
    have hdeg := hfull r (by omega) P hP
    have hc0 : c0 ≠ 0 := by
      rintro rfl
      have hpoly : (qs[r]'(by omega)).toPoly = P.comp (C 10 * X) := by
        refine Polynomial.funext fun x => ?_
        rw [← Poly1d.eval_eq, hv, hi]
        simp [nd]
      have hd := congrArg Polynomial.natDegree hpoly
      rw [natDegree_comp, hdeg, natDegree_C_mul_X _ (by norm_num)] at hd
      have h4 : (qs[r]'(by omega)).toPoly = Poly1d.listPoly l := by
        show Poly1d.listPoly (qs[r]'(by omega)).coef = _
        rw [h1, Poly1d.listPoly_cons, C_0, zero_mul, zero_add]
      have h5 := Poly1d.degree_listPoly_lt l
      rw [h4] at hd
      rw [h2] at h5
      have := natDegree_lt_iff_degree_lt (p := Poly1d.listPoly l) (n := 19) (by
        intro h0
        rw [h0] at hd
        simp at hd) |>.mpr h5
      omega
    have hP' : P.eval s = c0 * (s / 10) ^ 19 + (Poly1d.listPoly l).eval (s / 10) := by
      have h4 := hv (s / 10)
      rw [hi] at h4
      rw [show nd ([0, 10] : List K) 0 = 0 from rfl, show nd ([0, 10] : List K) (0 + 1) = 10 from rfl, sub_zero, zero_add] at h4
      rw [mul_div_cancel₀ s (by norm_num : (10 : K) ≠ 0)] at h4
      rw [← h4, Poly1d.eval_eq]
      show (Poly1d.listPoly (qs[r]'(by omega)).coef).eval _ = _
      rw [h1, Poly1d.listPoly_cons, h2]
      simp
    have hp' : (ps[r]).eval s = c0 / ((-8446744073709551616 : ℤ) : K) * s ^ 19 + (Poly1d.listPoly l).eval (s / 10) := by
      rw [Poly1d.eval_eq]
      show (Poly1d.listPoly (ps[r]).coef).eval s = _
      have h4 := eval_rescale_list 10 l s
      rw [h2] at h4
      rw [h3, Poly1d.listPoly_cons, eval_add, h4]
      simp [h2]
    rw [hP', hp']
    intro h
    have h6 : c0 * s ^ 19 * (1 / ((-8446744073709551616 : ℤ) : K) - 1 / 10 ^ 19) = 0 := by
      have h7 := add_right_cancel h
      rw [div_pow] at h7
      linear_combination h7
    have h8 : (1 / ((-8446744073709551616 : ℤ) : K) - 1 / 10 ^ 19) ≠ 0 := by norm_num
    exact mul_ne_zero (mul_ne_zero hc0 (pow_ne_zero _ hs)) h8 h6

/-- **C128, refutation**: with a single node and integer coefficients `poly(n)` raises TypeError. -/
theorem C128_type (intervals : List ℤ) (coefficients : List (Mat K)) (x : K) (basis : Basis K) (hb : polynomialBasis [x] = .ok basis) (n : ℕ)
    (hi : n + 1 < intervals.length) (hn : n < coefficients.length) (hr : 0 < coefficients[n].rows) (hc : coefficients[n].cols = 1) :
    polyI intervals true coefficients basis n = .error .type := by
  have hord : basis.order = 0 := by
    rw [polynomialBasis_ok (by simp)] at hb
    injection hb with hb
    rw [← hb]
    rfl
  choose g hg htr hgp using fun i => composeRow_ok (by simp) _ hb coefficients[n] (by rw [hc]; simp) i
  unfold polyI Basis.compose
  rw [pyIndex_nat hn]
  simp only [bind, Except.bind]
  rw [mapM_ok _ _ g fun i _ => hg i]
  obtain ⟨m, hm⟩ : ∃ m, coefficients[n].rows = m + 1 := ⟨coefficients[n].rows - 1, by omega⟩
  simp only [hm, List.range_succ_eq_map, List.map_cons, List.mapM_cons]
  rw [show ((n : ℤ) + 1) = ((n + 1 : ℕ) : ℤ) by push_cast; rfl, pyIndex_nat hi, pyIndex_nat (by omega : n < intervals.length)]
  simp only [hord, and_self, if_true]
  rfl

end

/-- Integer nodes and intervals: `PolynomialBasis([0, 1, 3])`. -/
example : (polynomialBasisI [0, 1, 3] : Except PyErr (Basis ℚ)) = polynomialBasis [0, 1, 3] := by
  have := C128_basis_partial (K := ℚ) [0, 1, 3] (by decide) (by decide)
  simpa using this

/-- 21 consecutive nodes are right, 131 give only divisions by zero. -/
example : (polynomialBasisI ((List.range 21).map fun (i : ℕ) => -5 + (i : ℤ)) : Except PyErr (Basis ℚ)) =
      polynomialBasis ((List.range 21).map fun (i : ℕ) => ((-5 + i : ℤ) : ℚ)) ∧
    lamDenI ((List.range 131).map fun (i : ℕ) => -5 + (i : ℤ)) 7 = 0 :=
  ⟨C128_consecutive (-5) (by norm_num) 21 le_rfl, C128_zero (-5) (by norm_num) 131 le_rfl (by norm_num) 7 (by norm_num)⟩

/-- `polynomialInterpolator(np.array([0, 1, 3]))` for the data 0, 1, 9 at 2. -/
example (solve : Mat ℚ → Mat ℚ → Except PyErr (Mat ℚ)) (hs : IsSolver solve) :
    ∃ A, polynomialInterpolatorI solve [0, 1, 3] ⟨1, 3, fun _ k => nd [0, 1, 9] k⟩ [2] = .ok A ∧ A.e 0 0 = 4 := by
  obtain ⟨A, h1, -, -, h2⟩ := C128_vandermonde_partial solve hs [0, 1, 3] (by simp) (by simp) (by decide) ⟨1, 3, fun _ k => nd [0, 1, 9] k⟩ rfl [2] (by simp)
  refine ⟨A, h1, ?_⟩
  have := h2 0 (by simp) (X ^ 2) (by rw [degree_X_pow]; exact_mod_cast (by simp)) (by
    intro k hk
    have hk : k = 0 ∨ k = 1 ∨ k = 2 := by simp at hk; omega
    rcases hk with rfl | rfl | rfl <;> norm_num [nd]) 0 (by simp)
  rw [this]
  norm_num [nd]

/-- `polynomialInterpolator(np.arange(17))` for the data `k ** 16` at the node 16. -/
example (solve : Mat ℚ → Mat ℚ → Except PyErr (Mat ℚ)) (hs : IsSolver solve) :
    ∃ A, polynomialInterpolatorI solve ((List.range 17).map fun (i : ℕ) => (i : ℤ)) ⟨1, 17, fun _ k => (k : ℚ) ^ 16⟩ [16] = .ok A ∧ A.e 0 0 ≠ 16 ^ 16 := by
  obtain ⟨A, h1, -, h2⟩ := C128_vandermonde_refuted solve hs (16 : ℚ)
  refine ⟨A, h1, h2 fun i hi => ?_⟩
  have : (i : ℚ) < 16 := by exact_mod_cast hi
  exact this.ne'

/-- `(t / 10) ** 19` on the interval from 0 to 10, given by 20 equidistant values. -/
def exTwenty : PiecewisePoly ℚ :=
  ⟨[0, 10], [⟨1, 20, fun _ j => ((j : ℚ) / 19) ^ 19⟩], ⟨(List.range 20).map fun (j : ℕ) => (j : ℚ) / 19,
    (List.range 20).map (lagrangePoly ((List.range 20).map fun (j : ℕ) => (j : ℚ) / 19)),
    ⟨20, 20, diffEntry ((List.range 20).map fun (j : ℕ) => (j : ℚ) / 19) ((List.range 20).map (lamAt ((List.range 20).map fun (j : ℕ) => (j : ℚ) / 19)))⟩,
    (List.range 20).map (lamAt ((List.range 20).map fun (j : ℕ) => (j : ℚ) / 19))⟩⟩

theorem exTwenty_wf : exTwenty.WF ((List.range 20).map fun (j : ℕ) => (j : ℚ) / 19) 1 where
  ne := by simp
  nodup := List.nodup_range.map fun i j h => by simpa using h
  basis := by rw [polynomialBasis_ok (by simp)]; simp [exTwenty]
  asc := by
    intro i hi
    have : i = 0 := by simp [exTwenty] at hi; omega
    subst this
    simp [exTwenty, nd]
  two := by simp [exTwenty]
  len := rfl
  rows := by simp [exTwenty]
  cols := by simp [exTwenty]

example : ∃ ps, polyI [0, 10] false exTwenty.coefficients exTwenty.basis 0 = .ok ps ∧ ∃ h : 0 < ps.length, (ps[0]).eval 10 ≠ 1 := by
  have hQ : IsPiece ((List.range 20).map fun (j : ℕ) => (j : ℚ) / 19) exTwenty 0 0 ((C (1 / 10) * X) ^ 19) := by
    refine ⟨_, rfl, ?_, ?_⟩
    · rw [mul_pow, ← C_pow, degree_C_mul_X_pow _ (by norm_num)]
      simp
      exact_mod_cast (by norm_num : 19 < 20)
    · intro j hj
      have hj : j < 20 := by simpa using hj
      simp [exTwenty, nd, hj]
  obtain ⟨ps, h1, h2, h3⟩ := C128_poly_refuted exTwenty _ 1 exTwenty_wf rfl (by simp) (by
    intro r hr P hP
    obtain rfl : r = 0 := by omega
    have : P = (C (1 / 10) * X) ^ 19 := by
      obtain ⟨c, hc, hd, hv⟩ := hP
      obtain ⟨c', hc', hd', hv'⟩ := hQ
      rw [hc] at hc'
      cases hc'
      refine Polynomial.eq_of_degrees_lt_of_eval_index_eq (Finset.range 20)
        (v := fun j => nd exTwenty.intervals 0 + (nd exTwenty.intervals (0 + 1) - nd exTwenty.intervals 0) * nd ((List.range 20).map fun (j : ℕ) => (j : ℚ) / 19) j)
        ?_ (by simpa using hd) (by simpa using hd') ?_
      · intro i hi j hj h
        have hi : i < 20 := by simpa using hi
        have hj : j < 20 := by simpa using hj
        simpa [exTwenty, nd, hi, hj] using h
      · intro j hj
        have hj : j < 20 := by simpa using hj
        rw [hv j (by simpa), hv' j (by simpa)]
    rw [this, natDegree_pow, natDegree_C_mul_X _ (by norm_num)])
  refine ⟨ps, h1, by omega, ?_⟩
  have := h3 0 (by omega) 10 (by norm_num) _ hQ
  simpa using this

/-- `PiecewisePoly([0, 2], [np.array([[5]])], PolynomialBasis([0])).poly(0)` raises TypeError. -/
example : polyI [0, 2] true [(⟨1, 1, fun _ _ => 5⟩ : Mat ℚ)] ⟨[0], [lagrangePoly [0] 0], ⟨1, 1, diffEntry [0] [lamAt [0] 0]⟩, [lamAt [0] 0]⟩ 0 = .error .type :=
  C128_type [0, 2] _ (0 : ℚ) _ rfl 0 (by simp) (by simp) (by simp) (by simp)

/-- `poly(0)` on an integer grid with floating point coefficients and two nodes is that of the floating point grid. -/
example (c : Mat ℚ) : polyI [0, 2] false [c] (exPP.basis) 0 = PiecewisePoly.poly ⟨[0, 2], [c], exPP.basis⟩ 0 := by
  have := C128_poly_partial (K := ℚ) [0, 2] false [c] exPP.basis 0 (.inl rfl) (by
    intro a b ha hb
    cases ha
    cases hb
    constructor
    · norm_num
    · rw [show exPP.basis.order = 1 by decide +kernel]
      norm_num)
  simpa using this

end CE
