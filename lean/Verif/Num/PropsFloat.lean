import Verif.Num.LemFloat
import Verif.Num.LemRound
import Verif.Num.PropsPoly

/-!
# Properties C111 and C112: interpolation and differentiation matrices with rounding errors
-/

open Polynomial

namespace CE

namespace Flt

variable (f : Flt)

/-- The value of the `k`-th Lagrange polynomial of the nodes at `x`. -/
noncomputable abbrev lag (tau : List ℝ) (k : ℕ) (x : ℝ) : ℝ := (Lagrange.basis (Finset.range tau.length) (nd tau) k).eval x

theorem length_filter_ne {n k : ℕ} (hk : k < n) : ((List.range n).filter (fun i => decide (i ≠ k))).length = n - 1 := by
  have h1 : ((Finset.range n).erase k).card = n - 1 := by rw [Finset.card_erase_of_mem (by simpa), Finset.card_range]
  rw [← h1]
  have : (Finset.range n).erase k = (Finset.range n).filter (fun i => i ≠ k) := by
    ext; simp [and_comm]
  rw [this]
  rfl

theorem prod_rel (l : List ℕ) (a b : ℕ → ℝ) (h : ∀ i ∈ l, f.toRounding.Rel 1 (a i) (b i)) :
    f.toRounding.Rel l.length (l.map a).prod (l.map b).prod := by
  induction l with
  | nil => exact Rounding.Rel.refl _
  | cons i l ih =>
    rw [List.map_cons, List.map_cons, List.prod_cons, List.prod_cons, List.length_cons, Nat.add_comm]
    exact (h i (by simp)).mul (ih fun j hj => h j (by simp [hj]))

theorem lamAt_rel (tau : List ℝ) {k : ℕ} (hk : k < tau.length) :
    f.toRounding.Rel (2 * tau.length - 1) (f.lamAt tau k) (CE.lamAt tau k) := by
  unfold lamAt CE.lamAt
  set l := (List.range tau.length).filter (fun i => decide (i ≠ k)) with hl
  have hlen : l.length = tau.length - 1 := length_filter_ne hk
  have h1 := f.toRounding.prodOf_rel (f.prod_spec (l.map fun i => f.rnd (nd tau k - nd tau i)))
  have h2 := f.prod_rel l (fun i => f.rnd (nd tau k - nd tau i)) (fun i => nd tau k - nd tau i) (fun i _ => Rounding.Rel.rnd _)
  rw [List.length_map] at h1
  have h3 := (Rounding.Rel.refl (R := f.toRounding) 1).div (h1.trans h2)
  exact ((Rounding.Rel.rnd _).trans h3).mono (by omega)

theorem polynomialBasis_ok {tau : List ℝ} (hne : tau ≠ []) : f.polynomialBasis tau =
    .ok ⟨tau, ⟨tau.length, tau.length, f.diffEntry tau ((List.range tau.length).map (f.lamAt tau))⟩,
      (List.range tau.length).map (f.lamAt tau)⟩ := by
  unfold polynomialBasis
  rw [if_neg hne]

/-- The weights of the barycentric formula and their sum. -/
theorem weights {tau : List ℝ} (hd : tau.Nodup) (hne : tau ≠ []) {x : ℝ} (hx : x ∉ tau) :
    ∃ S : ℝ, S ≠ 0 ∧ ∑ k ∈ Finset.range tau.length, CE.lamAt tau k / (x - nd tau k) = S ∧
      ∀ k < tau.length, CE.lamAt tau k / (x - nd tau k) = lag tau k x * S := by
  have hv := nd_injOn hd
  have hxn : ∀ i ∈ Finset.range tau.length, x ≠ nd tau i := by
    intro i hi e
    rw [Finset.mem_range] at hi
    rw [nd_eq_getElem hi] at e
    exact hx (e ▸ List.getElem_mem hi)
  set N := (Lagrange.nodal (Finset.range tau.length) (nd tau)).eval x with hN
  have hN0 : N ≠ 0 := by
    rw [hN, Lagrange.eval_nodal]
    exact Finset.prod_ne_zero_iff.mpr fun i hi => sub_ne_zero.mpr (hxn i hi)
  have h2 : ∀ k < tau.length, lag tau k x = N * (CE.lamAt tau k / (x - nd tau k)) := by
    intro i hi
    rw [lag, Lagrange.eval_basis_not_at_node (by simpa) (hxn i (by simpa)), lamAt_eq, div_eq_mul_inv]
  have h1 : ∑ k ∈ Finset.range tau.length, lag tau k x = 1 := by
    have h1 := congrArg (Polynomial.eval x) (Lagrange.sum_basis hv (Finset.nonempty_range_iff.mpr (by simpa using hne)))
    rwa [eval_finset_sum, eval_one] at h1
  refine ⟨N⁻¹, inv_ne_zero hN0, ?_, fun k hk => ?_⟩
  · rw [Finset.sum_congr rfl fun k hk => h2 k (Finset.mem_range.mp hk), ← Finset.mul_sum] at h1
    exact (inv_eq_of_mul_eq_one_right h1).symm
  · rw [h2 k hk, mul_comm N, mul_assoc, mul_inv_cancel₀ hN0, mul_one]

/-- One row of the interpolation matrix. -/
theorem interpRow_ok {tau : List ℝ} (hd : tau.Nodup) (hne : tau ≠ []) (b : Basis) (hb : f.polynomialBasis tau = .ok b) (x : ℝ) :
    ∃ r, f.interpRow b x = .ok r ∧ r.length = tau.length ∧
      (x ∈ tau → ∀ j < tau.length, nd r j = lag tau j x) ∧
      let E := f.γ (3 * tau.length + 1) * ∑ k ∈ Finset.range tau.length, |lag tau k x|
      E < 1 → ∀ j < tau.length, |nd r j - lag tau j x| ≤ 2 * E / (1 - E) * |lag tau j x| := by
  classical
  rw [f.polynomialBasis_ok hne] at hb
  cases hb
  have hv := nd_injOn hd
  unfold interpRow
  simp only
  by_cases hx : x ∈ tau
  · have hany : (tau.map (fun y => decide (x = y))).any id = true := by
      simp only [List.any_map, Function.comp_def, id, List.any_eq_true, decide_eq_true_eq]
      exact ⟨x, hx, rfl⟩
    have hcount : (tau.map (fun y => decide (x = y))).count true = 1 := by
      rw [List.count_eq_countP, List.countP_map]
      have : tau.countP ((fun x => x == true) ∘ fun y => decide (x = y)) = tau.count x := by
        rw [List.count_eq_countP]
        apply List.countP_congr
        intro a _
        simp only [Function.comp_apply, beq_true, decide_eq_true_eq, beq_iff_eq]
        exact eq_comm
      rw [this, List.count_eq_one_of_mem hd hx]
    rw [if_pos hany, if_pos hcount]
    have key : ∀ j < tau.length, nd (List.map (fun c => if c = true then (1 : ℝ) else 0) (tau.map (fun y => decide (x = y)))) j = lag tau j x := by
      intro j hj
      obtain ⟨k, hk, rfl⟩ := List.getElem_of_mem hx
      have hke : tau[k] = nd tau k := (nd_eq_getElem hk).symm
      have hl : nd (List.map (fun c => if c = true then (1 : ℝ) else 0)
          (List.map (fun y => decide (tau[k] = y)) tau)) j = if tau[k] = tau[j] then 1 else 0 := by
        simp [nd, List.getD_eq_getElem?_getD, hj]
      rw [hl]
      by_cases hkj : k = j
      · subst hkj
        rw [if_pos rfl, hke, lag, Lagrange.eval_basis_self hv (by simpa)]
      · rw [if_neg (fun e => hkj ((List.Nodup.getElem_inj_iff hd).mp e)), hke, lag, Lagrange.eval_basis_of_ne (Ne.symm hkj) (by simpa)]
    refine ⟨_, rfl, by simp, fun _ => key, fun hE j hj => ?_⟩
    rw [key j hj, sub_self, abs_zero]
    have hγ := f.γ_nonneg (3 * tau.length + 1)
    have hs : 0 ≤ ∑ k ∈ Finset.range tau.length, |lag tau k x| := Finset.sum_nonneg fun _ _ => abs_nonneg _
    have := mul_nonneg hγ hs
    exact mul_nonneg (div_nonneg (by linarith) (by linarith)) (abs_nonneg _)
  · have hany : ¬ (tau.map (fun y => decide (x = y))).any id = true := by
      simp only [List.any_map, Function.comp_def, id, List.any_eq_true, decide_eq_true_eq]
      rintro ⟨a, ha, rfl⟩; exact hx ha
    rw [if_neg hany]
    set W : ℕ → ℝ := fun i => f.rnd (f.lamAt tau i / f.rnd (x - nd tau i)) with hW
    have hw : List.zipWith (fun l y => f.rnd (l / f.rnd (x - y))) ((List.range tau.length).map (f.lamAt tau)) tau
        = (List.range tau.length).map W := by
      apply List.ext_getElem
      · simp
      · intro i h1 h2
        simp at h1 h2 ⊢
        simp [hW, List.getElem?_eq_getElem h2]
    rw [hw]
    set n := tau.length with hn
    set T := f.sum ((List.range n).map W) with hT
    refine ⟨_, rfl, by simp, fun h => absurd h hx, fun hE j hj => ?_⟩
    obtain ⟨S, hS0, hS, hwS⟩ := weights hd hne hx
    have hpos : 0 < n := List.length_pos_iff.mpr hne
    have hg : nd (List.map (fun y => f.rnd (y / T)) ((List.range n).map W)) j = f.rnd (W j / T) := by
      rw [List.map_map]
      exact nd_map_range _ hj
    rw [hg]
    set R := f.toRounding with hR
    set Λ := ∑ k ∈ Finset.range n, |lag tau k x| with hΛ
    -- the weights
    have relW : ∀ k < n, R.Rel (2 * n + 1) (W k) (lag tau k x * S) := by
      intro k hk
      rw [← hwS k hk]
      exact ((Rounding.Rel.rnd _).trans ((f.lamAt_rel tau hk).div (Rounding.Rel.rnd _))).mono (by omega)
    have hΛ1 : 1 ≤ Λ := by
      have h1 : ∑ k ∈ Finset.range n, lag tau k x * S = S := by
        rw [← hS]
        exact Finset.sum_congr rfl fun k hk => (by rw [hS, hwS k (Finset.mem_range.mp hk)])
      rw [← Finset.sum_mul] at h1
      have h2 : ∑ k ∈ Finset.range n, lag tau k x = 1 := mul_right_cancel₀ hS0 (by rw [h1, one_mul])
      rw [← h2]
      exact Finset.sum_le_sum fun _ _ => le_abs_self _
    -- their sum
    have eT : |T - S| ≤ R.γ (3 * n) * (Λ * |S|) := by
      have h1 := R.sumOf_err (f.sum_spec ((List.range n).map W))
      rw [List.length_map, List.length_range, List.map_map, list_range_sum, list_range_sum] at h1
      have h2 : ∑ k ∈ Finset.range n, |W k| ≤ (1 + R.γ (2 * n + 1)) * (Λ * |S|) := by
        rw [hΛ, Finset.sum_mul, Finset.mul_sum]
        refine Finset.sum_le_sum fun k hk => ?_
        rw [← abs_mul]
        exact (relW k (Finset.mem_range.mp hk)).abs_le
      have h3 : |∑ k ∈ Finset.range n, W k - S| ≤ R.γ (2 * n + 1) * (Λ * |S|) := by
        rw [← hS, ← Finset.sum_sub_distrib, hS, hΛ, Finset.sum_mul, Finset.mul_sum]
        refine (Finset.abs_sum_le_sum_abs _ _).trans (Finset.sum_le_sum fun k hk => ?_)
        rw [hwS k (Finset.mem_range.mp hk), ← abs_mul]
        exact (relW k (Finset.mem_range.mp hk)).abs_sub
      have h4 : R.γ (3 * n) = R.γ (n - 1) * (1 + R.γ (2 * n + 1)) + R.γ (2 * n + 1) := by
        have := R.one_add_γ_add (n - 1) (2 * n + 1)
        rw [show n - 1 + (2 * n + 1) = 3 * n by omega] at this
        linarith
      have h5 := mul_le_mul_of_nonneg_left h2 (R.γ_nonneg (n - 1))
      have h6 : |T - S| ≤ |T - ∑ k ∈ Finset.range n, W k| + |∑ k ∈ Finset.range n, W k - S| := abs_sub_le _ _ _
      have h7 : |T - ∑ k ∈ Finset.range n, W k| ≤ R.γ (n - 1) * ∑ k ∈ Finset.range n, |W k| := h1
      rw [h4]
      linarith
    set E := R.γ (3 * n + 1) * Λ with hEd
    have hE1 : E < 1 := hE
    have hSpos : 0 < |S| := abs_pos.mpr hS0
    have eT' : |T / S - 1| ≤ E := by
      rw [show T / S - 1 = (T - S) / S by field_simp, abs_div, div_le_iff₀ hSpos]
      refine eT.trans ?_
      rw [hEd, mul_assoc]
      exact mul_le_mul_of_nonneg_right (R.γ_mono (by omega)) (by positivity)
    have hTS : 1 - E ≤ T / S := by
      have := (abs_le.mp eT').1
      linarith
    have hTS0 : 0 < T / S := by linarith
    have hT0 : T ≠ 0 := by
      rintro h
      rw [h, zero_div] at hTS0
      exact lt_irrefl _ hTS0
    -- the quotient
    obtain ⟨g, g1, g2, hgq⟩ : R.Rel (2 * n + 2) (f.rnd (W j / T)) (lag tau j x * S / T) :=
      ((Rounding.Rel.rnd _).trans ((relW j hj).div (Rounding.Rel.refl T))).mono (by omega)
    have hgE : |g - 1| ≤ E := by
      have h1 : R.Rel (2 * n + 2) g 1 := ⟨g, g1, g2, by ring⟩
      have h2 := h1.abs_sub
      rw [abs_one, mul_one] at h2
      have h3 : R.γ (2 * n + 2) ≤ R.γ (3 * n + 1) := R.γ_mono (by omega)
      have h4 := mul_le_mul_of_nonneg_left hΛ1 (R.γ_nonneg (3 * n + 1))
      rw [mul_one] at h4
      linarith
    rw [hgq, show lag tau j x * S / T * g - lag tau j x = ((g - 1) - (T / S - 1)) / (T / S) * lag tau j x by field_simp; ring, abs_mul]
    refine mul_le_mul_of_nonneg_right ?_ (abs_nonneg _)
    rw [abs_div, abs_of_pos hTS0]
    have h8 : |(g - 1) - (T / S - 1)| ≤ 2 * E := (abs_sub _ _).trans (by linarith)
    exact div_le_div₀ (by linarith [(abs_nonneg (g - 1)).trans hgE]) h8 (by linarith) hTS

/-- **C111** `interpolationMatrix` with rounding errors, whatever the order in which numpy adds and multiplies: the entries at a node are exact;
elsewhere every entry is accurate relative to itself, up to a multiple of the rounding errors of `3*n + 1` operations times the Lebesgue
function of the nodes, the sum of the absolute values of the Lagrange polynomials. -/
theorem C111_interpolation (tau : List ℝ) (hne : tau ≠ []) (hd : tau.Nodup) (t : List ℝ) (ht : t ≠ []) :
    ∃ b L, f.polynomialBasis tau = .ok b ∧ f.interpolationMatrix b t = .ok L ∧ L.rows = t.length ∧ L.cols = tau.length ∧
      ∀ i < t.length,
        (nd t i ∈ tau → ∀ j < tau.length, L.e i j = if nd t i = nd tau j then 1 else 0) ∧
        let E := (1 / (1 - f.u) ^ (3 * tau.length + 1) - 1) *
          ∑ k ∈ Finset.range tau.length, |(Lagrange.basis (Finset.range tau.length) (nd tau) k).eval (nd t i)|
        E < 1 → ∀ j < tau.length,
          |L.e i j - (Lagrange.basis (Finset.range tau.length) (nd tau) j).eval (nd t i)| ≤
            2 * E / (1 - E) * |(Lagrange.basis (Finset.range tau.length) (nd tau) j).eval (nd t i)| := by
  choose g hg hlen hnode hval using f.interpRow_ok hd hne _ (f.polynomialBasis_ok hne)
  refine ⟨_, Mat.ofRows tau.length (t.map g), f.polynomialBasis_ok hne, ?_, by simp [Mat.ofRows], rfl, fun i hi => ?_⟩
  · unfold interpolationMatrix
    rw [mapM_ok _ _ g (fun a _ => hg a)]
    simp [bind, Except.bind, ht, pure, Except.pure]
  · have he : ∀ j, (Mat.ofRows tau.length (t.map g)).e i j = nd (g (nd t i)) j := by
      intro j
      simp [Mat.ofRows, nd, List.getD_eq_getElem?_getD, hi]
    refine ⟨fun hm j hj => ?_, fun hE j hj => ?_⟩
    · rw [he, hnode _ hm j hj]
      obtain ⟨k, hk, hke⟩ := List.getElem_of_mem hm
      rw [← nd_eq_getElem hk] at hke
      rw [← hke]
      by_cases hkj : k = j
      · subst hkj
        rw [if_pos rfl, lag, Lagrange.eval_basis_self (nd_injOn hd) (by simpa)]
      · rw [if_neg fun e => hkj (nd_injOn hd (by simpa) (by simpa) e), lag, Lagrange.eval_basis_of_ne (Ne.symm hkj) (by simpa)]
    · rw [he]
      exact hval (nd t i) hE j hj

/-- Doubles, linear interpolation: at every point of the unit interval the relative error of both entries is below `17 * 2^-53`. -/
example (x : ℝ) (h0 : 0 ≤ x) (h1 : x ≤ 1) : ∃ b L, double.polynomialBasis [0, 1] = .ok b ∧ double.interpolationMatrix b [x] = .ok L ∧
    |L.e 0 0 - (1 - x)| ≤ 17 / 2 ^ 53 * (1 - x) ∧ |L.e 0 1 - x| ≤ 17 / 2 ^ 53 * x := by
  obtain ⟨b, L, hb, hL, -, -, h⟩ := double.C111_interpolation [0, 1] (by simp) (by simp) [x] (by simp)
  have e0 : (Lagrange.basis (Finset.range 2) (nd [(0 : ℝ), 1]) 0).eval x = 1 - x := by
    simp [Lagrange.basis, Lagrange.basisDivisor, Finset.prod_range_succ, show (Finset.range 2).erase 0 = {1} by decide, nd]
  have e1 : (Lagrange.basis (Finset.range 2) (nd [(0 : ℝ), 1]) 1).eval x = x := by
    simp [Lagrange.basis, Lagrange.basisDivisor, Finset.prod_range_succ, show (Finset.range 2).erase 1 = {0} by decide, nd]
  have hu : double.u = 1 / 2 ^ 53 := rfl
  have h2 := (h 0 (by simp)).2
  simp only [List.length_cons, List.length_nil, Nat.reduceAdd, Nat.reduceMul, Finset.sum_range_succ, Finset.sum_range_zero, zero_add,
    show nd [x] 0 = x from rfl, e0, e1, hu] at h2
  rw [abs_of_nonneg h0, abs_of_nonneg (by linarith : 0 ≤ 1 - x), show 1 - x + x = 1 by ring, mul_one] at h2
  have h3 := h2 (by norm_num)
  have e : ∀ y : ℝ, 0 ≤ y → 2 * (1 / (1 - 1 / 2 ^ 53) ^ 7 - 1) / (1 - (1 / (1 - 1 / 2 ^ 53) ^ 7 - 1)) * y ≤ 17 / 2 ^ 53 * y := by
    intro y hy
    refine mul_le_mul_of_nonneg_right ?_ hy
    norm_num
  refine ⟨b, L, hb, hL, ?_, ?_⟩
  · have := h3 0 (by norm_num)
    rw [e0, abs_of_nonneg (by linarith : 0 ≤ 1 - x)] at this
    exact this.trans (e _ (by linarith))
  · have := h3 1 (by norm_num)
    rw [e1, abs_of_nonneg h0] at this
    exact this.trans (e _ h0)

/-- Relative error of the quotients in the differentiation matrix. -/
theorem diffQuot_rel {tau : List ℝ} {j k : ℕ} (hj : j < tau.length) (hk : k < tau.length) (hjk : j ≠ k) :
    f.toRounding.Rel (4 * tau.length + 1) (f.diffQuot tau ((List.range tau.length).map (f.lamAt tau)) j k)
      (CE.diffEntry tau ((List.range tau.length).map (CE.lamAt tau)) j k) := by
  rw [diffEntry_off hj hk hjk]
  unfold diffQuot
  rw [nd_map_range _ hj, nd_map_range _ hk]
  exact ((Rounding.Rel.rnd _).trans (((Rounding.Rel.rnd _).trans ((f.lamAt_rel tau hk).div (f.lamAt_rel tau hj))).div
    (Rounding.Rel.rnd _))).mono (by omega)

/-- **C112** The differentiation matrix with rounding errors: the entries off the diagonal are accurate relative to themselves; the diagonal
ones relative to the sum of the absolute values of the others; and the sum of each row, the derivative of a constant, is at most the error of
the summation of `n - 1` numbers, however inaccurate the weights are. -/
theorem C112_differentiation (tau : List ℝ) (hne : tau ≠ []) (hd : tau.Nodup) :
    ∃ b, f.polynomialBasis tau = .ok b ∧ b.D.rows = tau.length ∧ b.D.cols = tau.length ∧ ∀ j < tau.length,
      let D := fun k => (derivative (Lagrange.basis (Finset.range tau.length) (nd tau) k)).eval (nd tau j)
      (∀ k < tau.length, k ≠ j → |b.D.e j k - D k| ≤ (1 / (1 - f.u) ^ (4 * tau.length + 1) - 1) * |D k|) ∧
      |b.D.e j j - D j| ≤ (1 / (1 - f.u) ^ (5 * tau.length) - 1) * ∑ k ∈ (Finset.range tau.length).erase j, |D k| ∧
      |∑ k ∈ Finset.range tau.length, b.D.e j k| ≤
        (1 / (1 - f.u) ^ (tau.length - 2) - 1) * ∑ k ∈ (Finset.range tau.length).erase j, |b.D.e j k| := by
  refine ⟨_, f.polynomialBasis_ok hne, rfl, rfl, fun j hj => ?_⟩
  set n := tau.length with hn
  set lam := (List.range n).map (f.lamAt tau) with hlam
  set R := f.toRounding with hR
  intro D
  have hD : ∀ k < n, CE.diffEntry tau ((List.range n).map (CE.lamAt tau)) j k = D k := fun k hk => diffEntry_eq hd hj hk
  have off : ∀ k, k ≠ j → f.diffEntry tau lam j k = f.diffQuot tau lam j k := fun k hk => by
    unfold diffEntry
    rw [if_pos hk.symm]
  have rel : ∀ k < n, k ≠ j → R.Rel (4 * n + 1) (f.diffQuot tau lam j k) (D k) := fun k hk hkj => by
    rw [← hD k hk]
    exact f.diffQuot_rel hj hk hkj.symm
  have mem : ∀ k ∈ (Finset.range n).erase j, k < n ∧ k ≠ j := fun k hk => by
    rw [Finset.mem_erase, Finset.mem_range] at hk
    exact ⟨hk.2, hk.1⟩
  have hdiag : f.diffEntry tau lam j j =
      -f.sum (((List.range n).filter (fun i => decide (i ≠ j))).map fun i => f.diffQuot tau lam j i) := by
    unfold diffEntry
    rw [if_neg (fun h => h rfl)]
  set s := f.sum (((List.range n).filter (fun i => decide (i ≠ j))).map fun i => f.diffQuot tau lam j i) with hs
  have es : |s - ∑ k ∈ (Finset.range n).erase j, f.diffQuot tau lam j k| ≤
      R.γ (n - 2) * ∑ k ∈ (Finset.range n).erase j, |f.diffQuot tau lam j k| := by
    have h1 := R.sumOf_err (f.sum_spec (((List.range n).filter (fun i => decide (i ≠ j))).map fun i => f.diffQuot tau lam j i))
    rw [List.length_map, length_filter_ne hj, List.map_map, list_range_filter_sum, list_range_filter_sum] at h1
    exact h1
  refine ⟨fun k hk hkj => ?_, ?_, ?_⟩
  · show |f.diffEntry tau lam j k - D k| ≤ _
    rw [off k hkj]
    exact (rel k hk hkj).abs_sub
  · show |f.diffEntry tau lam j j - D j| ≤ R.γ (5 * n) * _
    have hDj : D j = -∑ k ∈ (Finset.range n).erase j, D k := by
      have h1 : ∑ k ∈ Finset.range n, D k = 0 := sum_eval_derivative_basis (nd_injOn hd) ⟨j, by simpa⟩ _
      rw [← Finset.sum_erase_add _ _ (Finset.mem_range.mpr hj)] at h1
      linarith
    have h2 : ∑ k ∈ (Finset.range n).erase j, |f.diffQuot tau lam j k| ≤
        (1 + R.γ (4 * n + 1)) * ∑ k ∈ (Finset.range n).erase j, |D k| := by
      rw [Finset.mul_sum]
      exact Finset.sum_le_sum fun k hk => (rel k (mem k hk).1 (mem k hk).2).abs_le
    have h3 : |∑ k ∈ (Finset.range n).erase j, f.diffQuot tau lam j k - ∑ k ∈ (Finset.range n).erase j, D k| ≤
        R.γ (4 * n + 1) * ∑ k ∈ (Finset.range n).erase j, |D k| := by
      rw [← Finset.sum_sub_distrib, Finset.mul_sum]
      exact (Finset.abs_sum_le_sum_abs _ _).trans (Finset.sum_le_sum fun k hk => (rel k (mem k hk).1 (mem k hk).2).abs_sub)
    rcases Nat.lt_or_ge n 2 with h1 | h1
    · have h0 : (Finset.range n).erase j = ∅ := by
        ext k
        simp only [Finset.mem_erase, Finset.mem_range, Finset.notMem_empty, iff_false]
        omega
      rw [h0] at es ⊢
      simp only [Finset.sum_empty, mul_zero, sub_zero, abs_nonpos_iff] at es ⊢
      rw [hdiag, es, hDj, h0]
      simp
    rw [hdiag, hDj, show -s - -∑ k ∈ (Finset.range n).erase j, D k = -((s - ∑ k ∈ (Finset.range n).erase j, f.diffQuot tau lam j k) +
      (∑ k ∈ (Finset.range n).erase j, f.diffQuot tau lam j k - ∑ k ∈ (Finset.range n).erase j, D k)) by ring, abs_neg]
    have h4 : R.γ (n - 2) * (1 + R.γ (4 * n + 1)) + R.γ (4 * n + 1) ≤ R.γ (5 * n) := by
      have h5 := R.one_add_γ_add (n - 2) (4 * n + 1)
      have h6 := R.γ_mono (show n - 2 + (4 * n + 1) ≤ 5 * n by omega)
      linarith
    have h5 := mul_le_mul_of_nonneg_left h2 (R.γ_nonneg (n - 2))
    have h6 := mul_le_mul_of_nonneg_right h4 (Finset.sum_nonneg fun k (_ : k ∈ (Finset.range n).erase j) => abs_nonneg (D k))
    refine (abs_add_le _ _).trans ?_
    linarith
  · show |∑ k ∈ Finset.range n, f.diffEntry tau lam j k| ≤ R.γ (n - 2) * ∑ k ∈ (Finset.range n).erase j, |f.diffEntry tau lam j k|
    have h1 : ∑ k ∈ (Finset.range n).erase j, f.diffEntry tau lam j k = ∑ k ∈ (Finset.range n).erase j, f.diffQuot tau lam j k :=
      Finset.sum_congr rfl fun k hk => off k (mem k hk).2
    have h2 : ∑ k ∈ (Finset.range n).erase j, |f.diffEntry tau lam j k| = ∑ k ∈ (Finset.range n).erase j, |f.diffQuot tau lam j k| :=
      Finset.sum_congr rfl fun k hk => by rw [off k (mem k hk).2]
    rw [← Finset.sum_erase_add _ _ (Finset.mem_range.mpr hj), hdiag, h1, h2, ← sub_eq_add_neg, abs_sub_comm]
    exact es

/-- Doubles with the nodes 0 and 1: the derivative of `y` is `y₁ - y₀` up to `10 * 2^-53`, and the rows add up to zero exactly. -/
example : ∃ b, double.polynomialBasis [0, 1] = .ok b ∧ |b.D.e 0 1 - 1| ≤ 10 / 2 ^ 53 ∧ b.D.e 0 0 + b.D.e 0 1 = 0 := by
  obtain ⟨b, hb, -, -, h⟩ := double.C112_differentiation [0, 1] (by simp) (by simp)
  have e1 : (derivative (Lagrange.basis (Finset.range 2) (nd [(0 : ℝ), 1]) 1)).eval 0 = 1 := by
    simp [Lagrange.basis, Lagrange.basisDivisor, show (Finset.range 2).erase 1 = {0} by decide, nd]
  have hu : double.u = 1 / 2 ^ 53 := rfl
  obtain ⟨h1, -, h2⟩ := h 0 (by simp)
  refine ⟨b, hb, ?_, ?_⟩
  · have := h1 1 (by simp) (by simp)
    simp only [List.length_cons, List.length_nil, Nat.reduceAdd, Nat.reduceMul, show nd [(0 : ℝ), 1] 0 = 0 from rfl, e1, hu, abs_one, mul_one] at this
    exact this.trans (by norm_num)
  · simpa [Finset.sum_range_succ] using h2

/-! ## Exact arithmetic is the rounding with `u = 0` -/

variable {f}

theorem rnd_exact (h : f.u = 0) (x : ℝ) : f.rnd x = x := by
  have := f.err x
  rw [h, zero_mul] at this
  exact sub_eq_zero.mp (abs_eq_zero.mp (le_antisymm this (abs_nonneg _)))

theorem γ_exact (h : f.u = 0) (m : ℕ) : f.γ m = 0 := by
  unfold Rounding.γ
  rw [h]
  simp

theorem sum_exact (h : f.u = 0) (l : List ℝ) : f.sum l = l.sum := by
  have := f.toRounding.sumOf_err (f.sum_spec l)
  rw [γ_exact h, zero_mul] at this
  exact sub_eq_zero.mp (abs_eq_zero.mp (le_antisymm this (abs_nonneg _)))

theorem prod_exact (h : f.u = 0) (l : List ℝ) : f.prod l = l.prod := by
  have := (f.toRounding.prodOf_rel (f.prod_spec l)).abs_sub
  rw [γ_exact h, zero_mul] at this
  exact sub_eq_zero.mp (abs_eq_zero.mp (le_antisymm this (abs_nonneg _)))

/-- **C111** With `u = 0` the functions of `Float.lean` are those of the exact model. -/
theorem C111_exact (h : f.u = 0) (tau : List ℝ) (hne : tau ≠ []) (t : List ℝ) :
    ∃ b b', f.polynomialBasis tau = .ok b ∧ CE.polynomialBasis tau = .ok b' ∧ b.tau = b'.tau ∧ b.D = b'.D ∧ b.lam = b'.lam ∧
      f.interpolationMatrix b t = b'.interpolationMatrix t := by
  have hl : f.lamAt tau = CE.lamAt tau := by
    funext k
    unfold lamAt CE.lamAt
    rw [rnd_exact h, prod_exact h]
    simp only [rnd_exact h]
  have hD : f.diffEntry tau ((List.range tau.length).map (CE.lamAt tau)) = CE.diffEntry tau ((List.range tau.length).map (CE.lamAt tau)) := by
    funext j k
    unfold diffEntry CE.diffEntry diffQuot
    rw [sum_exact h]
    simp only [rnd_exact h]
  refine ⟨_, _, f.polynomialBasis_ok hne, CE.polynomialBasis_ok hne, rfl, by rw [hl, hD], by rw [hl], ?_⟩
  unfold interpolationMatrix CE.Basis.interpolationMatrix
  have : ∀ x, f.interpRow ⟨tau, ⟨tau.length, tau.length, f.diffEntry tau ((List.range tau.length).map (f.lamAt tau))⟩,
      (List.range tau.length).map (f.lamAt tau)⟩ x = CE.Basis.interpRow
        { tau := tau, poly := (List.range tau.length).map (lagrangePoly tau),
          D := ⟨tau.length, tau.length, CE.diffEntry tau ((List.range tau.length).map (CE.lamAt tau))⟩,
          lam := (List.range tau.length).map (CE.lamAt tau) } x := by
    intro x
    unfold interpRow CE.Basis.interpRow
    rw [hl]
    simp only [rnd_exact h, sum_exact h]
  simp only [funext this]

/-- Three nodes at the point 1/2. -/
example : ∃ b b', exactRounding.seq.polynomialBasis [0, 1, 3] = .ok b ∧ CE.polynomialBasis [(0 : ℝ), 1, 3] = .ok b' ∧
    exactRounding.seq.interpolationMatrix b [1 / 2] = b'.interpolationMatrix [1 / 2] := by
  obtain ⟨b, b', h1, h2, -, -, -, h3⟩ := C111_exact (f := exactRounding.seq) rfl [0, 1, 3] (by simp) [1 / 2]
  exact ⟨b, b', h1, h2, h3⟩

end Flt

end CE
