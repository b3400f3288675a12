import Verif.Num.LemFloatIntegral

/-!
# C126: `Pdq.integral` in floating point
-/

open Polynomial

namespace CE

namespace Flt

variable {f : Flt}

/-- One interval: the polynomial through the computed increments, and its derivative. -/
theorem increments_ok {x : List ℝ} {order b : ℕ} (hx : x.length = order + 1) (hd : x.Nodup) {B : Basis} (hB : f.polynomialBasis x = .ok B)
    (w dy : ℕ → ℝ) (hw : ∀ j < order, |∑ k ∈ Finset.range order, B.D.e j (k + 1) * w k - dy j| ≤
      f.γ b * ∑ k ∈ Finset.range order, |B.D.e j (k + 1) * w k|) :
    ∃ P : ℝ[X], P.degree < ((order + 1 : ℕ) : WithBot ℕ) ∧ P.eval (nd x 0) = 0 ∧ (∀ k < order, P.eval (nd x (k + 1)) = w k) ∧ ∀ j < order,
      |(derivative P).eval (nd x j) - dy j| ≤ f.γ (5 * order + 5 + b) * ∑ k ∈ (Finset.range (order + 1)).erase j,
        |(derivative (Lagrange.basis (Finset.range (order + 1)) (nd x) k)).eval (nd x j)| * (|P.eval (nd x k)| + |P.eval (nd x j)|) := by
  have hne : x ≠ [] := by intro h; rw [h] at hx; simp at hx
  set c : ℕ → ℝ := fun k => if k = 0 then 0 else w (k - 1) with hc
  have hinj := nd_injOn hd
  set P := Lagrange.interpolate (Finset.range x.length) (nd x) c with hPdef
  have hPd : P.degree < (x.length : WithBot ℕ) := by
    have := Lagrange.degree_interpolate_lt c hinj
    rwa [Finset.card_range] at this
  have hPv : ∀ k ≤ order, P.eval (nd x k) = c k := fun k hk => Lagrange.eval_interpolate_at_node c hinj (by rw [hx]; simp; omega)
  refine ⟨P, by rw [← hx]; exact hPd, by rw [hPv 0 (by omega)]; simp [hc], fun k hk => by rw [hPv (k + 1) (by omega)]; simp [hc], fun j hj => ?_⟩
  obtain ⟨B', hB', -, -, hD⟩ := f.C112_differentiation x hne hd
  rw [hB] at hB'
  cases hB'
  rw [hx] at hD
  obtain ⟨d1, d2, -⟩ := hD j (by omega)
  have h0 := sum_derivative_basis hne hd (nd x j)
  have hPe := sum_mul_derivative_basis_eval hd hPd (nd x j)
  rw [hx] at h0 hPe
  have e1 : ∑ k ∈ Finset.range (order + 1), c k * B.D.e j k = ∑ k ∈ Finset.range order, B.D.e j (k + 1) * w k := by
    rw [Finset.sum_range_succ']
    simp [hc, mul_comm]
  have e2 : ∑ k ∈ Finset.range (order + 1), |c k * B.D.e j k| = ∑ k ∈ Finset.range order, |B.D.e j (k + 1) * w k| := by
    rw [Finset.sum_range_succ']
    simp [hc, mul_comm]
  have key := (Rounding.diffDot_err (R := f.toRounding) (a := 5 * order + 5) (b := b) (n := order + 1) (j := j) (by omega)
    (D := fun k => (derivative (Lagrange.basis (Finset.range (order + 1)) (nd x) k)).eval (nd x j))
    (D' := fun k => B.D.e j k) (c := c) (y := dy j) h0
    (fun k hk hkj => (d1 k hk hkj).trans (mul_le_mul_of_nonneg_right (f.γ_mono (by omega)) (abs_nonneg _))) d2
    (by rw [e1, e2, abs_sub_comm]; exact hw j hj)).2
  have hex : ∑ k ∈ Finset.range (order + 1), c k * (derivative (Lagrange.basis (Finset.range (order + 1)) (nd x) k)).eval (nd x j) =
      (derivative P).eval (nd x j) := by
    rw [← hPe]
    refine Finset.sum_congr rfl fun k hk => ?_
    rw [hPv k (by have := Finset.mem_range.mp hk; omega), mul_comm]
  beta_reduce at key
  rw [hex, abs_sub_comm] at key
  refine key.trans (le_of_eq ?_)
  congr 1
  refine Finset.sum_congr rfl fun k hk => ?_
  rw [hPv k (by have := Finset.mem_range.mp (Finset.mem_of_mem_erase hk); omega), hPv j (by omega)]

/-- **C126** `Pdq.integral(dy)` with rounding errors, for a solver whose residuals are at most `b` relative rounding errors: on each interval the
result is the previous value plus the values of a polynomial `P` that vanishes at the beginning of the interval, whose derivative has the given
values up to rounding errors; and it differs from the sum of the exact integrals of the polynomials `L` that interpolate `dy` on the intervals at
most by these errors times the integrals of the Lagrange polynomials, and one rounding error per interval.  The end of an inner interval is the one
computed for this interval. -/
theorem C126_integral (cp t : List ℝ) (order : ℕ) (g : GoodScheme cp order) (hfl : ∀ x ∈ t, f.IsFl x) (p : Grid)
    (hp : f.pdqNew (.ok cp) t order = .ok p) (solve : Mat ℝ → Mat ℝ → Except PyErr (Mat ℝ)) (b : ℕ) (hs : f.Solves b solve) (dy y : Mat ℝ)
    (hy : Grid.integral f solve p dy = .ok y) :
    (t.length - 1) * order ≤ dy.cols ∧ y.rows = dy.rows ∧ y.cols = (t.length - 1) * order ∧ ∃ x : ℕ → List ℝ,
      (∀ n < t.length - 1, (x n).length = order + 1 ∧ Ascending (x n) ∧ (∀ j < order, nd (x n) j = nd p.collocationPoints (n * order + j)) ∧
        (n + 2 = t.length → nd (x n) order = nd p.collocationPoints ((t.length - 1) * order)) ∧
        ∀ j ≤ order, |nd (x n) j - (nd t n + nd cp j * (nd t (n + 1) - nd t n))| ≤
          (1 / (1 - f.u) ^ 3 - 1) * (|nd t n| + (nd t (n + 1) - nd t n))) ∧
      ∀ r < dy.rows, ∃ P : ℕ → ℝ[X],
        let D := fun n j k => (derivative (Lagrange.basis (Finset.range (order + 1)) (nd (x n)) k)).eval (nd (x n) j)
        let ρ := fun n j => (1 / (1 - f.u) ^ (5 * order + 5 + b) - 1) *
          ∑ k ∈ (Finset.range (order + 1)).erase j, |D n j k| * (|(P n).eval (nd (x n) k)| + |(P n).eval (nd (x n) j)|)
        let E := fun n k => ∑ i ∈ Finset.range order,
          |∫ s in nd (x n) 0..nd (x n) k, (Lagrange.basis (Finset.range order) (nd (x n)) i).eval s| * ρ n i
        (∀ n < t.length - 1, (P n).degree < ((order + 1 : ℕ) : WithBot ℕ) ∧ (P n).eval (nd (x n) 0) = 0 ∧
          (∀ k < order, y.e r (n * order + k) =
            f.rnd ((P n).eval (nd (x n) (k + 1)) + if n = 0 then 0 else y.e r (n * order - 1))) ∧
          ∀ j < order, |(derivative (P n)).eval (nd (x n) j) - dy.e r (n * order + j)| ≤ ρ n j) ∧
        ∀ L : ℕ → ℝ[X], (∀ n < t.length - 1, (L n).degree < (order : WithBot ℕ) ∧ ∀ j < order, (L n).eval (nd (x n) j) = dy.e r (n * order + j)) →
          ∀ n < t.length - 1, ∀ k < order,
            |y.e r (n * order + k) - (∑ m ∈ Finset.range n, (∫ s in nd (x m) 0..nd (x m) order, (L m).eval s) +
              ∫ s in nd (x n) 0..nd (x n) (k + 1), (L n).eval s)| ≤
            ∑ m ∈ Finset.range n, (E m order + (1 / (1 - f.u) - 1) * |y.e r (m * order + (order - 1))|) +
              (E n (k + 1) + (1 / (1 - f.u) - 1) * |y.e r (n * order + k)|) := by
  obtain ⟨h2, ha, w⟩ := built_of_ok g.len g.pos hp
  obtain ⟨-, -, -, -, -, hasc, -⟩ := C117_grid_partial cp t order g hfl p hp
  have hpos := g.pos
  obtain ⟨hc, hyr, hyc, hv⟩ := w.integral_ok g.len hpos h2 solve hs dy y hy
  have hxl : ∀ n, (f.points cp t n).length = order + 1 := fun n => by rw [points_length, g.len]
  refine ⟨hc, hyr, hyc, fun n => f.points cp t n, fun n hn => ⟨hxl n, ha n (by omega), fun j hj => ?_, fun h => ?_, fun j hj => ?_⟩, fun r hr => ?_⟩
  · rw [w.pts n hn j hj, nd_points (by rw [g.len]; omega)]
  · rw [w.last, nd_points (by rw [g.len]; omega), show t.length - 2 = n by omega, show t.length - 1 = n + 1 by omega]
  · rw [nd_points (by rw [g.len]; omega)]
    have h := scaled_err (f := f) (a := nd t n) (b := nd t (n + 1)) (GoodScheme_mem g hj).1 (GoodScheme_mem g hj).2
    rwa [abs_of_pos (sub_pos.mpr (hasc n (by omega)))] at h
  have hex : ∀ n, ∃ P : ℝ[X], n < t.length - 1 → P.degree < ((order + 1 : ℕ) : WithBot ℕ) ∧ P.eval (nd (f.points cp t n) 0) = 0 ∧
      (∀ k < order, y.e r (n * order + k) =
        f.rnd (P.eval (nd (f.points cp t n) (k + 1)) + if n = 0 then 0 else y.e r (n * order - 1))) ∧
      ∀ j < order, |(derivative P).eval (nd (f.points cp t n) j) - dy.e r (n * order + j)| ≤ f.γ (5 * order + 5 + b) *
        ∑ k ∈ (Finset.range (order + 1)).erase j,
          |(derivative (Lagrange.basis (Finset.range (order + 1)) (nd (f.points cp t n)) k)).eval (nd (f.points cp t n) j)| *
            (|P.eval (nd (f.points cp t n) k)| + |P.eval (nd (f.points cp t n) j)|) := by
    intro n
    by_cases hn : n < t.length - 1
    · obtain ⟨v, hv1, hv2⟩ := hv n (by rw [w.blen]; exact hn) r hr
      obtain ⟨P, hP1, hP2, hP3, hP4⟩ := increments_ok (hxl n) (ha n (by omega)).nodup (w.basis n (by rw [w.blen]; exact hn)) v
        (fun j => dy.e r (n * order + j)) hv2
      refine ⟨P, fun _ => ⟨hP1, hP2, fun k hk => ?_, hP4⟩⟩
      rw [hv1 k hk, hP3 k hk]
      congr 2
      rcases Nat.eq_zero_or_pos n with rfl | h
      · simp [Mat.prependCol]
      · have : n * order ≠ 0 := Nat.mul_ne_zero (by omega) (by omega)
        simp [Mat.prependCol, this, show n ≠ 0 by omega]
    · exact ⟨0, fun h => absurd h hn⟩
  choose P hP using hex
  refine ⟨P, ?_⟩
  intro D ρ E
  refine ⟨hP, fun L hL => ?_⟩
  -- one interval
  have hblock : ∀ n < t.length - 1, ∀ k ≤ order, |(P n).eval (nd (f.points cp t n) k) -
      ∫ s in nd (f.points cp t n) 0..nd (f.points cp t n) k, (L n).eval s| ≤ E n k := by
    intro n hn k hk
    obtain ⟨hP1, hP2, -, hP4⟩ := hP n hn
    obtain ⟨hL1, hL2⟩ := hL n hn
    obtain ⟨Q, hQ⟩ := exists_antiderivative (L n)
    set x := f.points cp t n with hx
    set R := Q - C (Q.eval (nd x 0)) with hR
    have hRd : derivative R = L n := by rw [hR, derivative_sub, derivative_C, sub_zero, hQ]
    have hR0 : R.eval (nd x 0) = 0 := by simp [hR]
    have hRi : ∀ z, ∫ s in nd x 0..z, (L n).eval s = R.eval z := by
      intro z
      rw [intervalIntegral.integral_eq_sub_of_hasDerivAt (f := fun s => R.eval s) (fun s _ => by
        have := R.hasDerivAt s
        rwa [hRd] at this) ((L n).continuous.intervalIntegrable _ _), hR0, sub_zero]
    have hinj : Set.InjOn (nd x) (Finset.range order) := fun a hha b hb h =>
      nd_injOn (ha n (by omega)).nodup (by rw [hxl n]; simp at hha ⊢; omega) (by rw [hxl n]; simp at hb ⊢; omega) h
    have e1 := eval_eq_sum_integral (ha n (by omega)).nodup (hxl n) hP1 hP2 (nd x k)
    have e2 : R.eval (nd x k) = ∑ i ∈ Finset.range order, (L n).eval (nd x i) *
        ∫ s in nd x 0..nd x k, (Lagrange.basis (Finset.range order) (nd x) i).eval s := by
      rw [← hRi]
      have he := Lagrange.eq_interpolate hinj (f := L n) (by rw [Finset.card_range]; exact hL1)
      have hfun : ∀ s, (L n).eval s = ∑ i ∈ Finset.range order, (L n).eval (nd x i) * (Lagrange.basis (Finset.range order) (nd x) i).eval s := by
        intro s
        conv_lhs => rw [he]
        rw [Lagrange.interpolate_apply, eval_finset_sum]
        exact Finset.sum_congr rfl fun i _ => by rw [eval_mul, eval_C]
      rw [intervalIntegral.integral_congr fun s _ => hfun s, intervalIntegral.integral_finsetSum]
      · exact Finset.sum_congr rfl fun i _ => intervalIntegral.integral_const_mul _ _
      · intro i _
        exact ((Lagrange.basis (Finset.range order) (nd x) i).continuous.intervalIntegrable _ _).const_mul _
    rw [hRi, e1, e2, ← Finset.sum_sub_distrib]
    refine (Finset.abs_sum_le_sum_abs _ _).trans (Finset.sum_le_sum fun i hi => ?_)
    have hi' := Finset.mem_range.mp hi
    rw [← sub_mul, abs_mul, mul_comm, hL2 i hi']
    exact mul_le_mul_of_nonneg_left (hP4 i hi') (abs_nonneg _)
  have hrnd : ∀ s, |f.rnd s - s| ≤ (1 / (1 - f.u) - 1) * |f.rnd s| := by
    intro s
    have h := (Rounding.Rel.rnd (R := f.toRounding) s).symm.abs_sub
    rw [abs_sub_comm] at h
    simpa [Rounding.γ] using h
  -- the interval bounds
  have hstart : ∀ n ≤ t.length - 1, |(if n = 0 then 0 else y.e r (n * order - 1)) -
      ∑ m ∈ Finset.range n, ∫ s in nd (f.points cp t m) 0..nd (f.points cp t m) order, (L m).eval s| ≤
      ∑ m ∈ Finset.range n, (E m order + (1 / (1 - f.u) - 1) * |y.e r (m * order + (order - 1))|) := by
    intro n
    induction n with
    | zero => intro _; simp
    | succ n ih =>
      intro hn
      have h3 := ih (by omega)
      have h4 := hblock n (by omega) order le_rfl
      have h5 := (hP n (by omega)).2.2.1 (order - 1) (by omega)
      rw [Nat.sub_add_cancel hpos] at h5
      have h6 := hrnd ((P n).eval (nd (f.points cp t n) order) + if n = 0 then 0 else y.e r (n * order - 1))
      rw [← h5] at h6
      rw [if_neg (Nat.succ_ne_zero n), Finset.sum_range_succ, Finset.sum_range_succ,
        show (n + 1) * order - 1 = n * order + (order - 1) by rw [Nat.add_mul, one_mul]; omega]
      rw [abs_le] at h3 h4 h6 ⊢
      constructor <;> linarith [h3.1, h3.2, h4.1, h4.2, h6.1, h6.2]
  intro n hn k hk
  have h3 := hstart n hn.le
  have h4 := hblock n hn (k + 1) (by omega)
  have h5 := (hP n hn).2.2.1 k hk
  have h6 := hrnd ((P n).eval (nd (f.points cp t n) (k + 1)) + if n = 0 then 0 else y.e r (n * order - 1))
  rw [← h5] at h6
  rw [abs_le] at h3 h4 h6 ⊢
  constructor <;> linarith [h3.1, h3.2, h4.1, h4.2, h6.1, h6.2]

/-- **C126** If the rounding errors are small in comparison to the condition of the equations on the intervals, and the solver succeeds for all
nonsingular matrices, `integral` succeeds exactly if there are enough columns. -/
theorem C126_returns (cp t : List ℝ) (order : ℕ) (g : GoodScheme cp order) (p : Grid) (hp : f.pdqNew (.ok cp) t order = .ok p)
    (solve : Mat ℝ → Mat ℝ → Except PyErr (Mat ℝ)) (b : ℕ) (hs : f.Solves b solve)
    (hn : ∀ A B : Mat ℝ, A.rows = order → A.Nonsingular → B.rows = A.rows → ∃ W, solve A B = .ok W)
    (hsmall : ∀ n < t.length - 1, ∀ x : List ℝ, x.length = order + 1 →
      (∀ j ≤ order, nd x j = f.rnd (f.rnd (nd cp j * f.rnd (nd t (n + 1) - nd t n)) + nd t n)) → ∀ k ≤ order,
      (1 / (1 - f.u) ^ (5 * order + 5) - 1) * ∑ i ∈ Finset.range order,
        |∫ s in nd x 0..nd x k, (Lagrange.basis (Finset.range order) (nd x) i).eval s| *
          (2 * ∑ l ∈ (Finset.range (order + 1)).erase i,
            |(derivative (Lagrange.basis (Finset.range (order + 1)) (nd x) l)).eval (nd x i)|) < 1) (dy : Mat ℝ) :
    (∃ y, Grid.integral f solve p dy = .ok y) ↔ p.collocationPoints.length ≤ dy.cols + 1 := by
  obtain ⟨h2, ha, w⟩ := built_of_ok g.len g.pos hp
  have hpos := g.pos
  rw [w.plen]
  constructor
  · rintro ⟨y, hy⟩
    have := (w.integral_ok g.len hpos h2 solve hs dy y hy).1
    omega
  intro hc
  have hxl : ∀ n, (f.points cp t n).length = order + 1 := fun n => by rw [points_length, g.len]
  obtain ⟨s, hs'⟩ := integral_fold_ok solve hs hn hpos dy p.basis (fun c hc => by
    obtain ⟨n, hnb, rfl⟩ := List.mem_iff_getElem.mp hc
    have hnt : n < t.length - 1 := by rw [← w.blen]; exact hnb
    obtain ⟨e1, e2, e3⟩ := basis_shape (w.basis n hnb)
    rw [hxl] at e2 e3
    refine ⟨by rw [e1, hxl], e2, e3, by simp [Mat.dropLastRowFirstCol, e2, e3], fun v hv => ?_⟩
    simp only [Mat.dropLastRowFirstCol, e2, e3, Nat.add_sub_cancel] at hv ⊢
    set x := f.points cp t n with hx
    have hxd := (ha n (by omega)).nodup
    obtain ⟨P, hP1, hP2, hP3, hP4⟩ := increments_ok (b := 0) (hxl n) hxd (w.basis n hnb) v (fun _ => 0) (fun j hj => by
      rw [hv j hj]
      simp [Rounding.γ_zero])
    -- the largest value
    obtain ⟨K, hK, hmax⟩ := Finset.exists_max_image (Finset.range (order + 1)) (fun k => |P.eval (nd x k)|) ⟨0, by simp⟩
    have hK' := Finset.mem_range.mp hK
    have hle : ∀ k ≤ order, |P.eval (nd x k)| ≤ |P.eval (nd x K)| := fun k hk => hmax k (by simp; omega)
    have hb := hsmall n hnt x (hxl n) (fun j hj => by rw [hx, nd_points (by rw [g.len]; omega)]; rfl) K (by omega)
    have he := eval_eq_sum_integral hxd (hxl n) hP1 hP2 (nd x K)
    have hb2 : |P.eval (nd x K)| ≤ ((1 / (1 - f.u) ^ (5 * order + 5) - 1) * ∑ i ∈ Finset.range order,
        |∫ s in nd x 0..nd x K, (Lagrange.basis (Finset.range order) (nd x) i).eval s| *
          (2 * ∑ l ∈ (Finset.range (order + 1)).erase i,
            |(derivative (Lagrange.basis (Finset.range (order + 1)) (nd x) l)).eval (nd x i)|)) * |P.eval (nd x K)| := by
      conv_lhs => rw [he]
      refine (Finset.abs_sum_le_sum_abs _ _).trans ?_
      rw [mul_assoc, Finset.sum_mul, Finset.mul_sum]
      refine Finset.sum_le_sum fun i hi => ?_
      have hi' := Finset.mem_range.mp hi
      have h4 := hP4 i hi'
      rw [sub_zero, add_zero] at h4
      rw [abs_mul]
      have h5 : |(derivative P).eval (nd x i)| ≤ f.γ (5 * order + 5) * ((2 * ∑ l ∈ (Finset.range (order + 1)).erase i,
          |(derivative (Lagrange.basis (Finset.range (order + 1)) (nd x) l)).eval (nd x i)|) * |P.eval (nd x K)|) := by
        refine h4.trans (mul_le_mul_of_nonneg_left ?_ (f.γ_nonneg _))
        rw [mul_comm 2, mul_assoc, Finset.sum_mul]
        refine Finset.sum_le_sum fun l hl => mul_le_mul_of_nonneg_left ?_ (abs_nonneg _)
        have := hle l (by have := Finset.mem_range.mp (Finset.mem_of_mem_erase hl); omega)
        have := hle i (by omega)
        linarith
      calc _ ≤ _ := mul_le_mul_of_nonneg_right h5 (abs_nonneg _)
        _ = _ := by rw [Rounding.γ]; ring
    have hz : |P.eval (nd x K)| = 0 := by
      by_contra h
      have hp : 0 < |P.eval (nd x K)| := lt_of_le_of_ne (abs_nonneg _) (Ne.symm h)
      nlinarith
    intro k hk
    rw [← hP3 k hk]
    exact abs_nonpos_iff.mp (hz ▸ hle (k + 1) (by omega))) (0, fun _ => 0, []) (by rw [w.blen]; simp only; omega)
  unfold Grid.integral
  rw [hs']
  exact ⟨_, rfl⟩

/-- **C126** Without rounding errors, and with an exact solver, the result is the sum of the integrals of the interpolating polynomials. -/
theorem C126_exact (hu : f.u = 0) (cp t : List ℝ) (order : ℕ) (g : GoodScheme cp order) (p : Grid)
    (hp : f.pdqNew (.ok cp) t order = .ok p) (solve : Mat ℝ → Mat ℝ → Except PyErr (Mat ℝ)) (hs : f.Solves 0 solve) (dy y : Mat ℝ)
    (hy : Grid.integral f solve p dy = .ok y) (r : ℕ) (hr : r < dy.rows) (L : ℕ → ℝ[X])
    (hL : ∀ n < t.length - 1, (L n).degree < (order : WithBot ℕ) ∧ ∀ j < order,
      (L n).eval (nd t n + nd cp j * (nd t (n + 1) - nd t n)) = dy.e r (n * order + j)) (n : ℕ) (hn : n < t.length - 1) (k : ℕ) (hk : k < order) :
    y.e r (n * order + k) = ∑ m ∈ Finset.range n, (∫ s in nd t m..nd t m + nd cp order * (nd t (m + 1) - nd t m), (L m).eval s) +
      ∫ s in nd t n..nd t n + nd cp (k + 1) * (nd t (n + 1) - nd t n), (L n).eval s := by
  obtain ⟨-, -, -, x, hx, hP⟩ := C126_integral cp t order g (fun x _ => rnd_exact hu x) p hp solve 0 hs dy y hy
  obtain ⟨P, -, h⟩ := hP r hr
  have hxe : ∀ n < t.length - 1, ∀ j ≤ order, nd (x n) j = nd t n + nd cp j * (nd t (n + 1) - nd t n) := by
    intro n hn j hj
    have := (hx n hn).2.2.2.2 j hj
    rw [hu] at this
    simp only [sub_zero, one_pow, div_one, sub_self, zero_mul] at this
    exact sub_eq_zero.mp (abs_nonpos_iff.mp this)
  have h' := h L (fun n hn => ⟨(hL n hn).1, fun j hj => by rw [hxe n hn j hj.le]; exact (hL n hn).2 j hj⟩) n hn k hk
  simp only [hu, sub_zero, one_pow, div_one, sub_self, zero_mul, mul_zero, add_zero, Finset.sum_const_zero] at h'
  have h'' := sub_eq_zero.mp (abs_nonpos_iff.mp h')
  rw [h'']
  congr 1
  · refine Finset.sum_congr rfl fun m hm => ?_
    have hm' : m < t.length - 1 := (Finset.mem_range.mp hm).trans hn
    rw [hxe m hm' 0 (by omega), hxe m hm' order le_rfl, g.zero, zero_mul, add_zero]
  · rw [hxe n hn 0 (by omega), hxe n hn (k + 1) hk, g.zero, zero_mul, add_zero]

/-! ## Non-vacuity -/

/-- A solver for one equation with one unknown, with doubles. -/
noncomputable def divSolve : Mat ℝ → Mat ℝ → Except PyErr (Mat ℝ) := fun A B =>
  if A.rows = 1 ∧ A.cols = 1 ∧ A.e 0 0 ≠ 0 then .ok ⟨1, B.cols, fun _ j => double.rnd (B.e 0 j / A.e 0 0)⟩ else .error .runtime

theorem divSolve_solves : double.Solves 1 divSolve := by
  intro A B W _ _ h
  unfold divSolve at h
  split_ifs at h with hA
  obtain ⟨h1, h2, h3⟩ := hA
  have h := Except.ok.inj h
  subst h
  refine ⟨h2.symm, rfl, fun i hi j _ => ?_⟩
  have hi : i = 0 := by omega
  subst hi
  rw [h2]
  simp only [Finset.sum_range_one]
  have h := ((Rounding.Rel.rnd (R := double.toRounding) (B.e 0 j / A.e 0 0)).mul (Rounding.Rel.refl (A.e 0 0))).symm.abs_sub
  rw [div_mul_cancel₀ _ h3, abs_sub_comm, mul_comm (double.rnd _)] at h
  exact h

/-- `Pdq([-1, 0.1], 1).integral(2)` with doubles returns twice the length of the computed interval, up to a few roundings; without data it raises. -/
example : ∃ (p : Grid) (y : Mat ℝ), double.pdqNew (.ok [0, 1]) [-1, tenth] 1 = .ok p ∧
    Grid.integral double divSolve p ⟨1, 1, fun _ _ => 2⟩ = .ok y ∧
    |y.e 0 0 - 2 * (225179981368525 / 2 ^ 51 + 1)| ≤ 50 / 2 ^ 53 ∧
    ∀ z, Grid.integral double divSolve p ⟨1, 0, fun _ _ => 2⟩ ≠ .ok z := by
  have g : GoodScheme [(0 : ℝ), 1] 1 := ⟨rfl, by norm_num, by
    intro i hi
    have hi : i = 0 := by simp at hi; omega
    subst hi
    norm_num [nd], rfl, le_of_eq rfl⟩
  obtain ⟨p, hp, -⟩ := C117_separated (f := double) _ [-1, tenth] 1 g exT_fl (by simp) (by
    intro i hi
    have hi : i = 0 := by simp at hi; omega
    subst hi
    norm_num [nd, tenth]) (by
    intro n hn j hj
    have hn : n = 0 := by simp at hn; omega
    have hj : j = 0 := by omega
    subst hn hj
    norm_num [nd, tenth, show double.u = 1 / 2 ^ 53 from rfl])
  have hend := (C117_end_refuted _ 1 g rfl p hp).1
  obtain ⟨-, -, hlen, -, -, -, -, hpts, htf, -⟩ := C117_grid_partial _ _ 1 g exT_fl p hp
  have x0 : nd p.collocationPoints 0 = -1 := (hpts 0 (by simp)).1
  have x1 : nd p.collocationPoints 1 = 225179981368525 / 2 ^ 51 := by
    rw [htf] at hend
    exact Except.ok.inj hend
  have hlen : p.collocationPoints.length = 2 := hlen
  have hsmall := C126_returns (f := double) [0, 1] [-1, tenth] 1 g p hp divSolve 1 divSolve_solves (fun A B hr hA hB => by
      have hc : A.cols = 1 := by rw [← hA.1, hr]
      refine ⟨_, if_pos ⟨hr, hc, fun h0 => ?_⟩⟩
      have := hA.2 (fun _ => 1) (fun i hi => by
        have hi : i = 0 := by omega
        subst hi
        rw [hc, Finset.sum_range_one, h0, zero_mul]) 0 (by omega)
      norm_num at this) (fun n hn x hx hxv k hk => by
      have hn : n = 0 := by simp at hn; omega
      subst hn
      have e0 : nd x 0 = -1 := by
        rw [hxv 0 (by omega)]
        exact (scaled_zero (f := double) (a := -1) (b := tenth) (exT_fl _ (by simp)))
      have e1 : nd x 1 = 225179981368525 / 2 ^ 51 := by
        rw [hxv 1 le_rfl]
        exact exT_last
      have hk : k = 0 ∨ k = 1 := by omega
      simp only [show (1 + 1 : ℕ) = 2 from rfl, show (Finset.range 2).erase 0 = {1} by decide, Finset.sum_singleton, Finset.range_one,
        Lagrange.basis_singleton, eval_one, intervalIntegral.integral_const, smul_eq_mul, mul_one, deriv_basis_one, e0, e1,
        show double.u = 1 / 2 ^ 53 from rfl]
      rcases hk with rfl | rfl
      · rw [e0]
        norm_num
      · rw [e1]
        norm_num [abs_of_pos])
  obtain ⟨y, hy⟩ := (hsmall ⟨1, 1, fun _ _ => 2⟩).mpr (by rw [hlen])
  refine ⟨p, y, hp, hy, ?_, fun z hz => ?_⟩
  · obtain ⟨-, -, -, x, hx, hP⟩ := C126_integral (f := double) [0, 1] [-1, tenth] 1 g exT_fl p hp divSolve 1 divSolve_solves _ y hy
    obtain ⟨P, hP1, hP2⟩ := hP 0 (by simp)
    obtain ⟨-, -, ex0, ex1, -⟩ := hx 0 (by simp)
    have ex0 := ex0 0 (by simp)
    have ex1 := ex1 (by simp)
    simp only [Nat.zero_mul, Nat.add_zero, x0] at ex0
    rw [show ([-1, tenth].length - 1) * 1 = 1 by simp, x1] at ex1
    obtain ⟨-, p0, py, pd⟩ := hP1 0 (by simp)
    have h := hP2 (fun _ => C 2) (fun n hn => ⟨by rw [degree_C (by norm_num)]; exact_mod_cast Nat.one_pos, fun j _ => by simp⟩) 0 (by simp) 0 (by simp)
    have py := py 0 (by simp)
    simp only [if_true, add_zero, zero_add, Nat.zero_mul, ex1] at py
    have hrel := (Rounding.Rel.rnd (R := double.toRounding) ((P 0).eval (225179981368525 / 2 ^ 51))).symm.abs_le
    rw [← py] at hrel
    simp only [show (1 + 1 : ℕ) = 2 from rfl, show (Finset.range 2).erase 0 = {1} by decide, Finset.sum_singleton,
      Finset.range_one, Lagrange.basis_singleton, eval_one, intervalIntegral.integral_const, smul_eq_mul, mul_one, deriv_basis_one, ex0, ex1,
      Finset.range_zero, Finset.sum_empty, zero_add, eval_C, Rounding.γ, show double.u = 1 / 2 ^ 53 from rfl] at h hrel
    rw [ex0] at p0
    rw [p0, abs_zero, add_zero] at h
    set v := y.e 0 0
    set q := |(P 0).eval (225179981368525 / 2 ^ 51)|
    norm_num at h hrel
    norm_num
    have hv : |v| ≤ |v - 2476979795053773 / 1125899906842624| + 2476979795053773 / 1125899906842624 := by
      have := abs_add_le (v - 2476979795053773 / 1125899906842624) (2476979795053773 / 1125899906842624)
      rwa [sub_add_cancel, abs_of_pos (a := (2476979795053773 / 1125899906842624 : ℝ)) (by norm_num)] at this
    linarith
  · have := (hsmall ⟨1, 0, fun _ _ => 2⟩).mp ⟨z, hz⟩
    rw [hlen] at this
    simp at this

end Flt

end CE
