import Mathlib.Analysis.SpecialFunctions.ExpDeriv
import Mathlib.Analysis.SpecialFunctions.Exponential
import Verif.Num.LemInterp
import Verif.Num.PropsPdq3
import Verif.Num.PropsPiecewise

/-!
# Property C85: accuracy of `Pdq` and `PiecewisePoly` for smooth functions

The data are samples of a function that is smooth on each interval of the grid; its highest derivative is bounded by `B`.
-/

open Polynomial Set

namespace CE

/-- On every interval `n` of the grid, `f n` has `m` continuous derivatives, and the last of them is at most `B` in absolute value. -/
def SmoothOn (t : List ℝ) (m : ℕ) (B : ℝ) (f : ℕ → ℝ → ℝ) : Prop := ∀ n, n + 1 < t.length →
  ContDiffOn ℝ m (f n) (Icc (nd t n) (nd t (n + 1))) ∧
  ∀ x ∈ Icc (nd t n) (nd t (n + 1)), |iteratedDerivWithin m (f n) (Icc (nd t n) (nd t (n + 1))) x| ≤ B

/-! ## Helpers -/

theorem Pdq.Built.points_mem {p : Pdq ℝ} {cp t : List ℝ} {order : ℕ} (w : p.Built cp t order) {n k : ℕ} (hn : n + 1 < t.length)
    (hk : k ≤ order) : nd p.collocationPoints (n * order + k) ∈ Icc (nd t n) (nd t (n + 1)) := by
  have h2 := w.two
  rcases Nat.lt_or_eq_of_le hk with h | rfl
  · rw [w.pts n (by omega) k h]
    exact ⟨gridPoint_ge w.scheme w.asc hn hk, (gridPoint_lt_next w.scheme w.asc hn h).le⟩
  · rw [show n * k + k = (n + 1) * k by ring]
    rcases Nat.lt_or_ge (n + 1) (t.length - 1) with h | h
    · rw [w.bound h]
      exact ⟨(w.asc n hn).le, le_rfl⟩
    · obtain rfl : n = t.length - 2 := by omega
      rw [show t.length - 2 + 1 = t.length - 1 by omega, w.last]
      refine ⟨gridPoint_ge w.scheme w.asc hn le_rfl, ?_⟩
      have hh : 0 < nd t (t.length - 2 + 1) - nd t (t.length - 2) := sub_pos.mpr (w.asc _ hn)
      have := mul_le_mul_of_nonneg_right w.scheme.le_one hh.le
      rw [show t.length - 2 + 1 = t.length - 1 by omega] at this hh
      unfold gridPoint
      rw [show t.length - 2 + 1 = t.length - 1 by omega]
      linarith

/-- The points of a group as a finite set. -/
theorem card_points {pts : List ℝ} (h : Ascending pts) {c0 m : ℕ} (hb : c0 + m ≤ pts.length) :
    ((Finset.range m).image fun k => nd pts (c0 + k)).card = m := by
  rw [Finset.card_image_of_injOn, Finset.card_range]
  intro i hi j hj hij
  have hi' := Finset.mem_range.mp (Finset.mem_coe.mp hi)
  have hj' := Finset.mem_range.mp (Finset.mem_coe.mp hj)
  rcases lt_trichotomy i j with h' | h' | h'
  · exact absurd hij (h.lt (by omega) (by omega)).ne
  · exact h'
  · exact absurd hij (h.lt (by omega) (by omega)).ne'

theorem group_le {N n order m : ℕ} (hn : n < N) (hm : m ≤ order + 1) : n * order + m ≤ N * order + 1 := by
  have := Nat.mul_le_mul_right order hn
  have e : (n + 1) * order = n * order + order := by ring
  rw [Nat.succ_eq_add_one] at this
  omega

/-- The error of a polynomial through samples at a group of collocation points. -/
theorem Pdq.Built.group_error {p : Pdq ℝ} {cp t : List ℝ} {order : ℕ} (w : p.Built cp t order) {n m : ℕ} (hn : n + 1 < t.length)
    (hm : m ≤ order + 1) {B : ℝ} {f : ℝ → ℝ} (hf : ContDiffOn ℝ m f (Icc (nd t n) (nd t (n + 1))))
    (hB : ∀ x ∈ Icc (nd t n) (nd t (n + 1)), |iteratedDerivWithin m f (Icc (nd t n) (nd t (n + 1))) x| ≤ B) {P : ℝ[X]} (hP : P.degree < m)
    (hv : ∀ k < m, P.eval (nd p.collocationPoints (n * order + k)) = f (nd p.collocationPoints (n * order + k))) {x : ℝ}
    (hx : x ∈ Icc (nd t n) (nd t (n + 1))) :
    |P.eval x - f x| ≤ B * (nd t (n + 1) - nd t n) ^ m / (m.factorial : ℝ) := by
  have hle : n * order + m ≤ p.collocationPoints.length := by rw [w.plen]; exact group_le (by omega) hm
  have hc := card_points w.points_asc hle
  have := interp_error (w.asc n hn) ((Finset.range m).image fun k => nd p.collocationPoints (n * order + k)) (by
    intro s hs
    obtain ⟨k, hk, rfl⟩ := Finset.mem_image.mp hs
    exact w.points_mem hn (by have := Finset.mem_range.mp hk; omega)) (by rw [hc]; exact hf) (by rw [hc]; exact hB) (by rw [hc]; exact hP)
    (by
      intro s hs
      obtain ⟨k, hk, rfl⟩ := Finset.mem_image.mp hs
      exact hv k (Finset.mem_range.mp hk)) hx
  rw [hc] at this
  rwa [abs_sub_comm]

/-- `Pdq.derivative` in terms of the polynomials through the data. -/
theorem Pdq.Built.derivative_poly {p : Pdq ℝ} {cp t : List ℝ} {order : ℕ} (w : p.Built cp t order)
    (h1 : nd cp order = 1 ∨ t.length = 2) {y d : Mat ℝ} (hy : y.cols = p.collocationPoints.length) (hd : p.derivative y = .ok d)
    {n j r : ℕ} (hn : n + 1 < t.length) (hj : j < order) {P : ℝ[X]} (hP : Interpolates p.collocationPoints y (n * order) (order + 1) r P) :
    d.e r (n * order + j) = (Polynomial.derivative P).eval (nd p.collocationPoints (n * order + j)) := by
  obtain ⟨d', hd', -, -, hval⟩ := w.derivative_ok y (by rw [hy, w.plen])
  rw [hd] at hd'
  cases hd'
  have hnb : n < p.basis.length := by rw [w.blen]; omega
  rw [hval r n hnb j hj]
  have hgp : ∀ k ≤ order, nd p.collocationPoints (n * order + k) = gridPoint cp t n k := by
    intro k hk
    rcases Nat.lt_or_eq_of_le hk with h | rfl
    · exact w.pts n (by omega) k h
    · rw [show n * k + k = (n + 1) * k by ring]
      rcases h1 with h1 | h1
      · rw [gridPoint_one h1]
        rcases Nat.lt_or_ge (n + 1) (t.length - 1) with h' | h'
        · exact w.bound h'
        · rw [show n + 1 = t.length - 1 by omega]; exact w.tf_eq h1
      · obtain rfl : n = 0 := by omega
        have := w.last
        rw [h1] at this
        simpa using this
  have hgl : (gridPoints cp t n).length = order + 1 := by rw [gridPoints_length, w.scheme.len]
  obtain ⟨b, hb, _, _, hD, _⟩ := C03_differentiation_matrix (gridPoints cp t n) (by intro h; rw [h] at hgl; simp at hgl)
    (gridPoints_asc w.scheme w.asc hn).nodup
  rw [w.basis n hnb] at hb
  cases hb
  have := hD P (by rw [hgl]; exact hP.1) j (by rw [hgl]; omega)
  rw [hgl, nd_gridPoints (by rw [w.scheme.len]; omega)] at this
  rw [hgp j hj.le, ← this]
  refine Finset.sum_congr rfl fun k hk => ?_
  have hk' := Finset.mem_range.mp hk
  rw [← hP.2 k hk', hgp k (by omega), nd_gridPoints (by rw [w.scheme.len]; omega), mul_comm]

/-! ## `Pdq` -/

section
variable (cp : List ℝ) (order : ℕ) (g : GoodScheme cp order) (t : List ℝ) (p : Pdq ℝ)
include g

/-- **C85** `interpolator('both')` of samples of `f` differs from `f` on the interval `[t_n, t_{n+1}]` at most by
`B * (t_{n+1} - t_n)^(order+1) / (order+1)!`. -/
theorem C85_interpolator_both (hp : Pdq.new (.ok cp) t order = .ok p) (x : Mat ℝ) (hx : x.cols = p.collocationPoints.length)
    (f : ℕ → ℝ → ℝ) (hval : ∀ r < x.rows, ∀ i < x.cols, x.e r i = f r (nd p.collocationPoints i)) (B : ℝ)
    (hs : ∀ r < x.rows, SmoothOn t (order + 1) B fun _ => f r) (q : List ℝ) (hq : q ≠ []) :
    ∃ φ V, p.interpolator "both" = .ok φ ∧ φ.call x q = .ok V ∧ V.rows = x.rows ∧ V.cols = q.length ∧
      ∀ i < q.length, ∀ n, n + 1 < t.length → nd q i ∈ Icc (nd t n) (nd t (n + 1)) → ∀ r < x.rows,
        |V.e r i - f r (nd q i)| ≤ B * (nd t (n + 1) - nd t n) ^ (order + 1) / ((order + 1).factorial : ℝ) := by
  have w := Pdq.built_of_ok g hp
  obtain ⟨φ, V, hφ, -, hV, hr, hc, hex, hv, -, hbd⟩ := C21_both cp order g t p hp x hx q hq
  refine ⟨φ, V, hφ, hV, hr, hc, fun i hi n hn hin r hrr => ?_⟩
  obtain ⟨P, hP⟩ := hex n hn r
  have hVP : V.e r i = P.eval (nd q i) := by
    rcases hin.2.lt_or_eq with h | h
    · exact hv i hi n ⟨hn, .inr hin.1, .inr h⟩ r P hP
    · rcases Nat.lt_or_ge (n + 2) t.length with h' | h'
      · rw [h]; exact hbd i hi n h' h r P hP
      · exact hv i hi n ⟨hn, .inr hin.1, .inl (by omega)⟩ r P hP
  have hle := group_le (show n < t.length - 1 by omega) (le_refl (order + 1))
  rw [hVP]
  refine w.group_error hn le_rfl (hs r hrr n hn).1 (hs r hrr n hn).2 hP.1 (fun k hk => ?_) hin
  rw [hP.2 k hk, hval r hrr _ (by rw [hx, w.plen]; omega)]

/-- **C85** `interpolator('right')` of samples of a function that may jump at the interval bounds: on interval `n` (without its right end,
except for the last one) the difference is at most `B * (t_{n+1} - t_n)^order / order!`. -/
theorem C85_interpolator_right (hp : Pdq.new (.ok cp) t order = .ok p) (x : Mat ℝ) (hx : x.cols + 1 = p.collocationPoints.length)
    (f : ℕ → ℕ → ℝ → ℝ) (hval : ∀ r < x.rows, ∀ n, n + 1 < t.length → ∀ j < order, x.e r (n * order + j) =
      f r n (nd p.collocationPoints (n * order + j))) (B : ℝ)
    (hs : ∀ r < x.rows, SmoothOn t order B (f r)) (q : List ℝ) (hq : q ≠ []) :
    ∃ φ V, p.interpolator "right" = .ok φ ∧ φ.call x q = .ok V ∧ V.rows = x.rows ∧ V.cols = q.length ∧
      ∀ i < q.length, ∀ n, n + 1 < t.length → nd q i ∈ Icc (nd t n) (nd t (n + 1)) → (nd q i < nd t (n + 1) ∨ n + 2 = t.length) →
        ∀ r < x.rows, |V.e r i - f r n (nd q i)| ≤ B * (nd t (n + 1) - nd t n) ^ order / (order.factorial : ℝ) := by
  have w := Pdq.built_of_ok g hp
  obtain ⟨φ, V, hφ, hV, hr, hc, hex, hv, -⟩ := C21_right cp order g t p hp x hx q hq
  refine ⟨φ, V, hφ, hV, hr, hc, fun i hi n hn hin hlt r hrr => ?_⟩
  obtain ⟨P, hP⟩ := hex n hn r
  rw [hv i hi n ⟨hn, .inr hin.1, hlt.symm⟩ r P hP]
  refine w.group_error hn (by omega) (hs r hrr n hn).1 (hs r hrr n hn).2 hP.1 (fun k hk => ?_) hin
  rw [hP.2 k hk, hval r hrr n hn k hk]

/-- **C85** `Pdq.derivative` of samples of `f` (for schemes that end in 1, or a single interval; see C18): at every collocation point but
the last, the difference from `f'` is at most `B * (t_{n+1} - t_n)^order / order!`, where `B` bounds the derivative of order `order + 1` of
`f` in the interval to the right. -/
theorem C85_derivative (hp : Pdq.new (.ok cp) t order = .ok p) (h1 : nd cp order = 1 ∨ t.length = 2) (y : Mat ℝ)
    (hy : y.cols = p.collocationPoints.length) (f : ℕ → ℝ → ℝ) (f' : ℕ → ℕ → ℝ → ℝ)
    (hval : ∀ r < y.rows, ∀ i < y.cols, y.e r i = f r (nd p.collocationPoints i)) (B : ℝ)
    (hd : ∀ r < y.rows, ∀ n, n + 1 < t.length → ∀ τ ∈ Icc (nd t n) (nd t (n + 1)),
      HasDerivWithinAt (f r) (f' r n τ) (Icc (nd t n) (nd t (n + 1))) τ)
    (hs : ∀ r < y.rows, SmoothOn t order B (f' r)) :
    ∃ d, p.derivative y = .ok d ∧ d.rows = y.rows ∧ d.cols + 1 = p.collocationPoints.length ∧
      ∀ r < y.rows, ∀ n, n + 1 < t.length → ∀ j < order,
        |d.e r (n * order + j) - f' r n (nd p.collocationPoints (n * order + j))| ≤
          B * (nd t (n + 1) - nd t n) ^ order / (order.factorial : ℝ) := by
  have w := Pdq.built_of_ok g hp
  obtain ⟨d, hdo, hr, hc⟩ := (C18_shape cp order g t p hp y).1 hy
  refine ⟨d, hdo, hr, hc, fun r hrr n hn j hj => ?_⟩
  have hle := group_le (show n < t.length - 1 by omega) (le_refl (order + 1))
  have hle' : n * order + (order + 1) ≤ p.collocationPoints.length := by rw [w.plen]; exact hle
  obtain ⟨P, hP⟩ := exists_interpolates w.points_asc y r hle'
  rw [w.derivative_poly h1 hy hdo hn hj hP, abs_sub_comm]
  refine interp_deriv_error (w.asc n hn) ((Finset.range (order + 1)).image fun k => nd p.collocationPoints (n * order + k))
    (card_points w.points_asc hle') ?_ (hd r hrr n hn) (hs r hrr n hn).1 (hs r hrr n hn).2 hP.1 ?_ (w.points_mem hn hj.le)
  · intro s hs
    obtain ⟨k, hk, rfl⟩ := Finset.mem_image.mp hs
    exact w.points_mem hn (by have := Finset.mem_range.mp hk; omega)
  · intro s hs
    obtain ⟨k, hk, rfl⟩ := Finset.mem_image.mp hs
    have := Finset.mem_range.mp hk
    rw [hP.2 k this, hval r hrr _ (by omega)]

/-- **C85** `Pdq.integral` of samples of a function that may jump at the interval bounds (for schemes that end in 1, or a single interval):
the difference from the integral of the function is at most `(τ - t_0) * B * H^order / order!` at the collocation point `τ`, where no
interval is longer than `H`. -/
theorem C85_integral (solve : Mat ℝ → Mat ℝ → Except PyErr (Mat ℝ)) (hsolve : IsSolver solve)
    (hp : Pdq.new (.ok cp) t order = .ok p) (h1 : nd cp order = 1 ∨ t.length = 2) (dy : Mat ℝ)
    (hc : dy.cols + 1 = p.collocationPoints.length) (f : ℕ → ℕ → ℝ → ℝ) (Y : ℕ → ℝ → ℝ)
    (hval : ∀ r < dy.rows, ∀ n, n + 1 < t.length → ∀ j < order, dy.e r (n * order + j) =
      f r n (nd p.collocationPoints (n * order + j))) (B H : ℝ)
    (hH : ∀ n, n + 1 < t.length → nd t (n + 1) - nd t n ≤ H)
    (hY : ∀ r < dy.rows, ∀ n, n + 1 < t.length → ∀ τ ∈ Icc (nd t n) (nd t (n + 1)),
      HasDerivWithinAt (Y r) (f r n τ) (Icc (nd t n) (nd t (n + 1))) τ)
    (hs : ∀ r < dy.rows, SmoothOn t order B (f r)) :
    ∃ y, p.integral solve dy = .ok y ∧ y.rows = dy.rows ∧ y.cols + 1 = p.collocationPoints.length ∧
      ∀ r < dy.rows, ∀ k < y.cols, |y.e r k - (Y r (nd p.collocationPoints (k + 1)) - Y r (nd t 0))| ≤
        (nd p.collocationPoints (k + 1) - nd t 0) * (B * H ^ order / (order.factorial : ℝ)) := by
  have w := Pdq.built_of_ok g hp
  have h2 := w.two
  have hpos := g.pos
  obtain ⟨y, hy, hr, hcy, d, hd, hsame⟩ := C19_derivative_of_integral solve hsolve cp order g t p hp dy hc
  refine ⟨y, hy, hr, hcy, fun r hrr => ?_⟩
  set Z := Mat.prependCol (fun _ => (0 : ℝ)) y with hZ
  have hZc : Z.cols = p.collocationPoints.length := by rw [← hcy]; rfl
  set δ := B * H ^ order / (order.factorial : ℝ) with hδ
  have hfac : (0 : ℝ) < order.factorial := by exact_mod_cast order.factorial_pos
  -- one interval
  have step : ∀ n, n + 1 < t.length → ∀ k ≤ order,
      |(Y r (nd p.collocationPoints (n * order + k)) - Z.e r (n * order + k)) - (Y r (nd t n) - Z.e r (n * order))| ≤
        δ * (nd p.collocationPoints (n * order + k) - nd t n) := by
    intro n hn k hk
    have hle' : n * order + (order + 1) ≤ p.collocationPoints.length := by
      rw [w.plen]; exact group_le (by omega) le_rfl
    obtain ⟨P, hP⟩ := exists_interpolates w.points_asc Z r hle'
    have hP' : ∀ j < order, (derivative P).eval (nd p.collocationPoints (n * order + j)) =
        f r n (nd p.collocationPoints (n * order + j)) := by
      intro j hj
      rw [← w.derivative_poly h1 hZc hd hn hj hP, ← hval r hrr n hn j hj]
      refine hsame.2.2 r ?_ _ ?_
      · rw [hsame.1]; exact hrr
      · rw [hsame.2.1]; omega
    have hdeg : (derivative P).degree < order := by
      by_cases h0 : P = 0
      · rw [h0, derivative_zero, degree_zero]
        exact WithBot.bot_lt_coe _
      · refine lt_of_lt_of_le (degree_derivative_lt h0) ?_
        exact Order.le_of_lt_succ (by exact_mod_cast hP.1)
    have herr : ∀ τ ∈ Icc (nd t n) (nd t (n + 1)), |f r n τ - (derivative P).eval τ| ≤ δ := by
      intro τ hτ
      have := w.group_error hn (Nat.le_succ order) (hs r hrr n hn).1 (hs r hrr n hn).2 hdeg hP' hτ
      rw [abs_sub_comm] at this
      refine this.trans ?_
      have hB0 : 0 ≤ B := (abs_nonneg _).trans ((hs r hrr n hn).2 τ hτ)
      have h3 := hH n hn
      have h4 := (sub_pos.mpr (w.asc n hn)).le
      rw [hδ]
      gcongr
    have := norm_image_sub_le_of_norm_deriv_le_segment' (f := fun τ => Y r τ - P.eval τ) (f' := fun τ => f r n τ - (derivative P).eval τ)
      (a := nd t n) (b := nd t (n + 1)) (C := δ) (fun τ hτ => (hY r hrr n hn τ hτ).sub (P.hasDerivWithinAt τ _))
      (fun τ hτ => herr τ (Ico_subset_Icc_self hτ)) (nd p.collocationPoints (n * order + k)) (w.points_mem hn hk)
    have hb := w.bound (show n < t.length - 1 by omega)
    have e0 := hP.2 0 (by omega)
    rw [add_zero, hb] at e0
    rw [Real.norm_eq_abs] at this
    beta_reduce at this
    rwa [hP.2 k (by omega), e0] at this
  -- at the interval bounds
  have hbound : ∀ n, n < t.length - 1 → |Z.e r (n * order) - (Y r (nd t n) - Y r (nd t 0))| ≤ (nd t n - nd t 0) * δ := by
    intro n
    induction n with
    | zero => intro _; simp [hZ, Mat.prependCol]
    | succ n ih =>
      intro hn
      have h3 := ih (by omega)
      have h4 := step n (by omega) order le_rfl
      rw [show n * order + order = (n + 1) * order by ring, w.bound hn] at h4
      rw [abs_le] at h3 h4 ⊢
      constructor <;> nlinarith [h3.1, h3.2, h4.1, h4.2]
  intro k hk
  have hk2 : k < (t.length - 1) * order := by
    have := w.plen
    omega
  obtain ⟨n, j, hn, hj, rfl⟩ := split_pos hpos hk2
  have h3 := hbound n hn
  have h4 := step n (by omega) (j + 1) (by omega)
  have hz : Z.e r (n * order + (j + 1)) = y.e r (n * order + j) := by
    rw [hZ, ← add_assoc]
    simp [Mat.prependCol]
  rw [hz] at h4
  rw [add_assoc]
  rw [abs_le] at h3 h4 ⊢
  constructor <;> nlinarith [h3.1, h3.2, h4.1, h4.2]

end

/-! ## `PiecewisePoly` -/

/-- **C85** A `PiecewisePoly` whose coefficients are samples of a function that is smooth on each interval, and its derivative: the values on
`[t_n, t_{n+1}]` differ at most by `B * h^M / M!` and `B * h^(M-1) / (M-1)!` from the function and its derivative, where `M` is the number
of nodes and `B` a bound of the derivative of order `M`. -/
theorem C85_piecewise (pp : PiecewisePoly ℝ) (tau : List ℝ) (R : ℕ) (w : pp.WF tau R) (h01 : ∀ k < tau.length, nd tau k ∈ Icc (0 : ℝ) 1)
    (f f' : ℕ → ℕ → ℝ → ℝ) (hval : ∀ n c, pp.coefficients[n]? = some c → ∀ r < R, ∀ j < tau.length, c.e r j =
      f r n (nd pp.intervals n + (nd pp.intervals (n + 1) - nd pp.intervals n) * nd tau j)) (B : ℝ)
    (hd : ∀ r < R, ∀ n, n + 1 < pp.intervals.length → ∀ τ ∈ Icc (nd pp.intervals n) (nd pp.intervals (n + 1)),
      HasDerivWithinAt (f r n) (f' r n τ) (Icc (nd pp.intervals n) (nd pp.intervals (n + 1))) τ)
    (hs : ∀ r < R, SmoothOn pp.intervals tau.length B (f r)) (hs' : ∀ r < R, SmoothOn pp.intervals (tau.length - 1) B (f' r))
    (q : List ℝ) (hq : q ≠ []) :
    ∃ V dpp dV, pp.call q = .ok V ∧ pp.derivative = .ok dpp ∧ dpp.call q = .ok dV ∧
      V.rows = R ∧ V.cols = q.length ∧ dV.rows = R ∧ dV.cols = q.length ∧
      ∀ i < q.length, ∀ n, n + 1 < pp.intervals.length → nd q i ∈ Icc (nd pp.intervals n) (nd pp.intervals (n + 1)) →
        (nd q i < nd pp.intervals (n + 1) ∨ n + 2 = pp.intervals.length) → ∀ r < R,
        |V.e r i - f r n (nd q i)| ≤ B * (nd pp.intervals (n + 1) - nd pp.intervals n) ^ tau.length / (tau.length.factorial : ℝ) ∧
        |dV.e r i - f' r n (nd q i)| ≤
          B * (nd pp.intervals (n + 1) - nd pp.intervals n) ^ (tau.length - 1) / ((tau.length - 1).factorial : ℝ) := by
  obtain ⟨V, hV, -, hr, hc, hv⟩ := (C12_interval_selection pp tau R w q hq).1
  obtain ⟨dpp, hdpp, -, -, -, hcall⟩ := C14_derivative pp tau R w
  obtain ⟨dV, hdV, hdr, hdc, hdv⟩ := (hcall q hq).1
  have hpos : 0 < tau.length := List.length_pos_iff.mpr w.ne
  refine ⟨V, dpp, dV, hV, hdpp, hdV, hr, hc, hdr, hdc, fun i hi n hn hin hlt r hrr => ?_⟩
  obtain ⟨P, hP⟩ := w.exists_piece hn r
  have hside : InRight pp.intervals n (nd q i) := ⟨hn, .inr hin.1, hlt.symm⟩
  rw [hv i hi n hside r P hP, hdv i hi n hside r P hP]
  obtain ⟨c, hcn, hdeg, hPv⟩ := hP
  have hh : 0 < nd pp.intervals (n + 1) - nd pp.intervals n := sub_pos.mpr (w.asc n hn)
  set S := (Finset.range tau.length).image fun k =>
    nd pp.intervals n + (nd pp.intervals (n + 1) - nd pp.intervals n) * nd tau k with hS
  have hcard : S.card = tau.length := by
    rw [hS, Finset.card_image_of_injOn, Finset.card_range]
    intro a ha b hb hab
    have := mul_left_cancel₀ hh.ne' (add_left_cancel hab)
    exact nd_injOn w.nodup ha hb this
  have hmem : ∀ s ∈ S, s ∈ Icc (nd pp.intervals n) (nd pp.intervals (n + 1)) := by
    intro s hs
    obtain ⟨k, hk, rfl⟩ := Finset.mem_image.mp hs
    have := h01 k (Finset.mem_range.mp hk)
    constructor <;> nlinarith [this.1, this.2]
  have hPS : ∀ s ∈ S, P.eval s = f r n s := by
    intro s hs
    obtain ⟨k, hk, rfl⟩ := Finset.mem_image.mp hs
    rw [hPv k (Finset.mem_range.mp hk), hval n c hcn r hrr k (Finset.mem_range.mp hk)]
  constructor
  · have := interp_error (w.asc n hn) S hmem (by rw [hcard]; exact (hs r hrr n hn).1) (by rw [hcard]; exact (hs r hrr n hn).2)
      (by rw [hcard]; exact hdeg) hPS hin
    rw [hcard] at this
    rwa [abs_sub_comm]
  · rw [abs_sub_comm]
    exact interp_deriv_error (w.asc n hn) S (by omega) hmem (hd r hrr n hn) (hs' r hrr n hn).1 (hs' r hrr n hn).2
      (by rw [Nat.sub_add_cancel hpos]; exact hdeg) hPS hin

/-! ## Non-vacuity: the exponential function -/

theorem exp_smooth {t : List ℝ} (ht : Ascending t) (h0 : nd t 0 = 0) (m : ℕ) : SmoothOn t m 1 fun _ τ => Real.exp (-τ) := by
  intro n hn
  have hsmooth : ContDiff ℝ m (fun τ : ℝ => Real.exp (-τ)) := Real.contDiff_exp.comp contDiff_neg
  refine ⟨hsmooth.contDiffOn, fun τ hτ => ?_⟩
  rw [iteratedDerivWithin_eq_iteratedDeriv (uniqueDiffOn_Icc (ht n hn)) hsmooth.contDiffAt hτ]
  have e1 : (fun τ : ℝ => Real.exp (-τ)) = fun τ => Real.exp (-1 * τ) := by funext; simp
  rw [e1, iteratedDeriv_exp_const_mul, abs_mul, abs_pow, abs_neg, abs_one, one_pow, one_mul, Real.abs_exp]
  refine Real.exp_le_one_iff.mpr ?_
  have := ht.le (Nat.zero_le n) (by omega : n < t.length)
  linarith [hτ.1]

/-- Chebyshev points of any order on any grid that starts in 0: the interpolating function, the derivative and the integral of samples of
`exp(-t)`. -/
example (order : ℕ) (ho : 1 ≤ order) (t : List ℝ) (ht : Ascending t) (h2 : 2 ≤ t.length) (h0 : nd t 0 = 0) (H : ℝ)
    (hH : ∀ n, n + 1 < t.length → nd t (n + 1) - nd t n ≤ H) (solve : Mat ℝ → Mat ℝ → Except PyErr (Mat ℝ)) (hsolve : IsSolver solve) :
    ∃ p, Pdq.new (collocationPoints (fun _ _ => .error .value) order "chebyshev") t order = .ok p ∧
      ∃ φ d y, p.interpolator "both" = .ok φ ∧
        (∀ q ∈ Icc (nd t 0) (nd t 1), ∃ V, φ.call ⟨1, p.collocationPoints.length, fun _ i => Real.exp (-nd p.collocationPoints i)⟩ [q] = .ok V ∧
          |V.e 0 0 - Real.exp (-q)| ≤ 1 * (nd t 1 - nd t 0) ^ (order + 1) / ((order + 1).factorial : ℝ)) ∧
        p.derivative ⟨1, p.collocationPoints.length, fun _ i => -Real.exp (-nd p.collocationPoints i)⟩ = .ok d ∧
        |d.e 0 0 - 1| ≤ 1 * (nd t 1 - nd t 0) ^ order / (order.factorial : ℝ) ∧
        p.integral solve d = .ok y ∧ y.cols = (t.length - 1) * order := by
  obtain ⟨gs, h1⟩ := chebyshev_goodScheme order ho
  obtain ⟨p, hp, w⟩ := Pdq.new_built gs ht h2
  have hder : ∀ (a b τ : ℝ), HasDerivWithinAt (fun τ => -Real.exp (-τ)) (Real.exp (-τ)) (Icc a b) τ := by
    intro a b τ
    have : HasDerivWithinAt (fun τ => -Real.exp (-τ)) (-(Real.exp (-τ) * -1)) (Icc a b) τ := ((hasDerivAt_neg τ).exp.neg).hasDerivWithinAt
    rwa [mul_neg_one, neg_neg] at this
  obtain ⟨d, hd, hdr, hdc, hde⟩ := C85_derivative _ order gs t p hp (.inl h1)
    ⟨1, p.collocationPoints.length, fun _ i => -Real.exp (-nd p.collocationPoints i)⟩ rfl (fun _ τ => -Real.exp (-τ))
    (fun _ _ τ => Real.exp (-τ)) (fun _ _ _ _ => rfl) 1 (fun _ _ _ _ _ _ => hder _ _ _) (fun _ _ => exp_smooth ht h0 order)
  have hy := C85_interpolator_both _ order gs t p hp ⟨1, p.collocationPoints.length, fun _ i => Real.exp (-nd p.collocationPoints i)⟩ rfl
    (fun _ τ => Real.exp (-τ)) (fun _ _ _ _ => rfl) 1 (fun _ _ => exp_smooth ht h0 (order + 1))
  obtain ⟨φ, -, hφ, -⟩ := hy [0] (by simp)
  obtain ⟨y, hy1, -, hyc, -⟩ := C19_derivative_of_integral solve hsolve _ order gs t p hp d hdc
  refine ⟨p, hp, φ, d, y, hφ, fun q hq => ?_, hd, ?_, hy1, ?_⟩
  · obtain ⟨φ', V, hφ', hV, -, -, hb⟩ := hy [q] (by simp)
    rw [hφ] at hφ'
    cases hφ'
    exact ⟨V, hV, hb 0 (by simp) 0 (by omega) hq 0 Nat.one_pos⟩
  · have := hde 0 Nat.one_pos 0 (by omega) 0 (by omega)
    rw [zero_mul, add_zero] at this
    have hb := w.bound (show 0 < t.length - 1 by omega)
    rw [zero_mul] at hb
    rw [hb, h0, neg_zero, Real.exp_zero] at this
    rw [h0]
    exact this
  · rw [w.plen] at hyc
    omega

/-- The integral of samples of `exp(-t)` differs from `1 - exp(-t)` at most by `t * H^order / order!`. -/
example (order : ℕ) (ho : 1 ≤ order) (t : List ℝ) (ht : Ascending t) (h2 : 2 ≤ t.length) (h0 : nd t 0 = 0) (H : ℝ)
    (hH : ∀ n, n + 1 < t.length → nd t (n + 1) - nd t n ≤ H) (solve : Mat ℝ → Mat ℝ → Except PyErr (Mat ℝ)) (hsolve : IsSolver solve) :
    ∃ p y, Pdq.new (collocationPoints (fun _ _ => .error .value) order "chebyshev") t order = .ok p ∧
      p.integral solve ⟨1, (t.length - 1) * order, fun _ i => Real.exp (-nd p.collocationPoints i)⟩ = .ok y ∧
      ∀ k < y.cols, |y.e 0 k - (1 - Real.exp (-nd p.collocationPoints (k + 1)))| ≤
        nd p.collocationPoints (k + 1) * (1 * H ^ order / (order.factorial : ℝ)) := by
  obtain ⟨gs, h1⟩ := chebyshev_goodScheme order ho
  obtain ⟨p, hp, w⟩ := Pdq.new_built gs ht h2
  have hder : ∀ (a b τ : ℝ), HasDerivWithinAt (fun τ => -Real.exp (-τ)) (Real.exp (-τ)) (Icc a b) τ := by
    intro a b τ
    have : HasDerivWithinAt (fun τ => -Real.exp (-τ)) (-(Real.exp (-τ) * -1)) (Icc a b) τ := ((hasDerivAt_neg τ).exp.neg).hasDerivWithinAt
    rwa [mul_neg_one, neg_neg] at this
  obtain ⟨y, hy, -, -, hb⟩ := C85_integral _ order gs t p solve hsolve hp (.inl h1)
    ⟨1, (t.length - 1) * order, fun _ i => Real.exp (-nd p.collocationPoints i)⟩ w.plen.symm (fun _ _ τ => Real.exp (-τ))
    (fun _ τ => -Real.exp (-τ)) (fun _ _ _ _ _ _ => rfl) 1 H hH (fun _ _ _ _ _ _ => hder _ _ _) (fun _ _ => exp_smooth ht h0 order)
  refine ⟨p, y, hp, hy, fun k hk => ?_⟩
  have := hb 0 Nat.one_pos k hk
  rw [h0, neg_zero, Real.exp_zero, sub_zero] at this
  rwa [show (1 : ℝ) - Real.exp (-nd p.collocationPoints (k + 1)) = -Real.exp (-nd p.collocationPoints (k + 1)) - -1 by ring]

/-- Samples of a function that jumps at 1 (1 before, `exp(-t)` after). -/
example (order : ℕ) (ho : 1 ≤ order) (q : ℝ) (hq : q ∈ Icc (1 : ℝ) 2) :
    ∃ p φ V, Pdq.new (collocationPoints (fun _ _ => .error .value) order "chebyshev") [0, 1, 2] order = .ok p ∧
      p.interpolator "right" = .ok φ ∧
      φ.call ⟨1, 2 * order, fun _ i => if i < order then 1 else Real.exp (-nd p.collocationPoints i)⟩ [q] = .ok V ∧
      |V.e 0 0 - Real.exp (-q)| ≤ 1 * 1 ^ order / (order.factorial : ℝ) := by
  obtain ⟨gs, h1⟩ := chebyshev_goodScheme order ho
  have hasc : Ascending ([0, 1, 2] : List ℝ) := by
    intro i hi
    have : i = 0 ∨ i = 1 := by simp at hi; omega
    rcases this with rfl | rfl <;> simp [nd]
  obtain ⟨p, hp, w⟩ := Pdq.new_built gs hasc (by simp)
  obtain ⟨φ, V, hφ, hV, -, -, hb⟩ := C85_interpolator_right _ order gs _ p hp
    ⟨1, 2 * order, fun _ i => if i < order then 1 else Real.exp (-nd p.collocationPoints i)⟩ (by rw [w.plen]; simp)
    (fun _ n τ => if n = 0 then 1 else Real.exp (-τ)) (by
      intro r _ n hn j hj
      have : n = 0 ∨ n = 1 := by simp at hn; omega
      rcases this with rfl | rfl
      · simp [hj]
      · simp) 1 (by
      intro r _ n hn
      have : n = 0 ∨ n = 1 := by simp at hn; omega
      rcases this with rfl | rfl
      · simp only [if_true]
        refine ⟨contDiffOn_const, fun x _ => ?_⟩
        obtain ⟨m, rfl⟩ : ∃ m, order = m + 1 := ⟨order - 1, by omega⟩
        rw [iteratedDerivWithin_const]
        simp
      · exact exp_smooth hasc rfl order 1 hn) [q] (by simp)
  refine ⟨p, φ, V, hp, hφ, hV, ?_⟩
  have := hb 0 (by simp) 1 (by simp) (by simpa [nd] using hq) (.inr (by simp)) 0 Nat.one_pos
  have e : (nd [0, 1, 2] (1 + 1) : ℝ) - nd [0, 1, 2] 1 = 1 := by simp [nd]; norm_num
  rw [e] at this
  simpa [nd] using this

/-- One interval `[0, h]` with nodes 0 and 1: linear interpolation of `exp(-t)` and the difference quotient as its derivative. -/
example (h : ℝ) (hh : 0 < h) (q : ℝ) (hq : q ∈ Icc 0 h) :
    ∃ b pp V dpp dV, polynomialBasis ([0, 1] : List ℝ) = .ok b ∧
      PiecewisePoly.new [0, h] [⟨1, 2, fun _ j => Real.exp (-(h * nd [0, 1] j))⟩] b = .ok pp ∧ pp.call [q] = .ok V ∧
      pp.derivative = .ok dpp ∧ dpp.call [q] = .ok dV ∧
      |V.e 0 0 - Real.exp (-q)| ≤ h ^ 2 / 2 ∧ |dV.e 0 0 - -Real.exp (-q)| ≤ h := by
  have hasc : Ascending ([0, h] : List ℝ) := by
    intro i hi
    obtain rfl : i = 0 := by simp at hi; omega
    simpa [nd] using hh
  obtain ⟨b, hb⟩ : ∃ b, polynomialBasis ([0, 1] : List ℝ) = .ok b := ⟨_, polynomialBasis_ok (by simp)⟩
  set pp : PiecewisePoly ℝ := ⟨[0, h], [⟨1, 2, fun _ j => Real.exp (-(h * nd [0, 1] j))⟩], b⟩ with hpp
  have w : pp.WF [0, 1] 1 := ⟨by simp, by simp, hb, hasc, by simp [hpp], by simp [hpp], by simp [hpp], by simp [hpp]⟩
  have hder : ∀ (a b τ : ℝ), HasDerivWithinAt (fun τ => Real.exp (-τ)) (-Real.exp (-τ)) (Icc a b) τ := by
    intro a b τ
    have := ((hasDerivAt_neg τ).exp).hasDerivWithinAt (s := Icc a b)
    rwa [mul_neg_one] at this
  have hs' : SmoothOn pp.intervals 1 1 fun _ τ => -Real.exp (-τ) := by
    intro n hn
    obtain ⟨h1, h2⟩ := exp_smooth hasc rfl 1 n hn
    refine ⟨h1.neg, fun x hx => ?_⟩
    have := h2 x hx
    rw [iteratedDerivWithin_one] at this ⊢
    rwa [derivWithin.fun_neg, abs_neg]
  obtain ⟨V, dpp, dV, hV, hdpp, hdV, -, -, -, -, herr⟩ := C85_piecewise pp [0, 1] 1 w (by
      intro k hk
      have : k = 0 ∨ k = 1 := by simp at hk; omega
      rcases this with rfl | rfl <;> simp [nd]) (fun _ _ τ => Real.exp (-τ)) (fun _ _ τ => -Real.exp (-τ)) (by
      intro n c hc r _ j _
      have : n = 0 := by
        by_contra h
        obtain ⟨n, rfl⟩ := Nat.exists_eq_succ_of_ne_zero h
        simp [hpp] at hc
      subst this
      simp only [hpp, List.getElem?_cons_zero, Option.some.injEq] at hc
      rw [← hc]
      simp [hpp, nd]) 1 (fun _ _ _ _ _ _ => hder _ _ _) (fun _ _ => exp_smooth hasc rfl _) (fun _ _ => hs') [q] (by simp)
  refine ⟨b, pp, V, dpp, dV, hb, rfl, hV, hdpp, hdV, ?_⟩
  have := herr 0 (by simp) 0 (by simp [hpp]) (by simpa [hpp, nd] using hq) (.inr (by simp [hpp])) 0 Nat.one_pos
  simpa [hpp, nd] using this

end CE
