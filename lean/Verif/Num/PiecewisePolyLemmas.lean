import Verif.Num.PiecewisePoly
import Verif.Num.ArraysLemmas
import Verif.Num.PropsPoly

/-! Lemmas about the `PiecewisePoly` model. -/

open Polynomial

namespace CE

variable {K : Type*} [Field K] [LinearOrder K] [IsStrictOrderedRing K]

/-- A well-formed `PiecewisePoly`: what a caller following the constructor's documentation supplies: at least two
bounds in strictly ascending order, one coefficient matrix per interval, all with `R` rows and one column per node,
and a basis with distinct nodes `tau`. -/
structure PiecewisePoly.WF (pp : PiecewisePoly K) (tau : List K) (R : ℕ) : Prop where
  ne : tau ≠ []
  nodup : tau.Nodup
  basis : polynomialBasis tau = .ok pp.basis
  asc : Ascending pp.intervals
  two : 2 ≤ pp.intervals.length
  len : pp.coefficients.length + 1 = pp.intervals.length
  rows : ∀ c ∈ pp.coefficients, c.rows = R
  cols : ∀ c ∈ pp.coefficients, c.cols = tau.length

/-- `P` is the polynomial (in absolute time) of row `r` of `pp` on interval `n`: degree at most the order, and at the
image `t_n + (t_{n+1} - t_n) * tau_j` of node `j` it takes the value `coefficients[n][r, j]`. -/
def IsPiece (tau : List K) (pp : PiecewisePoly K) (n r : ℕ) (P : K[X]) : Prop :=
  ∃ c, pp.coefficients[n]? = some c ∧ P.degree < tau.length ∧
    ∀ j < tau.length,
      P.eval (nd pp.intervals n + (nd pp.intervals (n + 1) - nd pp.intervals n) * nd tau j) = c.e r j

omit [LinearOrder K] [IsStrictOrderedRing K] in
theorem degree_comp_linear_lt {p : K[X]} {m : ℕ} (a b : K) (hp : p.degree < m) :
    (p.comp (C a * X + C b)).degree < m := by
  by_cases h0 : p = 0
  · simp only [h0, zero_comp, degree_zero]; exact WithBot.bot_lt_coe _
  · have h1 : (p.comp (C a * X + C b)).natDegree ≤ p.natDegree := by
      refine natDegree_comp_le.trans ?_
      calc p.natDegree * (C a * X + C b).natDegree ≤ p.natDegree * 1 :=
            Nat.mul_le_mul_left _ natDegree_linear_le
        _ = _ := mul_one _
    rw [degree_eq_natDegree h0] at hp
    refine lt_of_le_of_lt degree_le_natDegree ?_
    exact_mod_cast lt_of_le_of_lt h1 (by exact_mod_cast hp)

namespace PiecewisePoly.WF

variable {pp : PiecewisePoly K} {tau : List K} {R : ℕ}

theorem h_pos (w : pp.WF tau R) {n : ℕ} (hn : n + 1 < pp.intervals.length) :
    0 < nd pp.intervals (n + 1) - nd pp.intervals n := sub_pos.mpr (w.asc n hn)

/-- Every interval and row has exactly one polynomial. -/
theorem exists_piece (w : pp.WF tau R) {n : ℕ} (hn : n + 1 < pp.intervals.length) (r : ℕ) :
    ∃ P : K[X], IsPiece tau pp n r P := by
  have hn' : n < pp.coefficients.length := by have := w.len; omega
  set a := nd pp.intervals n
  set h := nd pp.intervals (n + 1) - nd pp.intervals n with hh
  have hpos : 0 < h := w.h_pos hn
  let q := Lagrange.interpolate (Finset.range tau.length) (nd tau) (fun j => (pp.coefficients[n]).e r j)
  have hq : q.degree < tau.length := by
    have := Lagrange.degree_interpolate_lt (fun j => (pp.coefficients[n]).e r j) (nd_injOn w.nodup)
    rwa [Finset.card_range] at this
  refine ⟨q.comp (C h⁻¹ * X + C (-a * h⁻¹)), pp.coefficients[n], by simp [hn'],
    degree_comp_linear_lt _ _ hq, ?_⟩
  intro j hj
  have : h⁻¹ * (a + h * nd tau j) + -a * h⁻¹ = nd tau j := by
    have := hpos.ne'
    field_simp; ring
  simp only [eval_comp, eval_add, eval_mul, eval_C, eval_X]
  rw [this]
  exact Lagrange.eval_interpolate_at_node _ (nd_injOn w.nodup) (by simpa)

/-- Interpolation on interval `n` with local coordinate `s`. -/
theorem piece_sum (w : pp.WF tau R) {n r : ℕ} {P : K[X]} (hP : IsPiece tau pp n r P)
    {c : Mat K} (hc : pp.coefficients[n]? = some c) (s : K) :
    ∑ j ∈ Finset.range tau.length, c.e r j *
        (Lagrange.basis (Finset.range tau.length) (nd tau) j).eval s
      = P.eval (nd pp.intervals n + (nd pp.intervals (n + 1) - nd pp.intervals n) * s) := by
  obtain ⟨c', hc', hdeg, hval⟩ := hP
  rw [hc] at hc'; cases hc'
  have := sum_mul_basis_eval w.nodup (degree_comp_linear_lt
    (nd pp.intervals (n + 1) - nd pp.intervals n) (nd pp.intervals n) hdeg) s
  simp only [eval_comp, eval_add, eval_mul, eval_C, eval_X] at this
  rw [add_comm (nd pp.intervals n), ← this]
  apply Finset.sum_congr rfl
  intro j hj
  rw [← hval j (Finset.mem_range.mp hj), add_comm, mul_comm]

/-- `np.dot(coefficients[n], interpolationMatrix(taus).T)` -/
theorem dot_ok (w : pp.WF tau R) {n : ℕ} (hn : n + 1 < pp.intervals.length) (s : List K)
    (hs : s ≠ []) : ∃ c L V, pp.coefficients[n]? = some c ∧ pp.basis.interpolationMatrix s = .ok L ∧
      Mat.dot c L.T = .ok V ∧ V.rows = R ∧ V.cols = s.length ∧
      ∀ r P, IsPiece tau pp n r P → ∀ k < s.length,
        V.e r k = P.eval (nd pp.intervals n + (nd pp.intervals (n + 1) - nd pp.intervals n) * nd s k) := by
  have hn' : n < pp.coefficients.length := by have := w.len; omega
  have hget : pp.coefficients[n]? = some pp.coefficients[n] := by simp [hn']
  obtain ⟨L, hL, hLr, hLc, hLe⟩ := interpolationMatrix_ok w.nodup w.ne _ w.basis s hs
  have hcols := w.cols _ (List.getElem_mem hn')
  refine ⟨_, L, ⟨pp.coefficients[n].rows, L.rows, fun i j =>
    ∑ k ∈ Finset.range pp.coefficients[n].cols, pp.coefficients[n].e i k * L.e j k⟩, hget, hL, ?_,
    w.rows pp.coefficients[n] (List.getElem_mem hn'), hLr, ?_⟩
  · unfold Mat.dot
    rw [if_pos (by rw [hcols]; exact hLc.symm)]
    rfl
  · intro r P hP k hk
    rw [← w.piece_sum hP hget]
    simp only [hcols]
    apply Finset.sum_congr rfl
    intro j hj
    rw [hLe k hk j (Finset.mem_range.mp hj)]

/-- The value at one point. -/
theorem callAt_ok (w : pp.WF tau R) (s : Side) {n : ℕ} {x : K} (hx : InSide s pp.intervals n x) :
    ∃ V, pp.callAt s x = .ok V ∧ V.rows = R ∧ V.cols = 1 ∧
      ∀ r P, IsPiece tau pp n r P → V.e r 0 = P.eval x := by
  have hn : n + 1 < pp.intervals.length := by cases s <;> exact hx.1
  obtain ⟨c, L, V, hc, hL, hV, hr, hcol, hval⟩ := w.dot_ok hn
    [(x - nd pp.intervals n) / (nd pp.intervals (n + 1) - nd pp.intervals n)] (by simp)
  have hn' : n < pp.coefficients.length := by have := w.len; omega
  refine ⟨V, ?_, hr, hcol, ?_⟩
  · unfold PiecewisePoly.callAt
    simp only [clip_searchsorted w.asc s hx]
    rw [show ((n : ℤ) + 1) = ((n + 1 : ℕ) : ℤ) by push_cast; rfl, pyIndex_nat (by omega : n < pp.intervals.length),
      pyIndex_nat hn, pyIndex_nat hn']
    have hcn : pp.coefficients[n] = c := by simpa [hn'] using hc
    simp only [bind, Except.bind, ← nd_eq_getElem (show n < pp.intervals.length by omega),
      ← nd_eq_getElem hn, hL, hcn]
    exact hV
  · intro r P hP
    rw [hval r P hP 0 (by simp)]
    congr 1
    have := (w.h_pos hn).ne'
    simp only [nd, List.getD_cons_zero]
    field_simp
    ring

end PiecewisePoly.WF

theorem mapM_ok' {α β : Type*} (f : α → Except PyErr β) (l : List α) (Q : α → β → Prop)
    (h : ∀ a ∈ l, ∃ b, f a = .ok b ∧ Q a b) :
    ∃ r, l.mapM f = .ok r ∧ r.length = l.length ∧
      ∀ (i : ℕ) (hi : i < l.length) (hr : i < r.length), f l[i] = .ok r[i] ∧ Q l[i] r[i] := by
  induction l with
  | nil => exact ⟨[], rfl, rfl, fun i hi => by simp at hi⟩
  | cons a l ih =>
    obtain ⟨b, hb, hq⟩ := h a (by simp)
    obtain ⟨r, hr, hlen, hall⟩ := ih (fun x hx => h x (by simp [hx]))
    refine ⟨b :: r, by rw [List.mapM_cons, hb, hr]; rfl, by simp [hlen], ?_⟩
    intro i hi hri
    cases i with
    | zero => exact ⟨hb, hq⟩
    | succ i => exact hall i (by simpa using hi) (by simpa using hri)

theorem off_const {α : Type*} (len : α → ℕ) (l : List α) (m : ℕ) (h : ∀ a ∈ l, len a = m) {n : ℕ}
    (hn : n ≤ l.length) : off len l n = n * m := by
  induction n with
  | zero => simp [off_zero]
  | succ n ih =>
    rw [off_succ len l (by omega), ih (by omega), h _ (List.getElem_mem _)]; ring

end CE
