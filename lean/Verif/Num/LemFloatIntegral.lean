import Verif.Num.FloatIntegral
import Verif.Num.PropsFloatDiff
import Verif.Num.PropsPdq2
import Mathlib.Analysis.SpecialFunctions.Integrals.Basic

/-!
# Lemmas for `Pdq.integral` in floating point
-/

open Polynomial

namespace CE

/-- A polynomial that vanishes in `x_0`, by the values of its derivative in `x_0, ..., x_{M-1}`. -/
theorem eval_eq_sum_integral {x : List ℝ} (hd : x.Nodup) {M : ℕ} (hx : x.length = M + 1) {P : ℝ[X]} (hP : P.degree < ((M + 1 : ℕ) : WithBot ℕ))
    (h0 : P.eval (nd x 0) = 0) (z : ℝ) :
    P.eval z = ∑ i ∈ Finset.range M, (derivative P).eval (nd x i) *
      ∫ s in nd x 0..z, (Lagrange.basis (Finset.range M) (nd x) i).eval s := by
  have hinj : Set.InjOn (nd x) (Finset.range M) := fun a ha b hb h =>
    nd_injOn hd (by simp at ha ⊢; omega) (by simp at hb ⊢; omega) h
  have hdeg : (derivative P).degree < ((Finset.range M).card : WithBot ℕ) := by
    rw [Finset.card_range]
    by_cases h : P = 0
    · rw [h, derivative_zero, degree_zero]
      exact WithBot.bot_lt_coe _
    · exact lt_of_lt_of_le (degree_derivative_lt h) (Order.le_of_lt_succ (by exact_mod_cast hP))
  have hint : ∫ s in nd x 0..z, (derivative P).eval s = P.eval z := by
    rw [intervalIntegral.integral_eq_sub_of_hasDerivAt (f := fun s => P.eval s) (fun s _ => P.hasDerivAt s)
      ((derivative P).continuous.intervalIntegrable _ _), h0, sub_zero]
  rw [← hint]
  have he := Lagrange.eq_interpolate hinj hdeg
  have hfun : ∀ s, (derivative P).eval s =
      ∑ i ∈ Finset.range M, (derivative P).eval (nd x i) * (Lagrange.basis (Finset.range M) (nd x) i).eval s := by
    intro s
    conv_lhs => rw [he]
    rw [Lagrange.interpolate_apply, eval_finset_sum]
    exact Finset.sum_congr rfl fun i _ => by rw [eval_mul, eval_C]
  rw [intervalIntegral.integral_congr fun s _ => hfun s, intervalIntegral.integral_finsetSum]
  · exact Finset.sum_congr rfl fun i _ => intervalIntegral.integral_const_mul _ _
  · intro i _
    exact ((Lagrange.basis (Finset.range M) (nd x) i).continuous.intervalIntegrable _ _).const_mul _

namespace Flt

variable {f : Flt}

/-- The loop of `integral`, when it does not raise. -/
theorem integral_fold (solve : Mat ℝ → Mat ℝ → Except PyErr (Mat ℝ)) {b : ℕ} (hs : f.Solves b solve) {order : ℕ} (dy : Mat ℝ) (l : List Basis)
    (hl : ∀ b ∈ l, b.tau.length = order + 1 ∧ b.D.rows = order + 1 ∧ b.D.cols = order + 1) (k0 : ℕ) (y0 : ℕ → ℝ) (ys : List (Mat ℝ))
    (s : ℕ × (ℕ → ℝ) × List (Mat ℝ)) (hf : l.foldlM (f.integralStep solve dy) (k0, y0, ys) = .ok s) :
    (1 ≤ l.length → k0 + l.length * order ≤ dy.cols) ∧ ∃ zs, s.2.2 = ys ++ zs ∧ zs.length = l.length ∧ (∀ z ∈ zs, z.rows = dy.rows ∧ z.cols = order) ∧
      ∀ (n : ℕ) (hn : n < l.length) (hn' : n < zs.length), ∀ r < dy.rows, ∃ w : ℕ → ℝ,
        (∀ k < order, (zs[n]).e r k = f.rnd (w k + prevCol y0 zs order n r)) ∧ ∀ j < order,
        |∑ k ∈ Finset.range order, (l[n]).D.e j (k + 1) * w k - dy.e r (k0 + n * order + j)| ≤
          f.γ b * ∑ k ∈ Finset.range order, |(l[n]).D.e j (k + 1) * w k| := by
  induction l generalizing k0 y0 ys with
  | nil =>
    simp only [List.foldlM_nil, pure, Except.pure, Except.ok.injEq] at hf
    subst hf
    exact ⟨by simp, [], by simp, rfl, by simp, by simp⟩
  | cons c l ih =>
    obtain ⟨h1, h2, h3⟩ := hl c (by simp)
    rw [List.foldlM_cons] at hf
    unfold integralStep at hf
    simp only [h1, Nat.add_sub_cancel] at hf
    by_cases hk : k0 + order > dy.cols
    · rw [if_pos hk] at hf
      cases hf
    rw [if_neg hk] at hf
    rcases hW : solve c.D.dropLastRowFirstCol (dy.colSlice k0 order).T with e | W
    · rw [hW] at hf
      cases hf
    obtain ⟨hWr, hWc, hWv⟩ := hs _ _ W (by simp [Mat.dropLastRowFirstCol, h2, h3]) (by
      simp [Mat.T, Mat.colSlice, Mat.dropLastRowFirstCol, h2]) hW
    have hWr' : W.rows = order := by rw [hWr]; simp [Mat.dropLastRowFirstCol, h3]
    have hWc' : W.cols = dy.rows := hWc
    simp only [hW, bind, Except.bind] at hf
    by_cases ho : W.rows = 0
    · rw [if_pos ho] at hf
      cases hf
    rw [if_neg ho] at hf
    simp only [pure, Except.pure] at hf
    set z : Mat ℝ := ⟨W.cols, W.rows, fun i j => f.rnd (W.e j i + y0 i)⟩ with hz
    obtain ⟨hc, zs, hzs, hzl, hzd, hv⟩ := ih (fun b' hb' => hl b' (by simp [hb'])) (k0 + order) (fun i => z.e i (z.cols - 1)) (ys ++ [z]) hf
    refine ⟨fun _ => ?_, z :: zs, by rw [hzs]; simp, by simp [hzl], ?_, ?_⟩
    · rw [List.length_cons, Nat.add_mul, one_mul]
      rcases Nat.eq_zero_or_pos l.length with h | h
      · rw [h]; omega
      · have := hc h
        omega
    · intro a ha
      rcases List.mem_cons.mp ha with rfl | ha
      · exact ⟨hWc', hWr'⟩
      · exact hzd a ha
    · intro n hn hn' r hr
      cases n with
      | zero =>
        refine ⟨fun k => W.e k r, fun k _ => by simp [hz, prevCol], fun j hj => ?_⟩
        have := hWv j (by simp [Mat.dropLastRowFirstCol, h2]; omega) r hr
        simp only [Mat.dropLastRowFirstCol, h3, Nat.add_sub_cancel, Mat.T, Mat.colSlice] at this
        simpa only [List.getElem_cons_zero, Nat.zero_mul, Nat.add_zero, Rounding.γ] using this
      | succ n =>
        obtain ⟨w, hw1, hw2⟩ := hv n (by simpa using hn) (by simpa using hn') r hr
        refine ⟨w, fun k hk => ?_, fun j hj => ?_⟩
        · simp only [List.getElem_cons_succ]
          rw [hw1 k hk]
          cases n with
          | zero => simp only [prevCol, List.getD_cons_zero, hz, hWr']
          | succ n => simp only [prevCol, List.getD_cons_succ]
        · simp only [List.getElem_cons_succ]
          rw [show k0 + (n + 1) * order + j = k0 + order + n * order + j by ring]
          exact hw2 j hj

/-- The loop of `integral` does not raise. -/
theorem integral_fold_ok (solve : Mat ℝ → Mat ℝ → Except PyErr (Mat ℝ)) {b : ℕ} (hs : f.Solves b solve)
    {order : ℕ} (hn : ∀ A B : Mat ℝ, A.rows = order → A.Nonsingular → B.rows = A.rows → ∃ W, solve A B = .ok W) (hpos : 1 ≤ order) (dy : Mat ℝ) (l : List Basis)
    (hl : ∀ b ∈ l, b.tau.length = order + 1 ∧ b.D.rows = order + 1 ∧ b.D.cols = order + 1 ∧ b.D.dropLastRowFirstCol.Nonsingular)
    (s : ℕ × (ℕ → ℝ) × List (Mat ℝ)) (hk : s.1 + l.length * order ≤ dy.cols) : ∃ s', l.foldlM (f.integralStep solve dy) s = .ok s' := by
  induction l generalizing s with
  | nil => exact ⟨s, rfl⟩
  | cons c l ih =>
    obtain ⟨h1, h2, h3, h4⟩ := hl c (by simp)
    rw [List.length_cons, Nat.add_mul, one_mul] at hk
    have hBr : (dy.colSlice s.1 order).T.rows = c.D.dropLastRowFirstCol.rows := by
      simp [Mat.T, Mat.colSlice, Mat.dropLastRowFirstCol, h2]
    obtain ⟨W, hW⟩ := hn c.D.dropLastRowFirstCol (dy.colSlice s.1 order).T (by simp [Mat.dropLastRowFirstCol, h2]) h4 hBr
    obtain ⟨hWr, -, -⟩ := hs _ _ W (by simp [Mat.dropLastRowFirstCol, h2, h3]) hBr hW
    have hWr' : W.rows = order := by rw [hWr]; simp [Mat.dropLastRowFirstCol, h3]
    rw [List.foldlM_cons]
    unfold integralStep
    simp only [h1, Nat.add_sub_cancel]
    rw [if_neg (by omega), hW]
    simp only [bind, Except.bind]
    rw [if_neg (by rw [hWr']; omega)]
    simp only [pure, Except.pure]
    exact ih (fun b' hb' => hl b' (by simp [hb'])) _ (by simp only; omega)

/-- The result of `integral`, when it does not raise. -/
theorem Grid.Built.integral_ok {p : Grid} {cp t : List ℝ} {order : ℕ} (w : p.Built f cp t order) (hl : cp.length = order + 1) (hpos : 1 ≤ order)
    (h2 : 2 ≤ t.length) (solve : Mat ℝ → Mat ℝ → Except PyErr (Mat ℝ)) {b : ℕ} (hs : f.Solves b solve) (dy y : Mat ℝ)
    (hy : Grid.integral f solve p dy = .ok y) :
    (t.length - 1) * order ≤ dy.cols ∧ y.rows = dy.rows ∧ y.cols = (t.length - 1) * order ∧
      ∀ (n : ℕ) (hn : n < p.basis.length), ∀ r < dy.rows, ∃ w : ℕ → ℝ,
        (∀ k < order, y.e r (n * order + k) = f.rnd (w k + (Mat.prependCol (fun _ => 0) y).e r (n * order))) ∧ ∀ j < order,
        |∑ k ∈ Finset.range order, (p.basis[n]).D.e j (k + 1) * w k - dy.e r (n * order + j)| ≤
          f.γ b * ∑ k ∈ Finset.range order, |(p.basis[n]).D.e j (k + 1) * w k| := by
  have hb : ∀ c ∈ p.basis, c.tau.length = order + 1 ∧ c.D.rows = order + 1 ∧ c.D.cols = order + 1 := by
    intro c hc
    obtain ⟨n, hn, rfl⟩ := List.mem_iff_getElem.mp hc
    obtain ⟨e1, e2, e3⟩ := basis_shape (w.basis n hn)
    rw [f.points_length, hl] at e2 e3
    exact ⟨by rw [e1, f.points_length, hl], e2, e3⟩
  unfold Grid.integral at hy
  rcases hf : p.basis.foldlM (f.integralStep solve dy) (0, fun _ => 0, []) with e | s
  · rw [hf] at hy; cases hy
  rw [hf] at hy
  simp only [bind, Except.bind, pure, Except.pure, Except.ok.injEq] at hy
  obtain ⟨hc, zs, hzs, hzl, hzd, hv⟩ := integral_fold solve hs dy p.basis hb 0 (fun _ => 0) [] s hf
  rw [List.nil_append] at hzs
  rw [hzs] at hy
  have hoff : ∀ n ≤ zs.length, off Mat.cols zs n = n * order := fun n hn => off_const _ zs order (fun z hz => (hzd z hz).2) hn
  have hyc : y.cols = (t.length - 1) * order := by rw [← hy, hcat_cols, hoff _ le_rfl, hzl, w.blen]
  refine ⟨?_, by rw [← hy]; exact hcat_rows _ _, hyc, fun n hn r hr => ?_⟩
  · have := hc (by rw [w.blen]; omega)
    rwa [w.blen, Nat.zero_add] at this
  have hn' : n < zs.length := by omega
  obtain ⟨v, hv1, hv2⟩ := hv n hn hn' r hr
  refine ⟨v, fun k hk => ?_, fun j hj => by simpa only [Nat.zero_add] using hv2 j hj⟩
  have h := hcat_e dy.rows zs hn' (j := k) (by rw [(hzd _ (List.getElem_mem hn')).2]; exact hk) r
  rw [hoff n hn'.le, hy] at h
  rw [h, hv1 k hk]
  congr 2
  cases n with
  | zero => simp [Mat.prependCol, prevCol]
  | succ n =>
    have hn'' : n < zs.length := by omega
    have h := hcat_e dy.rows zs hn'' (j := order - 1) (by rw [(hzd _ (List.getElem_mem hn'')).2]; omega) r
    rw [hoff n hn''.le, hy] at h
    have he : (n + 1) * order = n * order + order := by ring
    simp only [Mat.prependCol, prevCol]
    rw [if_neg (by omega), show (n + 1) * order - 1 = n * order + (order - 1) by omega, h]
    simp [List.getD_eq_getElem?_getD, hn'']

end Flt

end CE
