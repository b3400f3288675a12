import Verif.Num.LemFloat2

/-! Lemmas about `discretize` with rounding errors. -/

open Polynomial

namespace CE

namespace Rounding

variable {R : Rounding}

theorem Rel.symm {m : ℕ} {a b : ℝ} (h : R.Rel m a b) : R.Rel m b a := by
  obtain ⟨g, h1, h2, rfl⟩ := h
  have hq : 0 < (1 - R.u) ^ m := pow_pos R.q_pos m
  have hg : 0 < g := hq.trans_le h1
  refine ⟨1 / g, ?_, one_div_le_one_div_of_le hq h1, by field_simp⟩
  rw [le_div_iff₀ hg]
  calc (1 - R.u) ^ m * g ≤ (1 - R.u) ^ m * (1 / (1 - R.u) ^ m) := mul_le_mul_of_nonneg_left h2 hq.le
    _ = 1 := by field_simp

theorem γ_mul_le (m k : ℕ) : R.γ m * (1 + R.γ k) ≤ R.γ (m + k) := by
  have := R.one_add_γ_add m k
  have := R.γ_nonneg k
  linarith

end Rounding

namespace Flt

variable {f : Flt}

/-- The relative samples of an interval: `σ` is ascending from 0 to 1. -/
theorem samples_ok {a b step : ℝ} (hab : a < b) (hs : 0 < step)
    (hnat : ∀ m : ℕ, (m : ℝ) < f.rnd (1 / f.rnd (step / f.rnd (b - a))) → f.IsFl m) :
    ∃ T σ last, ∃ hT : T ≠ [], f.arange01 (f.rnd (step / f.rnd (b - a))) = .ok T ∧ T.getLast hT = last ∧ last ≤ 1 ∧
      σ = (if last = 1 then T else T ++ [1]) ∧ 2 ≤ σ.length ∧ nd σ 0 = 0 ∧ nd σ (σ.length - 1) = 1 ∧
      (∀ k < σ.length, 0 ≤ nd σ k ∧ nd σ k ≤ 1) ∧
      ∀ k, k + 1 < σ.length → nd σ k ≤ nd σ (k + 1) ∧ nd σ (k + 1) - nd σ k ≤ step / (b - a) + 2 * f.γ 6 := by
  have hpos : 0 < b - a := sub_pos.mpr hab
  have hh : 0 < f.rnd (b - a) := Rounding.rnd_pos hpos
  have hδ : 0 < f.rnd (step / f.rnd (b - a)) := Rounding.rnd_pos (div_pos hs hh)
  have relδ : f.Rel 2 (f.rnd (step / f.rnd (b - a))) (step / (b - a)) :=
    (Rounding.Rel.rnd _).trans ((Rounding.Rel.refl (R := f.toRounding) step).div (Rounding.Rel.rnd _))
  set δ := f.rnd (step / f.rnd (b - a)) with hδd
  set δ' := step / (b - a) with hδ'
  have hδ'0 : 0 < δ' := div_pos hs hpos
  have hq : 0 < f.rnd (1 / δ) := Rounding.rnd_pos (by positivity)
  have hc : 0 < ⌈f.rnd (1 / δ)⌉ := Int.ceil_pos.mpr hq
  set N := ⌈f.rnd (1 / δ)⌉.toNat with hN
  have hNZ : (N : ℤ) = ⌈f.rnd (1 / δ)⌉ := Int.toNat_of_nonneg hc.le
  have hNR : (N : ℝ) = (⌈f.rnd (1 / δ)⌉ : ℝ) := by exact_mod_cast congrArg (Int.cast : ℤ → ℝ) hNZ
  have hN0 : 0 < N := by omega
  set T := (List.range N).map fun (i : ℕ) => f.rnd ((i : ℝ) * δ) with hTd
  have hTl : T.length = N := by simp [hTd]
  have hT : T ≠ [] := by intro h; rw [h] at hTl; simp at hTl; omega
  have hTk : ∀ k < N, nd T k = f.rnd ((k : ℝ) * δ) := fun k hk => nd_map_range _ hk
  have hlast : T.getLast hT = f.rnd (((N - 1 : ℕ) : ℝ) * δ) := by
    rw [List.getLast_eq_getElem]
    simp [hTd]
  have lt_q : ∀ k < N, (k : ℝ) < f.rnd (1 / δ) := by
    intro k hk
    have h1 := Int.ceil_lt_add_one (f.rnd (1 / δ))
    have h2 : (k : ℝ) + 1 ≤ N := by exact_mod_cast hk
    linarith
  have le_one : ∀ k < N, f.rnd ((k : ℝ) * δ) ≤ 1 := by
    intro k hk
    have h1 := lt_q k hk
    have h2 : (k : ℝ) ≤ 1 / δ := by
      by_contra h
      have := Rounding.rnd_le_of_isFl (hnat k h1) (not_le.mp h).le
      linarith
    refine Rounding.rnd_le_of_isFl Rounding.isFl_one ?_
    rwa [le_div_iff₀ hδ] at h2
  have T0 : nd T 0 = 0 := by
    rw [hTk 0 hN0, Nat.cast_zero, zero_mul, f.zero]
  have Tnn : ∀ k, 0 ≤ f.rnd ((k : ℕ) * δ : ℝ) := fun k => Rounding.rnd_nonneg (by positivity)
  have Tmono : ∀ k : ℕ, f.rnd ((k : ℝ) * δ) ≤ f.rnd (((k + 1 : ℕ) : ℝ) * δ) := fun k => f.mono (by push_cast; nlinarith)
  -- distance from the exact values
  have relT : ∀ k : ℕ, f.Rel 3 (f.rnd ((k : ℝ) * δ)) (k * δ') := fun k =>
    ((Rounding.Rel.rnd _).trans ((Rounding.Rel.refl (R := f.toRounding) (k : ℝ)).mul relδ)).mono (by omega)
  have errT : ∀ k < N, |f.rnd ((k : ℝ) * δ) - k * δ'| ≤ f.γ 6 := by
    intro k hk
    have h1 := (relT k).abs_sub
    have h2 := (relT k).symm.abs_le
    have h3 : |f.rnd ((k : ℝ) * δ)| ≤ 1 := by rw [abs_of_nonneg (Tnn k)]; exact le_one k hk
    have h4 := mul_le_mul_of_nonneg_left h3 (by have := f.γ_nonneg 3; linarith : 0 ≤ 1 + f.γ 3)
    have h5 := mul_le_mul_of_nonneg_left (h2.trans h4) (f.γ_nonneg 3)
    have h6 := Rounding.γ_mul_le (R := f.toRounding) 3 3
    linarith
  have gapT : ∀ k, k + 1 < N → f.rnd (((k + 1 : ℕ) : ℝ) * δ) - f.rnd ((k : ℝ) * δ) ≤ δ' + 2 * f.γ 6 := by
    intro k hk
    have h1 := abs_le.mp (errT k (by omega))
    have h2 := abs_le.mp (errT (k + 1) hk)
    push_cast at h2 ⊢
    linarith [h1.1, h2.2]
  have gap1 : 1 - f.rnd (((N - 1 : ℕ) : ℝ) * δ) ≤ δ' + 2 * f.γ 6 := by
    have h1 := abs_le.mp (errT (N - 1) (by omega))
    have h2 : f.rnd (1 / δ) ≤ N := by rw [hNR]; exact Int.le_ceil _
    have h3 : f.Rel 3 (f.rnd (1 / δ)) (1 / δ') :=
      ((Rounding.Rel.rnd _).trans ((Rounding.Rel.refl (R := f.toRounding) 1).div relδ)).mono (by omega)
    have h4 := h3.abs_sub
    rw [abs_of_pos (by positivity : 0 < 1 / δ')] at h4
    have h5 := (abs_le.mp h4).1
    have h6 : (1 - f.γ 3) * (1 / δ') ≤ N := by linarith
    rw [mul_one_div, div_le_iff₀ hδ'0] at h6
    have h7 : (((N - 1 : ℕ) : ℝ)) = N - 1 := by rw [Nat.cast_sub (by omega), Nat.cast_one]
    rw [h7] at h1 ⊢
    have h8 : f.γ 3 ≤ f.γ 6 := f.γ_mono (by omega)
    have h9 := h1.1
    linarith
  refine ⟨T, _, _, hT, ?_, rfl, ?_, rfl, ?_⟩
  · unfold arange01
    rw [if_neg hδ.ne']
  · rw [hlast]
    exact le_one _ (by omega)
  · rw [hlast]
    by_cases h1 : f.rnd (((N - 1 : ℕ) : ℝ) * δ) = 1
    · rw [if_pos h1, hTl]
      have hN1 : N ≠ 1 := by
        intro h
        rw [h, Nat.sub_self, Nat.cast_zero, zero_mul, f.zero] at h1
        exact zero_ne_one h1
      refine ⟨by omega, T0, by rw [hTk _ (by omega), h1], fun k hk => ?_, fun k hk => ?_⟩
      · rw [hTk k hk]
        exact ⟨Tnn k, le_one k hk⟩
      · rw [hTk k (by omega), hTk (k + 1) hk]
        exact ⟨Tmono k, gapT k hk⟩
    · rw [if_neg h1, List.length_append, hTl, List.length_singleton, Nat.add_sub_cancel]
      have hk1 : ∀ k < N, nd (T ++ [1]) k = f.rnd ((k : ℝ) * δ) := by
        intro k hk
        rw [← hTk k hk]
        simp [nd, List.getD_eq_getElem?_getD, List.getElem?_append, hTl, hk]
      have hk2 : nd (T ++ [1]) N = 1 := by
        simp [nd, List.getD_eq_getElem?_getD, List.getElem?_append, hTl]
      refine ⟨by omega, by rw [hk1 0 hN0, ← hTk 0 hN0, T0], hk2, fun k hk => ?_, fun k hk => ?_⟩
      · rcases Nat.lt_or_ge k N with h | h
        · rw [hk1 k h]
          exact ⟨Tnn k, le_one k h⟩
        · rw [show k = N by omega, hk2]
          exact ⟨zero_le_one, le_rfl⟩
      · rcases Nat.lt_or_ge (k + 1) N with h | h
        · rw [hk1 k (by omega), hk1 (k + 1) h]
          exact ⟨Tmono k, gapT k h⟩
        · rw [hk1 k (by omega), show k + 1 = N by omega, hk2, show k = N - 1 by omega]
          exact ⟨le_one _ (by omega), gap1⟩

namespace Piecewise.WF

variable {pp : Piecewise} {tau : List ℝ} {R : ℕ}

/-- The samples of one interval. -/
theorem discretizeAt_ok (w : pp.WF f tau R) {step : ℝ} (hs : 0 < step) {n : ℕ} (hn : n + 1 < pp.intervals.length)
    (hnat : ∀ m : ℕ, (m : ℝ) < f.rnd (1 / f.rnd (step / f.rnd (nd pp.intervals (n + 1) - nd pp.intervals n))) → f.IsFl m) :
    ∃ xs σ c y, f.discretizeAt pp step n = .ok (xs, y) ∧ 2 ≤ xs.length ∧ y.rows = R ∧ y.cols = xs.length ∧ σ.length = xs.length ∧
      nd σ 0 = 0 ∧ nd σ (xs.length - 1) = 1 ∧ (∀ k < xs.length, 0 ≤ nd σ k ∧ nd σ k ≤ 1) ∧
      (∀ k, k + 1 < xs.length → nd σ k ≤ nd σ (k + 1) ∧
        nd σ (k + 1) - nd σ k ≤ step / (nd pp.intervals (n + 1) - nd pp.intervals n) + 2 * f.γ 6) ∧
      (∀ k < xs.length,
        nd xs k = f.rnd (nd pp.intervals n + f.rnd (nd σ k * f.rnd (nd pp.intervals (n + 1) - nd pp.intervals n)))) ∧
      pp.coefficients[n]? = some c ∧ ∀ k < xs.length, ∀ r, f.EvalOk tau (c.e r) (nd σ k) (y.e r k) := by
  have hn' : n < pp.coefficients.length := by have := w.len; omega
  obtain ⟨T, σ, last, hT, har, hl, hl1, hσ, h2, h3, h4, h5, h6⟩ := samples_ok (w.asc n hn) hs hnat
  have hσne : σ ≠ [] := by intro h; rw [h] at h2; simp at h2
  obtain ⟨L, V, hL, hV, hr, hcol, hval⟩ := dot_ok w.ne w.nodup pp.basis w.basis pp.coefficients[n] (w.cols _ (List.getElem_mem hn')) σ hσne
  refine ⟨σ.map (fun s => f.rnd (nd pp.intervals n + f.rnd (s * f.rnd (nd pp.intervals (n + 1) - nd pp.intervals n)))), σ,
    pp.coefficients[n], V, ?_, by simpa using h2, hr.trans (w.rows _ (List.getElem_mem hn')), by rw [hcol, List.length_map], by simp, h3,
    by simpa using h4, by simpa using h5, by simpa using h6, ?_, by simp [hn'], by simpa using hval⟩
  · unfold discretizeAt
    rw [show ((n : ℤ) + 1) = ((n + 1 : ℕ) : ℤ) by push_cast; rfl,
      pyIndex_nat (by omega : n < pp.intervals.length), pyIndex_nat hn, pyIndex_nat hn']
    simp only [bind, Except.bind]
    rw [← nd_eq_getElem hn, ← nd_eq_getElem (show n < pp.intervals.length by omega), har]
    simp only
    rw [pyIndex_last T hT, hl]
    simp only
    by_cases h1 : last = 1
    · rw [if_pos h1] at hσ
      rw [if_neg (not_not.mpr h1)]
      simp only [← hσ, hL, hV]
      rfl
    · rw [if_neg h1] at hσ
      rw [if_pos h1, if_pos (lt_of_le_of_ne hl1 h1)]
      simp only [← hσ, hL, hV]
      rfl
  · intro k hk
    rw [List.length_map] at hk
    simp only [nd, List.getD_eq_getElem?_getD, List.getElem?_map, List.getElem?_eq_getElem hk, Option.map_some, Option.getD_some]

/-- All samples: the positions `o n, …, o (n + 1) - 1` belong to interval `n`. -/
theorem discretize_ok (w : pp.WF f tau R) {step : ℝ} (hs : 0 < step)
    (hnat : ∀ n, n + 1 < pp.intervals.length → ∀ m : ℕ,
      (m : ℝ) < f.rnd (1 / f.rnd (step / f.rnd (nd pp.intervals (n + 1) - nd pp.intervals n))) → f.IsFl m) :
    ∃ x y, ∃ o : ℕ → ℕ, ∃ σ : ℕ → ℝ, f.discretize pp step = .ok (x, y) ∧ y.rows = R ∧ y.cols = x.length ∧
      o 0 = 0 ∧ o (pp.intervals.length - 1) = x.length ∧
      ∀ n, n + 1 < pp.intervals.length → o n + 2 ≤ o (n + 1) ∧ σ (o n) = 0 ∧ σ (o (n + 1) - 1) = 1 ∧
        (∀ k, o n ≤ k → k < o (n + 1) → 0 ≤ σ k ∧ σ k ≤ 1 ∧
          nd x k = f.rnd (nd pp.intervals n + f.rnd (σ k * f.rnd (nd pp.intervals (n + 1) - nd pp.intervals n)))) ∧
        (∀ k, o n ≤ k → k + 1 < o (n + 1) → σ k ≤ σ (k + 1) ∧
          σ (k + 1) - σ k ≤ step / (nd pp.intervals (n + 1) - nd pp.intervals n) + 2 * f.γ 6) ∧
        ∃ c, pp.coefficients[n]? = some c ∧ ∀ k, o n ≤ k → k < o (n + 1) → ∀ r, f.EvalOk tau (c.e r) (σ k) (y.e r k) := by
  have h2 := w.two
  obtain ⟨l, hl, hlen, hall⟩ := mapM_ok' (f.discretizeAt pp step) (List.range (pp.intervals.length - 1))
    (fun n b => ∃ (σ : List ℝ) (c : Mat ℝ), 2 ≤ b.1.length ∧ b.2.rows = R ∧ b.2.cols = b.1.length ∧ σ.length = b.1.length ∧
      nd σ 0 = 0 ∧ nd σ (b.1.length - 1) = 1 ∧ (∀ k < b.1.length, 0 ≤ nd σ k ∧ nd σ k ≤ 1) ∧
      (∀ k, k + 1 < b.1.length → nd σ k ≤ nd σ (k + 1) ∧
        nd σ (k + 1) - nd σ k ≤ step / (nd pp.intervals (n + 1) - nd pp.intervals n) + 2 * f.γ 6) ∧
      (∀ k < b.1.length,
        nd b.1 k = f.rnd (nd pp.intervals n + f.rnd (nd σ k * f.rnd (nd pp.intervals (n + 1) - nd pp.intervals n)))) ∧
      pp.coefficients[n]? = some c ∧ ∀ k < b.1.length, ∀ r, f.EvalOk tau (c.e r) (nd σ k) (b.2.e r k)) (by
      intro n hn
      rw [List.mem_range] at hn
      obtain ⟨xs, σ, c, y, h1, h2⟩ := w.discretizeAt_ok hs (n := n) (by omega) (hnat n (by omega))
      exact ⟨(xs, y), h1, σ, c, h2⟩)
  rw [List.length_range] at hlen
  have hB : ∀ n : ℕ, ∃ (σ : List ℝ) (c : Mat ℝ), ∀ hn : n < l.length,
      2 ≤ l[n].1.length ∧ l[n].2.rows = R ∧ l[n].2.cols = l[n].1.length ∧ σ.length = l[n].1.length ∧
      nd σ 0 = 0 ∧ nd σ (l[n].1.length - 1) = 1 ∧ (∀ k < l[n].1.length, 0 ≤ nd σ k ∧ nd σ k ≤ 1) ∧
      (∀ k, k + 1 < l[n].1.length → nd σ k ≤ nd σ (k + 1) ∧
        nd σ (k + 1) - nd σ k ≤ step / (nd pp.intervals (n + 1) - nd pp.intervals n) + 2 * f.γ 6) ∧
      (∀ k < l[n].1.length,
        nd l[n].1 k = f.rnd (nd pp.intervals n + f.rnd (nd σ k * f.rnd (nd pp.intervals (n + 1) - nd pp.intervals n)))) ∧
      pp.coefficients[n]? = some c ∧ ∀ k < l[n].1.length, ∀ r, f.EvalOk tau (c.e r) (nd σ k) (l[n].2.e r k) := by
    intro n
    by_cases hn : n < l.length
    · have := (hall n (by rw [List.length_range]; omega) hn).2
      simp only [List.getElem_range] at this
      obtain ⟨σ, c, h⟩ := this
      exact ⟨σ, c, fun _ => h⟩
    · exact ⟨[], ⟨0, 0, fun _ _ => 0⟩, fun h => absurd h hn⟩
  choose S c hB using hB
  have hlne : l ≠ [] := by intro h0; rw [h0] at hlen; simp at hlen; omega
  set xs := l.map Prod.fst with hxs
  set ys := l.map Prod.snd with hys
  set ss := (List.range l.length).map S with hss
  have hxsl : xs.length = l.length := by simp [hxs]
  have hysl : ys.length = l.length := by simp [hys]
  have hssl : ss.length = l.length := by simp [hss]
  have hoff : ∀ n ≤ l.length, off Mat.cols ys n = off List.length xs n := by
    intro n hn
    induction n with
    | zero => simp [off_zero]
    | succ n ih =>
      rw [off_succ _ _ (by omega), off_succ _ _ (by omega), ih (by omega)]
      simp only [hxs, hys, List.getElem_map, (hB n (by omega)).2.2.1]
  have hoffs : ∀ n ≤ l.length, off List.length ss n = off List.length xs n := by
    intro n hn
    induction n with
    | zero => simp [off_zero]
    | succ n ih =>
      rw [off_succ _ _ (by omega), off_succ _ _ (by omega), ih (by omega)]
      simp only [hxs, hss, List.getElem_map, List.getElem_range, (hB n (by omega)).2.2.2.1]
  set o := off List.length xs with ho
  have hosucc : ∀ (n : ℕ) (hn : n < l.length), o (n + 1) = o n + l[n].1.length := by
    intro n hn
    rw [ho, off_succ _ _ (by omega)]
    simp [hxs]
  have hx : ∀ (n : ℕ) (hn : n < l.length) (j : ℕ), j < l[n].1.length → nd xs.flatten (o n + j) = nd l[n].1 j := by
    intro n hn j hj
    have := nd_flatten xs (n := n) (by omega) (j := j) (by simpa [hxs] using hj)
    rw [ho, this]; simp [hxs]
  have hσ : ∀ (n : ℕ) (hn : n < l.length) (j : ℕ), j < l[n].1.length → nd ss.flatten (o n + j) = nd (S n) j := by
    intro n hn j hj
    have := nd_flatten ss (n := n) (by omega) (j := j) (by simpa [hss, (hB n hn).2.2.2.1] using hj)
    rw [← hoffs n hn.le, this]; simp [hss]
  have hxlen : xs.flatten.length = o l.length := by rw [flatten_length, hxsl]
  refine ⟨xs.flatten, Mat.hcat R ys, o, nd ss.flatten, ?_, hcat_rows _ _, ?_, by simp [ho, off_zero], by rw [hxlen, hlen], ?_⟩
  · unfold discretize
    rw [hl]
    simp only [bind, Except.bind]
    rw [hstack_ok (R := R) (by simpa using hlne) (by
      intro A hA
      obtain ⟨b, hb, rfl⟩ := List.mem_map.mp hA
      obtain ⟨i, hi, rfl⟩ := List.mem_iff_getElem.mp hb
      exact (hB i hi).2.1)]
    rfl
  · rw [hcat_cols, hysl, hoff _ le_rfl, hxlen]
  · intro n hn
    have hn' : n < l.length := by omega
    obtain ⟨b1, b2, b3, b4, b5, b6, b7, b8, b9, b10, b11⟩ := hB n hn'
    refine ⟨by rw [hosucc n hn']; omega, ?_, ?_, ?_, ?_, c n, b10, ?_⟩
    · have := hσ n hn' 0 (by omega)
      rwa [add_zero, b5] at this
    · have := hσ n hn' (l[n].1.length - 1) (by omega)
      rw [hosucc n hn', Nat.add_sub_assoc (by omega), this, b6]
    · intro k hk1 hk2
      rw [hosucc n hn'] at hk2
      have e1 := hx n hn' (k - o n) (by omega)
      have e2 := hσ n hn' (k - o n) (by omega)
      rw [show o n + (k - o n) = k by omega] at e1 e2
      rw [e1, e2]
      exact ⟨(b7 _ (by omega)).1, (b7 _ (by omega)).2, b9 _ (by omega)⟩
    · intro k hk1 hk2
      rw [hosucc n hn'] at hk2
      have e1 := hσ n hn' (k - o n) (by omega)
      have e2 := hσ n hn' (k + 1 - o n) (by omega)
      rw [show o n + (k - o n) = k by omega] at e1
      rw [show o n + (k + 1 - o n) = k + 1 by omega] at e2
      rw [e1, e2, show k + 1 - o n = k - o n + 1 by omega]
      exact b8 _ (by omega)
    · intro k hk1 hk2 r
      rw [hosucc n hn'] at hk2
      have e1 := hσ n hn' (k - o n) (by omega)
      rw [show o n + (k - o n) = k by omega] at e1
      have e2 := hcat_e R ys (n := n) (by omega) (j := k - o n)
        (by simp only [hys, List.getElem_map]; rw [b3]; omega) r
      rw [hoff n (by omega), show o n + (k - o n) = k by omega] at e2
      rw [e1, e2]
      simp only [hys, List.getElem_map]
      exact b11 _ (by omega) r

end Piecewise.WF

end Flt

end CE
