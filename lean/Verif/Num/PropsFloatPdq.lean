import Verif.Num.LemFloatPdq
import Verif.Num.PropsPdq
import Verif.Num.PropsFloat3
import Mathlib.Tactic.NormNum.BigOperators

/-!
# Property C117: the grids of `Pdq` and `cheb` with rounding errors
-/

open Polynomial

namespace CE

namespace Flt

variable {f : Flt}

theorem mapM_error {α β : Type*} (g : α → Except PyErr β) (e : PyErr) (l : List α) (h : ∀ a ∈ l, (∃ b, g a = .ok b) ∨ g a = .error e)
    (hx : ∃ a ∈ l, g a = .error e) : l.mapM g = .error e := by
  induction l with
  | nil => simp at hx
  | cons a l ih =>
    rw [List.mapM_cons]
    rcases h a (by simp) with ⟨b, hb⟩ | hb
    · have : l.mapM g = .error e := by
        apply ih (fun a' ha' => h a' (by simp [ha']))
        obtain ⟨a', ha', he⟩ := hx
        rcases List.mem_cons.mp ha' with rfl | h'
        · rw [hb] at he
          cases he
        · exact ⟨a', h', he⟩
      rw [hb, this]
      rfl
    · rw [hb]
      rfl

theorem pdqNew_error {cp t : List ℝ} {order : ℕ} (hl : cp.length = order + 1) {n : ℕ} (hn : n + 1 < t.length)
    (h : ¬ Ascending (f.points cp t n)) : f.pdqNew (.ok cp) t order = .error .assertion := by
  unfold pdqNew
  have : (List.range (t.length - 1)).mapM (f.intervalBasis (.ok cp) t order) = .error .assertion := by
    apply mapM_error
    · intro m hm
      obtain ⟨b, -, h1, h2⟩ := f.intervalBasis_iff hl (t := t) (n := m) (by have := List.mem_range.mp hm; omega)
      by_cases hc : Ascending (f.points cp t m)
      · exact Or.inl ⟨_, h1 hc⟩
      · exact Or.inr (h2 hc)
    · obtain ⟨b, -, h1, h2⟩ := f.intervalBasis_iff hl (t := t) hn
      exact ⟨n, List.mem_range.mpr (by omega), h2 h⟩
  simp only [this, bind, Except.bind]

theorem points_ascending_iff {cp t : List ℝ} {order : ℕ} (hl : cp.length = order + 1) {n : ℕ} :
    Ascending (f.points cp t n) ↔ ∀ j < order, f.scaled (nd t n) (nd t (n + 1)) (nd cp j) < f.scaled (nd t n) (nd t (n + 1)) (nd cp (j + 1)) := by
  unfold Ascending
  rw [points_length, hl]
  constructor
  · intro h j hj
    have := h j (by omega)
    rwa [nd_points (by omega), nd_points (by omega)] at this
  · intro h j hj
    rw [nd_points (by omega), nd_points (by omega)]
    exact h j (by omega)

/-- **C117** In floating point `Pdq(t)` succeeds exactly if there is an interval and the rounded points of every interval ascend strictly;
otherwise, for at least one interval, it raises AssertionError. -/
theorem C117_ctor (cp t : List ℝ) (order : ℕ) (hl : cp.length = order + 1) (hpos : 1 ≤ order) :
    (t.length ≤ 1 → f.pdqNew (.ok cp) t order = .error .name) ∧
    (2 ≤ t.length →
      let P := fun n j => f.rnd (f.rnd (nd cp j * f.rnd (nd t (n + 1) - nd t n)) + nd t n)
      ((∀ n, n + 1 < t.length → ∀ j < order, P n j < P n (j + 1)) → ∃ p, f.pdqNew (.ok cp) t order = .ok p) ∧
      ((∃ n, n + 1 < t.length ∧ ∃ j < order, P n (j + 1) ≤ P n j) → f.pdqNew (.ok cp) t order = .error .assertion)) := by
  refine ⟨fun h => ?_, fun h2 => ⟨fun h => ?_, ?_⟩⟩
  · unfold pdqNew
    rw [show t.length - 1 = 0 by omega]
    rfl
  · obtain ⟨p, hp, -⟩ := pdqNew_built (f := f) hl hpos (t := t) (fun n hn => (points_ascending_iff hl).mpr (h n hn)) h2
    exact ⟨p, hp⟩
  · rintro ⟨n, hn, j, hj, h⟩
    exact pdqNew_error hl hn fun hc => absurd ((points_ascending_iff hl).mp hc j hj) (not_lt.mpr h)

theorem built_of_ok {cp t : List ℝ} {order : ℕ} (hl : cp.length = order + 1) (hpos : 1 ≤ order) {p : Grid}
    (hp : f.pdqNew (.ok cp) t order = .ok p) :
    2 ≤ t.length ∧ (∀ n, n + 1 < t.length → Ascending (f.points cp t n)) ∧ p.Built f cp t order := by
  have h2 : 2 ≤ t.length := by
    by_contra h
    rw [(C117_ctor cp t order hl hpos).1 (by omega)] at hp
    cases hp
  have ha : ∀ n, n + 1 < t.length → Ascending (f.points cp t n) := by
    intro n hn
    by_contra hc
    rw [pdqNew_error hl hn hc] at hp
    cases hp
  obtain ⟨p', hp', w⟩ := pdqNew_built (f := f) hl hpos ha h2
  rw [hp] at hp'
  cases hp'
  exact ⟨h2, ha, w⟩

theorem GoodScheme_mem {cp : List ℝ} {order : ℕ} (g : GoodScheme cp order) {j : ℕ} (hj : j ≤ order) : 0 ≤ nd cp j ∧ nd cp j ≤ 1 := by
  have h0 := g.asc.le (i := 0) (j := j) (by omega) (by rw [g.len]; omega)
  have h1 := g.asc.le (i := j) (j := order) hj (by rw [g.len]; omega)
  rw [g.zero] at h0
  exact ⟨h0, h1.trans g.le_one⟩

/-- **C117 (partial)** The grid of a `Pdq` in floating point: the intervals begin exactly at the given bounds, the points ascend within each
interval and are close to the exact ones; the rows of the differentiation matrix hold the derivatives of the Lagrange polynomials of the points
of the interval, off the diagonal accurate relative to themselves, and zeros elsewhere.  If the last node is 1 and the length of the last
interval is a floating point number, the last point is exactly `t[-1]`.
Missing from the full claim (C17): the last point is `t[-1]` for every grid (`C117_end_refuted`), and the constructor succeeds for every
ascending grid (`C117_ctor_refuted`). -/
theorem C117_grid_partial (cp t : List ℝ) (order : ℕ) (g : GoodScheme cp order) (hfl : ∀ x ∈ t, f.IsFl x) (p : Grid)
    (hp : f.pdqNew (.ok cp) t order = .ok p) :
    p.intervalBounds = t ∧ p.polyOrder = order ∧ p.collocationPoints.length = (t.length - 1) * order + 1 ∧
    p.bigD.rows = (t.length - 1) * order + 1 ∧ p.bigD.cols = (t.length - 1) * order + 1 ∧ Ascending t ∧
    p.collocationGroups = (List.range (t.length - 1)).map (fun i => List.range' (i * order) (order + 1)) ∧
    (∀ n < t.length - 1, nd p.collocationPoints (n * order) = nd t n ∧
      (∀ j, j + 1 < order → nd p.collocationPoints (n * order + j) < nd p.collocationPoints (n * order + j + 1)) ∧
      ∀ j < order, |nd p.collocationPoints (n * order + j) - (nd t n + nd cp j * (nd t (n + 1) - nd t n))| ≤
        (1 / (1 - f.u) ^ 3 - 1) * (|nd t n| + (nd t (n + 1) - nd t n))) ∧
    p.tf = .ok (nd p.collocationPoints ((t.length - 1) * order)) ∧
    (nd cp order = 1 → |nd p.collocationPoints ((t.length - 1) * order) - nd t (t.length - 1)| ≤
        (1 / (1 - f.u) ^ 3 - 1) * (|nd t (t.length - 2)| + (nd t (t.length - 1) - nd t (t.length - 2))) ∧
      (f.IsFl (nd t (t.length - 1) - nd t (t.length - 2)) →
        nd p.collocationPoints ((t.length - 1) * order) = nd t (t.length - 1))) ∧
    ∀ n < t.length - 1, ∃ x : List ℝ, x.length = order + 1 ∧ Ascending x ∧
      (∀ j < order, nd x j = nd p.collocationPoints (n * order + j)) ∧
      (n + 2 = t.length → nd x order = nd p.collocationPoints ((t.length - 1) * order)) ∧
      (∀ j ≤ order, |nd x j - (nd t n + nd cp j * (nd t (n + 1) - nd t n))| ≤
        (1 / (1 - f.u) ^ 3 - 1) * (|nd t n| + (nd t (n + 1) - nd t n))) ∧
      ∀ j ≤ order, (j = order → n + 2 = t.length) →
        let D := fun k => (derivative (Lagrange.basis (Finset.range (order + 1)) (nd x) k)).eval (nd x j)
        (∀ k, ¬ (n * order ≤ k ∧ k ≤ n * order + order) → p.bigD.e (n * order + j) k = 0) ∧
        (∀ k ≤ order, k ≠ j → |p.bigD.e (n * order + j) (n * order + k) - D k| ≤ (1 / (1 - f.u) ^ (4 * order + 5) - 1) * |D k|) ∧
        |p.bigD.e (n * order + j) (n * order + j) - D j| ≤
          (1 / (1 - f.u) ^ (5 * order + 5) - 1) * ∑ k ∈ (Finset.range (order + 1)).erase j, |D k| := by
  obtain ⟨h2, ha, w⟩ := built_of_ok g.len g.pos hp
  have hpos := g.pos
  have hasc : Ascending t := by
    intro n hn
    by_contra hc
    have h1 := (points_ascending_iff g.len).mp (ha n hn) 0 (by omega)
    refine absurd h1 (not_lt.mpr (f.mono ((add_le_add_iff_right _).mpr (f.mono ?_))))
    refine mul_le_mul_of_nonpos_right (g.asc 0 (by rw [g.len]; omega)).le ?_
    exact Rounding.rnd_le_of_isFl (R := f.toRounding) Rounding.isFl_zero (by linarith)
  have hmem : ∀ n < t.length, f.IsFl (nd t n) := fun n hn => hfl _ (by rw [nd_eq_getElem hn]; exact List.getElem_mem _)
  have hne : p.collocationPoints ≠ [] := by intro h; have := w.plen; rw [h] at this; simp at this
  refine ⟨w.bounds, w.ord, w.plen, w.drows, w.dcols, hasc, w.groups, fun n hn => ⟨?_, ?_, ?_⟩, ?_, fun h1 => ⟨?_, fun hf => ?_⟩, ?_⟩
  · have := w.pts n hn 0 (by omega)
    rw [add_zero, g.zero, scaled_zero (hmem n (by omega))] at this
    exact this
  · intro j hj
    rw [w.pts n hn j (by omega), add_assoc, w.pts n hn (j + 1) hj]
    exact (points_ascending_iff g.len).mp (ha n (by omega)) j (by omega)
  · intro j hj
    rw [w.pts n hn j hj]
    have h := scaled_err (f := f) (a := nd t n) (b := nd t (n + 1)) (GoodScheme_mem g hj.le).1 (GoodScheme_mem g hj.le).2
    rwa [abs_of_pos (sub_pos.mpr (hasc n (by omega)))] at h
  · unfold Grid.tf
    rw [pyIndex_last _ hne, List.getLast_eq_getElem, nd_eq_getElem (by rw [w.plen]; omega)]
    simp [w.plen]
  · rw [w.last, h1]
    have h := scaled_err (f := f) (a := nd t (t.length - 2)) (b := nd t (t.length - 1)) zero_le_one le_rfl
    have e := hasc (t.length - 2) (by omega)
    rw [show t.length - 2 + 1 = t.length - 1 by omega] at e
    rwa [abs_of_pos (sub_pos.mpr e), one_mul, add_sub_cancel] at h
  · rw [w.last, h1]
    exact scaled_one_exact (hmem _ (by omega)) hf
  · intro n hn
    have hxl : (f.points cp t n).length = order + 1 := by rw [points_length, g.len]
    have hxne : f.points cp t n ≠ [] := by intro h; rw [h] at hxl; simp at hxl
    refine ⟨f.points cp t n, hxl, ha n (by omega), fun j hj => ?_, fun h => ?_, fun j hj => ?_, fun j hj hl => ?_⟩
    · rw [w.pts n hn j hj, nd_points (by rw [g.len]; omega)]
    · rw [w.last, nd_points (by rw [g.len]; omega), show t.length - 2 = n by omega, show t.length - 1 = n + 1 by omega]
    · rw [nd_points (by rw [g.len]; omega)]
      have h := scaled_err (f := f) (a := nd t n) (b := nd t (n + 1)) (GoodScheme_mem g hj).1 (GoodScheme_mem g hj).2
      rwa [abs_of_pos (sub_pos.mpr (hasc n (by omega)))] at h
    intro D
    have hnb : n < p.basis.length := by rw [w.blen]; omega
    have row : ∀ k, p.bigD.e (n * order + j) k =
        if n * order ≤ k ∧ k < n * order + (order + 1) then (p.basis[n]).D.e j (k - n * order) else 0 := by
      intro k
      rcases Nat.lt_or_ge j order with h | h
      · exact w.dval n hnb j h k
      · have hj' : j = order := by omega
        have hn' := hl hj'
        have key : ∀ m (hm : m < p.basis.length), m = t.length - 2 → p.bigD.e ((t.length - 1) * order) k =
            if m * order ≤ k ∧ k < m * order + (order + 1) then (p.basis[m]).D.e order (k - m * order) else 0 := by
          rintro m hm rfl
          exact w.dlast hm k
        rw [show n * order + j = (t.length - 1) * order by rw [hj', show t.length - 1 = n + 1 by omega]; ring, key n hnb (by omega), hj']
    obtain ⟨b, hb, -, -, hD⟩ := f.C112_differentiation (f.points cp t n) hxne (ha n (by omega)).nodup
    have hbe : p.basis[n] = b := by
      have := w.basis n hnb
      rw [hb] at this
      cases this
      rfl
    rw [hxl] at hD
    obtain ⟨d1, d2, -⟩ := hD j (by omega)
    rw [hbe] at row
    refine ⟨fun k hk => ?_, fun k hk hkj => ?_, ?_⟩
    · rw [row, if_neg (by omega)]
    · rw [row, if_pos (by omega), Nat.add_sub_cancel_left]
      exact d1 k (by omega) hkj
    · rw [row, if_pos (by omega), Nat.add_sub_cancel_left]
      exact d2

/-- **C117** If the steps of the grid are large in comparison to the rounding errors, the constructor succeeds, and all collocation points
ascend, also from one interval to the next. -/
theorem C117_separated (cp t : List ℝ) (order : ℕ) (g : GoodScheme cp order) (hfl : ∀ x ∈ t, f.IsFl x) (h2 : 2 ≤ t.length) (hasc : Ascending t)
    (hsep : ∀ n, n + 1 < t.length → ∀ j < order, 2 * (1 / (1 - f.u) ^ 3 - 1) * (|nd t n| + (nd t (n + 1) - nd t n)) <
      (nd cp (j + 1) - nd cp j) * (nd t (n + 1) - nd t n)) :
    ∃ p, f.pdqNew (.ok cp) t order = .ok p ∧ Ascending p.collocationPoints := by
  have hpos := g.pos
  have err : ∀ n, n + 1 < t.length → ∀ j ≤ order, |f.scaled (nd t n) (nd t (n + 1)) (nd cp j) -
      (nd t n + nd cp j * (nd t (n + 1) - nd t n))| ≤ f.γ 3 * (|nd t n| + (nd t (n + 1) - nd t n)) := by
    intro n hn j hj
    have h := scaled_err (f := f) (a := nd t n) (b := nd t (n + 1)) (GoodScheme_mem g hj).1 (GoodScheme_mem g hj).2
    rwa [abs_of_pos (sub_pos.mpr (hasc n hn))] at h
  have nonneg : ∀ n, n + 1 < t.length → 0 ≤ f.γ 3 * (|nd t n| + (nd t (n + 1) - nd t n)) := fun n hn =>
    mul_nonneg (f.γ_nonneg 3) (add_nonneg (abs_nonneg _) (sub_nonneg.mpr (hasc n hn).le))
  have sep : ∀ n, n + 1 < t.length → ∀ j < order, 2 * (f.γ 3 * (|nd t n| + (nd t (n + 1) - nd t n))) <
      (nd cp (j + 1) - nd cp j) * (nd t (n + 1) - nd t n) := fun n hn j hj => by rw [← mul_assoc]; exact hsep n hn j hj
  have lt : ∀ n, n + 1 < t.length → ∀ j < order,
      f.scaled (nd t n) (nd t (n + 1)) (nd cp j) < f.scaled (nd t n) (nd t (n + 1)) (nd cp (j + 1)) := by
    intro n hn j hj
    have h1 := (abs_le.mp (err n hn j hj.le)).2
    have h3 := (abs_le.mp (err n hn (j + 1) hj)).1
    have h4 := sep n hn j hj
    rw [sub_mul] at h4
    linarith
  obtain ⟨p, hp, w⟩ := pdqNew_built (f := f) g.len g.pos (t := t) (fun n hn => (points_ascending_iff g.len).mpr (lt n hn)) h2
  have first : ∀ n < t.length - 1, nd p.collocationPoints (n * order) = nd t n := by
    intro n hn
    have := w.pts n hn 0 (by omega)
    rw [add_zero, g.zero, scaled_zero (hfl _ (by rw [nd_eq_getElem (by omega : n < t.length)]; exact List.getElem_mem _))] at this
    exact this
  refine ⟨p, hp, fun i hi => ?_⟩
  rw [w.plen] at hi
  obtain ⟨n, j, hn, hj, rfl⟩ := split_pos hpos (show i < (t.length - 1) * order by omega)
  rw [w.pts n hn j hj]
  rcases Nat.lt_or_ge (j + 1) order with h | h
  · rw [add_assoc, w.pts n hn (j + 1) h]
    exact lt n (by omega) j hj
  · have hjo : j + 1 = order := by omega
    have he : n * order + j + 1 = (n + 1) * order := by rw [add_assoc, hjo]; ring
    rw [he]
    rcases Nat.lt_or_ge (n + 1) (t.length - 1) with h' | h'
    · rw [first (n + 1) h']
      have h1 := (abs_le.mp (err n (by omega) j hj.le)).2
      have h3 := sep n (by omega) j hj
      have h4 := nonneg n (by omega)
      have h5 := mul_le_mul_of_nonneg_right (GoodScheme_mem g (show j + 1 ≤ order by omega)).2 (sub_nonneg.mpr (hasc n (by omega)).le)
      rw [sub_mul] at h3
      linarith
    · rw [show n + 1 = t.length - 1 by omega, w.last, show t.length - 2 = n by omega, show t.length - 1 = n + 1 by omega, ← hjo]
      exact lt n (by omega) j hj

/-- **C117 (partial)** `cheb` in floating point, for the nodes `tau`: the first point is exactly `t0`, the points are close to the exact ones,
and so are the entries of the matrix.
Missing from the docstring's claim: `t[-1] == tf` (`C117_cheb_refuted`), which holds if `tf - t0` is a floating point number. -/
theorem C117_cheb_partial (tau : List ℝ) (N : ℕ) (hl : tau.length = N + 1) (hd : tau.Nodup) (h0 : nd tau 0 = 0)
    (h01 : ∀ j ≤ N, 0 ≤ nd tau j ∧ nd tau j ≤ 1) (t0 tf : ℝ) (hf0 : f.IsFl t0) (hf1 : f.IsFl tf) :
    ∃ D t, f.cheb (.ok tau) t0 tf = .ok (D, t) ∧ D.rows = N + 1 ∧ D.cols = N + 1 ∧ t.length = N + 1 ∧ nd t 0 = t0 ∧
      (∀ j ≤ N, |nd t j - (t0 + nd tau j * (tf - t0))| ≤ (1 / (1 - f.u) ^ 3 - 1) * (|t0| + |tf - t0|)) ∧
      (t0 ≤ tf → ∀ j ≤ N, ∀ k ≤ N, nd tau j ≤ nd tau k → nd t j ≤ nd t k) ∧
      (nd tau N = 1 → f.IsFl (tf - t0) → nd t N = tf) ∧
      ∀ j ≤ N,
        let d := fun k => (derivative (Lagrange.basis (Finset.range (N + 1)) (nd tau) k)).eval (nd tau j) / (tf - t0)
        (∀ k ≤ N, k ≠ j → |D.e j k - d k| ≤ (1 / (1 - f.u) ^ (4 * N + 7) - 1) * |d k|) ∧
        |D.e j j - d j| ≤ (1 / (1 - f.u) ^ (5 * N + 7) - 1) * ∑ k ∈ (Finset.range (N + 1)).erase j, |d k| := by
  have hne : tau ≠ [] := by intro h; rw [h] at hl; simp at hl
  obtain ⟨b, hb, hr, hc, hD⟩ := f.C112_differentiation tau hne hd
  have hnd : ∀ j ≤ N, nd (tau.map (f.scaled t0 tf)) j = f.scaled t0 tf (nd tau j) := fun j hj => nd_map _ (by omega)
  refine ⟨_, _, by unfold cheb; simp only [hb, bind, Except.bind, pure, Except.pure]; rfl, by simpa [hl] using hr, by simpa [hl] using hc,
    by simpa using hl, ?_, fun j hj => ?_, fun hle j hj k hk hjk => ?_, fun h1 hf => ?_, fun j hj => ?_⟩
  · rw [hnd 0 (by omega), h0, scaled_zero hf0]
  · rw [hnd j hj]
    exact scaled_err (h01 j hj).1 (h01 j hj).2
  · rw [hnd j hj, hnd k hk]
    refine f.mono ((add_le_add_iff_right _).mpr (f.mono ?_))
    exact mul_le_mul_of_nonneg_right hjk (Rounding.rnd_nonneg (sub_nonneg.mpr hle))
  · rw [hnd N le_rfl, h1]
    exact scaled_one_exact hf1 hf
  · intro d
    rw [hl] at hD
    obtain ⟨d1, d2, -⟩ := hD j (by omega)
    set L := fun k => (derivative (Lagrange.basis (Finset.range (N + 1)) (nd tau) k)).eval (nd tau j) with hL
    have hdk : ∀ k, d k = L k / (tf - t0) := fun k => rfl
    have gen : ∀ (k m : ℕ) (M : ℝ), |b.D.e j k - L k| ≤ f.γ m * M → |L k| ≤ M →
        |f.rnd (b.D.e j k / f.rnd (tf - t0)) - d k| ≤ f.γ (m + 2) * (M / |tf - t0|) := by
      intro k m M h1 h3
      have r : f.Rel 2 (f.rnd (b.D.e j k / f.rnd (tf - t0))) (b.D.e j k / (tf - t0)) :=
        (Rounding.Rel.rnd _).trans ((Rounding.Rel.refl (R := f.toRounding) _).div (Rounding.Rel.rnd _))
      have e1 := r.abs_sub
      have e2 : |b.D.e j k| ≤ (1 + f.γ m) * M := by
        have := abs_sub_abs_le_abs_sub (b.D.e j k) (L k)
        linarith
      have e3 : |b.D.e j k / (tf - t0) - d k| ≤ f.γ m * (M / |tf - t0|) := by
        rw [hdk, ← sub_div, abs_div, ← mul_div_assoc]
        exact div_le_div_of_nonneg_right h1 (abs_nonneg _)
      have e4 : |b.D.e j k / (tf - t0)| ≤ (1 + f.γ m) * (M / |tf - t0|) := by
        rw [abs_div, ← mul_div_assoc]
        exact div_le_div_of_nonneg_right e2 (abs_nonneg _)
      have e5 := mul_le_mul_of_nonneg_left e4 (f.γ_nonneg 2)
      have e6 := f.one_add_γ_add m 2
      have e7 : f.γ (m + 2) = f.γ m + f.γ 2 * (1 + f.γ m) := by linarith
      rw [e7, add_mul]
      have e8 := abs_sub_le (f.rnd (b.D.e j k / f.rnd (tf - t0))) (b.D.e j k / (tf - t0)) (d k)
      linarith
    refine ⟨fun k hk hkj => ?_, ?_⟩
    · have := gen k (4 * (N + 1) + 1) |L k| (d1 k (by omega) hkj) le_rfl
      rw [← abs_div, ← hdk] at this
      exact this
    · have hs : ∑ k ∈ Finset.range (N + 1), L k = 0 := sum_eval_derivative_basis (by
        have := nd_injOn hd
        rwa [hl] at this) ⟨j, by simp; omega⟩ _
      have hb' : |L j| ≤ ∑ k ∈ (Finset.range (N + 1)).erase j, |L k| := by
        rw [← Finset.sum_erase_add _ _ (Finset.mem_range.mpr (show j < N + 1 by omega))] at hs
        rw [show L j = -∑ k ∈ (Finset.range (N + 1)).erase j, L k by linarith, abs_neg]
        exact Finset.abs_sum_le_sum_abs _ _
      have := gen j (5 * (N + 1)) _ d2 hb'
      have e : ∑ k ∈ (Finset.range (N + 1)).erase j, |d k| = (∑ k ∈ (Finset.range (N + 1)).erase j, |L k|) / |tf - t0| := by
        rw [div_eq_mul_inv, Finset.sum_mul]
        exact Finset.sum_congr rfl fun k _ => by rw [hdk, abs_div, div_eq_mul_inv]
      rw [e]
      exact this

/-! ## Doubles -/

/-- `-1` and `0.1` are doubles. -/
theorem exT_fl : ∀ x ∈ [(-1 : ℝ), tenth], double.IsFl x := fun x hx => exPw_fl x (by
  simp only [List.mem_cons, List.not_mem_nil, or_false] at hx
  rcases hx with rfl | rfl <;> simp [exPw])

theorem exT_last : double.scaled (-1) tenth 1 = 225179981368525 / 2 ^ 51 := by
  unfold scaled
  rw [add_comm]
  exact exPw_end

/-- **C117, refuted** `Pdq([-1, 0.1])` with doubles: whatever the scheme with the last node 1, if the constructor succeeds the rightmost
collocation point `tf` is `0.10000000000000009` instead of `t[-1] = 0.1`. -/
theorem C117_end_refuted (cp : List ℝ) (order : ℕ) (g : GoodScheme cp order) (h1 : nd cp order = 1) (p : Grid)
    (hp : double.pdqNew (.ok cp) [-1, tenth] order = .ok p) :
    p.tf = .ok (225179981368525 / 2 ^ 51) ∧ (225179981368525 / 2 ^ 51 : ℝ) ≠ tenth ∧ pyIndex p.intervalBounds (-1) = .ok tenth := by
  obtain ⟨-, -, w⟩ := built_of_ok g.len g.pos hp
  have h3 := (C117_grid_partial cp _ order g exT_fl p hp).2.2.2.2.2.2.2.2.1
  refine ⟨?_, ?_, ?_⟩
  · rw [h3, w.last, h1]
    exact congrArg _ exT_last
  · unfold tenth
    norm_num
  · rw [w.bounds]
    rfl

/-- The constructor does succeed for the nodes 0, 1/2, 1. -/
example : ∃ p, double.pdqNew (.ok [0, 1 / 2, 1]) [-1, tenth] 2 = .ok p ∧ p.tf ≠ .ok tenth := by
  have g : GoodScheme [(0 : ℝ), 1 / 2, 1] 2 := ⟨rfl, by norm_num, by
    intro i hi
    simp only [List.length_cons, List.length_nil, Nat.reduceAdd] at hi
    have hi : i < _ := Nat.lt_of_succ_lt_succ hi
    interval_cases i <;> norm_num [nd], rfl, le_of_eq rfl⟩
  obtain ⟨p, hp, -⟩ := C117_separated (f := double) _ [-1, tenth] 2 g exT_fl (by simp) (by
    intro i hi
    simp only [List.length_cons, List.length_nil, Nat.reduceAdd] at hi
    have hi : i < _ := Nat.lt_of_succ_lt_succ hi
    interval_cases i
    norm_num [nd, tenth]) (by
    intro n hn j hj
    have hu : double.u = 1 / 2 ^ 53 := rfl
    simp only [List.length_cons, List.length_nil, Nat.reduceAdd] at hn
    have hn : n < _ := Nat.lt_of_succ_lt_succ hn
    interval_cases n
    interval_cases j <;> norm_num [nd, tenth, hu])
  have h := C117_end_refuted _ 2 g rfl p hp
  refine ⟨p, hp, ?_⟩
  rw [h.1]
  intro h'
  exact h.2.1 (Except.ok.inj h')

/-- **C117, refuted** The constructor does not succeed for every ascending grid: between the adjacent doubles 1 and `1 + 2^-52` there is no
room for a node in `(0, 1/4]`, as the Chebyshev scheme of any order above 2 has, and `Pdq` raises AssertionError. -/
theorem C117_ctor_refuted (cp : List ℝ) (order : ℕ) (g : GoodScheme cp order) (h1 : nd cp 1 ≤ 1 / 4) :
    Ascending [(1 : ℝ), 1 + 1 / 2 ^ 52] ∧ (∀ x ∈ [(1 : ℝ), 1 + 1 / 2 ^ 52], double.IsFl x) ∧
      double.pdqNew (.ok cp) [1, 1 + 1 / 2 ^ 52] order = .error .assertion := by
  have fl : ∀ (m : ℤ) (e : ℤ) (x : ℝ), |m| ≤ 2 ^ 53 → (m : ℝ) * 2 ^ e = x → double.IsFl x := by
    intro m e x hm hx
    rw [← hx]
    exact roundTo_fix (p := 53) (by norm_num) m e hm
  have hpos := g.pos
  refine ⟨?_, ?_, ?_⟩
  · intro i hi
    simp only [List.length_cons, List.length_nil, Nat.reduceAdd] at hi
    have hi : i < _ := Nat.lt_of_succ_lt_succ hi
    interval_cases i
    norm_num [nd]
  · intro x hx
    simp only [List.mem_cons, List.not_mem_nil, or_false] at hx
    rcases hx with rfl | rfl
    · exact double.one
    · exact fl (2 ^ 52 + 1) (-52) _ (by norm_num) (by norm_num)
  · refine ((C117_ctor (f := double) cp _ order g.len g.pos).2 (by simp)).2 ⟨0, by simp, 0, by omega, ?_⟩
    have e1 : double.rnd (nd [(1 : ℝ), 1 + 1 / 2 ^ 52] (0 + 1) - nd [(1 : ℝ), 1 + 1 / 2 ^ 52] 0) = 1 / 2 ^ 52 := by
      rw [show nd [(1 : ℝ), 1 + 1 / 2 ^ 52] (0 + 1) - nd [(1 : ℝ), 1 + 1 / 2 ^ 52] 0 = 1 / 2 ^ 52 by simp [nd]]
      exact fl 1 (-52) _ (by norm_num) (by norm_num)
    have e2 : double.rnd (nd cp (0 + 1) * (1 / 2 ^ 52)) ≤ 1 / 2 ^ 54 := by
      refine Rounding.rnd_le_of_isFl (R := double.toRounding) (fl 1 (-54) _ (by norm_num) (by norm_num)) ?_
      have : nd cp (0 + 1) ≤ 1 / 4 := h1
      linarith
    simp only [e1]
    rw [g.zero, zero_mul, double.zero, show nd [(1 : ℝ), 1 + 1 / 2 ^ 52] 0 = 1 from rfl]
    have e3 : double.rnd (1 / 2 ^ 54 + 1) = 1 := by
      have := roundTo_eq (p := 53) (x := 1 / 2 ^ 54 + 1) 0 (2 ^ 52) (by rw [abs_of_pos] <;> norm_num) (by rw [abs_of_pos] <;> norm_num)
        (by rw [abs_lt]; constructor <;> norm_num)
      show roundTo 53 _ = _
      rw [this]
      norm_num
    calc double.rnd (double.rnd (nd cp (0 + 1) * (1 / 2 ^ 52)) + 1) ≤ double.rnd (1 / 2 ^ 54 + 1) := double.mono (by linarith)
      _ = 1 := e3
      _ = double.rnd (0 + 1) := by rw [zero_add, double.one]

/-- The Chebyshev scheme of order 3 is such a scheme. -/
example : GoodScheme [(0 : ℝ), 1 / 4, 3 / 4, 1] 3 ∧ nd [(0 : ℝ), 1 / 4, 3 / 4, 1] 1 ≤ 1 / 4 :=
  ⟨⟨rfl, by norm_num, by
    intro i hi
    simp only [List.length_cons, List.length_nil, Nat.reduceAdd] at hi
    have hi : i < _ := Nat.lt_of_succ_lt_succ hi
    interval_cases i <;> norm_num [nd], rfl, le_of_eq rfl⟩, le_of_eq rfl⟩

/-- **C117, refuted** `cheb(N, -1, 0.1)` with doubles: the docstring's `t[-1] == tf` is false. -/
theorem C117_cheb_refuted (tau : List ℝ) (N : ℕ) (hl : tau.length = N + 1) (h1 : nd tau N = 1) :
    ∃ D t, double.cheb (.ok tau) (-1) tenth = .ok (D, t) ∧ t.length = N + 1 ∧ nd t N = 225179981368525 / 2 ^ 51 ∧ nd t N ≠ tenth := by
  have hne : tau ≠ [] := by intro h; rw [h] at hl; simp at hl
  have e : nd (tau.map (double.scaled (-1) tenth)) N = 225179981368525 / 2 ^ 51 := by
    rw [nd_map _ (by omega), h1, exT_last]
  refine ⟨_, _, by unfold cheb; simp only [double.polynomialBasis_ok hne, bind, Except.bind, pure, Except.pure]; rfl, by simpa using hl, e, ?_⟩
  rw [e]
  unfold tenth
  norm_num

/-- `cheb` on [0, 2] with doubles: both ends are exact. -/
example : ∃ D t, double.cheb (.ok [0, 1 / 2, 1]) 0 2 = .ok (D, t) ∧ nd t 0 = 0 ∧ nd t 2 = 2 := by
  have h2 : double.IsFl 2 := by
    have := double_nat (m := 2) (by norm_num)
    exact_mod_cast this
  obtain ⟨D, t, h, -, -, -, ha, -, -, hb, -⟩ := C117_cheb_partial (f := double) [0, 1 / 2, 1] 2 rfl (by norm_num) rfl
    (by intro j hj; interval_cases j <;> norm_num [nd]) 0 2 double.zero h2
  exact ⟨D, t, h, ha, hb rfl (by simpa using h2)⟩

end Flt

end CE
