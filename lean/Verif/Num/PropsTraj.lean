import Verif.Num.SystemTrajectory
import Verif.Num.PropsPdq3

/-!
# Property C23: `SystemTrajectory`
-/

open Polynomial

namespace CE

variable {K : Type} [Field K] [LinearOrder K] [IsStrictOrderedRing K]

/-- **C23** Accepted exactly when `x` has one column per collocation point and `z`, `u` one fewer. -/
theorem C23_ctor (cp : List K) (order : ℕ) (g : GoodScheme cp order) (t : List K) (p : Pdq K)
    (hp : Pdq.new (.ok cp) t order = .ok p) (x z u : Mat K) :
    (∃ s, SystemTrajectory.new x z u p = .ok s) ↔
      x.cols = p.collocationPoints.length ∧ z.cols + 1 = p.collocationPoints.length ∧
        u.cols + 1 = p.collocationPoints.length := by
  obtain ⟨fb, hfb, _⟩ := (C21_errors cp order g t p hp "both").1 (by simp)
  obtain ⟨fr, hfr, _⟩ := (C21_errors cp order g t p hp "right").1 (by simp)
  constructor
  · rintro ⟨s, hs⟩
    unfold SystemTrajectory.new at hs
    simp only at hs
    split_ifs at hs with h1 h2 h3
    omega
  · rintro ⟨h1, h2, h3⟩
    refine ⟨⟨u, x, z, fb, fr, fr, p⟩, ?_⟩
    unfold SystemTrajectory.new
    simp only
    rw [if_neg (by omega), if_neg (by omega), if_neg (by omega), hfb, hfr]
    rfl

/-- **C23** At any list of query points `state`, `algState` and `input` return, for every query that is a collocation point
(but the last for `algState` and `input`), the column supplied for this point; `time` is the grid of the `Pdq`. -/
theorem C23_reproduces (cp : List K) (order : ℕ) (g : GoodScheme cp order) (t : List K) (p : Pdq K)
    (hp : Pdq.new (.ok cp) t order = .ok p) (x z u : Mat K) (s : SystemTrajectory K)
    (hs : SystemTrajectory.new x z u p = .ok s) (q : List K) (hq : q ≠ []) :
    s.time = t ∧ ∃ X Z U, s.stateAt q = .ok X ∧ s.algStateAt q = .ok Z ∧ s.inputAt q = .ok U ∧
      X.rows = x.rows ∧ Z.rows = z.rows ∧ U.rows = u.rows ∧
      X.cols = q.length ∧ Z.cols = q.length ∧ U.cols = q.length ∧
      (∀ i < q.length, ∀ k < x.cols, nd q i = nd p.collocationPoints k → ∀ r, X.e r i = x.e r k) ∧
      (∀ i < q.length, ∀ k < z.cols, nd q i = nd p.collocationPoints k → ∀ r, Z.e r i = z.e r k) ∧
      (∀ i < q.length, ∀ k < u.cols, nd q i = nd p.collocationPoints k → ∀ r, U.e r i = u.e r k) := by
  obtain ⟨h1, h2, h3⟩ := (C23_ctor cp order g t p hp x z u).mp ⟨s, hs⟩
  obtain ⟨fx, X, hfx, _, hX, hXr, hXc, _, _, hXv, _⟩ := C21_both cp order g t p hp x h1 q hq
  obtain ⟨fz, Z, hfz, hZ, hZr, hZc, _, _, hZv, _⟩ := C21_right cp order g t p hp z h2 q hq
  obtain ⟨fu, U, hfu, hU, hUr, hUc, _, _, hUv, _⟩ := C21_right cp order g t p hp u h3 q hq
  rw [hfz] at hfu; cases hfu
  have hse : s = ⟨u, x, z, fx, fz, fz, p⟩ := by
    unfold SystemTrajectory.new at hs
    simp only at hs
    rw [if_neg (by omega), if_neg (by omega), if_neg (by omega), hfx, hfz] at hs
    cases hs; rfl
  subst hse
  refine ⟨(C17_grid cp order g t p hp).2.1, X, Z, U, hX, hZ, hU, hXr, hZr, hUr, hXc, hZc, hUc, hXv, hZv, hUv⟩

/-- Non-vacuity: a trajectory with two intervals, order 1. -/
example : ∃ p s, Pdq.new (.ok legendre1) [0, 1, 2] 1 = .ok p ∧
    SystemTrajectory.new (⟨2, 3, fun i j => (i : ℚ) + j⟩ : Mat ℚ) ⟨0, 2, fun _ _ => 0⟩ ⟨1, 2, fun _ j => j⟩ p = .ok s := by
  obtain ⟨p, hp, hpts, _⟩ := C18_refuted_legendre
  have := (C23_ctor legendre1 1 legendre1_good [0, 1, 2] p hp
    (⟨2, 3, fun i j => (i : ℚ) + j⟩ : Mat ℚ) ⟨0, 2, fun _ _ => 0⟩ ⟨1, 2, fun _ j => j⟩).mpr (by simp [hpts])
  obtain ⟨s, hs⟩ := this
  exact ⟨p, s, hp, hs⟩

end CE
