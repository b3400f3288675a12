import Verif.Num.Base
import Mathlib.LinearAlgebra.Matrix.NonsingularInverse
import Mathlib.LinearAlgebra.Matrix.ToLinearEquiv

/-!
# Linear solvers (`np.linalg.solve`, `cs.solve`) as external code

A solver is a parameter of the model.  `IsSolver` is its contract (part of the trusted base): on a square
nonsingular system it returns a solution of the right shape.  `exists_isSolver` shows that the contract can be met.
-/

namespace CE

variable {K : Type*} [Field K]

/-- A square matrix with trivial kernel. -/
def Mat.Nonsingular (A : Mat K) : Prop :=
  A.rows = A.cols ∧ ∀ v : ℕ → K, (∀ i < A.rows, ∑ k ∈ Finset.range A.cols, A.e i k * v k = 0) →
    ∀ k < A.cols, v k = 0

/-- Contract of a linear solver. -/
def IsSolver (solve : Mat K → Mat K → Except PyErr (Mat K)) : Prop :=
  ∀ A B : Mat K, A.Nonsingular → B.rows = A.rows →
    ∃ W, solve A B = .ok W ∧ W.rows = A.cols ∧ W.cols = B.cols ∧
      ∀ i < A.rows, ∀ q < B.cols, ∑ k ∈ Finset.range A.cols, A.e i k * W.e k q = B.e i q

theorem exists_solution (A B : Mat K) (hA : A.Nonsingular) :
    ∃ W : ℕ → ℕ → K, ∀ i < A.rows, ∀ q,
      ∑ k ∈ Finset.range A.cols, A.e i k * W k q = B.e i q := by
  classical
  obtain ⟨hsq, hinj⟩ := hA
  let M : Matrix (Fin A.cols) (Fin A.cols) K := fun i k => A.e i k
  have hdet : IsUnit M.det := by
    rw [isUnit_iff_ne_zero]
    intro h0
    obtain ⟨v, hv, hMv⟩ := Matrix.exists_mulVec_eq_zero_iff.mpr h0
    apply hv
    funext k
    have := hinj (fun k => if h : k < A.cols then v ⟨k, h⟩ else 0) (by
      intro i hi
      have := congrFun hMv ⟨i, hsq ▸ hi⟩
      simp only [Matrix.mulVec, dotProduct, Pi.zero_apply] at this
      rw [Finset.sum_range]
      simpa [M] using this) k k.2
    simpa using this
  refine ⟨fun k q => if h : k < A.cols then
    ∑ l, M⁻¹ ⟨k, h⟩ l * B.e l q else 0, ?_⟩
  intro i hi q
  have hmul : M * M⁻¹ = 1 := Matrix.mul_nonsing_inv M hdet
  rw [Finset.sum_range]
  simp only [Fin.is_lt, ↓reduceDIte, Fin.eta]
  have hi' : i < A.cols := hsq ▸ hi
  calc ∑ k : Fin A.cols, A.e i k * ∑ l, M⁻¹ k l * B.e l q
      = ∑ l, (∑ k, M ⟨i, hi'⟩ k * M⁻¹ k l) * B.e l q := by
        simp_rw [Finset.mul_sum, Finset.sum_mul]
        rw [Finset.sum_comm]
        simp [M, mul_assoc]
    _ = ∑ l, (1 : Matrix (Fin A.cols) (Fin A.cols) K) ⟨i, hi'⟩ l * B.e l q := by
        simp_rw [← hmul, Matrix.mul_apply]
    _ = B.e i q := by simp [Matrix.one_apply]

theorem exists_isSolver : ∃ solve : Mat K → Mat K → Except PyErr (Mat K), IsSolver solve := by
  classical
  refine ⟨fun A B => if h : A.Nonsingular then
    .ok ⟨A.cols, B.cols, (exists_solution A B h).choose⟩ else .error .value, ?_⟩
  intro A B hA _
  refine ⟨_, dif_pos hA, rfl, rfl, ?_⟩
  intro i hi q _
  exact (exists_solution A B hA).choose_spec i hi q

end CE
