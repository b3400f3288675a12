import Mathlib.Algebra.Field.Basic
import Mathlib.Algebra.BigOperators.Group.Finset.Basic
import Mathlib.Order.Basic

/-!
# Common base of the numeric model: Python errors and dense matrices

No file of `/repo` is modelled here; these are the carriers used by the model.
-/

namespace CE

/-- Python exceptions raised by the modelled code (`assert`, explicit `raise`, or raised by a numpy/CasADi
primitive for the stated reason).  Exceptions are values of the model. -/
inductive PyErr
  | assertion   -- AssertionError
  | value       -- ValueError
  | index       -- IndexError
  | key         -- KeyError
  | attribute   -- AttributeError
  | type        -- TypeError
  | name        -- NameError (e.g. `file`, which does not exist in Python 3)
  | zeroDiv     -- ZeroDivisionError
  | generic     -- Exception
  | runtime     -- RuntimeError raised by CasADi
  deriving DecidableEq, Repr

/-- A dense 2-D array (numpy `ndarray` of dimension 2, CasADi dense `DM`/`MX` read as values):
a shape and an entry function of which only the part inside the shape is meaningful. -/
structure Mat (K : Type*) where
  rows : ℕ
  cols : ℕ
  e : ℕ → ℕ → K

namespace Mat

variable {K : Type*}

/-- Two matrices agree: same shape and same entries inside the shape. -/
def Same (A B : Mat K) : Prop :=
  A.rows = B.rows ∧ A.cols = B.cols ∧ ∀ i < A.rows, ∀ j < A.cols, A.e i j = B.e i j

theorem Same.refl (A : Mat K) : A.Same A := ⟨rfl, rfl, fun _ _ _ _ => rfl⟩

theorem Same.symm {A B : Mat K} (h : A.Same B) : B.Same A :=
  ⟨h.1.symm, h.2.1.symm, fun i hi j hj => (h.2.2 i (h.1 ▸ hi) j (h.2.1 ▸ hj)).symm⟩

theorem Same.trans {A B C : Mat K} (h : A.Same B) (h' : B.Same C) : A.Same C :=
  ⟨h.1.trans h'.1, h.2.1.trans h'.2.1,
    fun i hi j hj => (h.2.2 i hi j hj).trans (h'.2.2 i (h.1 ▸ hi) j (h.2.1 ▸ hj))⟩

/-- Transpose (`.T`). -/
def T (A : Mat K) : Mat K := ⟨A.cols, A.rows, fun i j => A.e j i⟩

/-- A list of rows of equal length as a matrix (`np.vstack` of 1-D arrays, `cs.DM(list of lists)`). -/
def ofRows [Zero K] (cols : ℕ) (r : List (List K)) : Mat K :=
  ⟨r.length, cols, fun i j => (r.getD i []).getD j 0⟩

/-- Matrix product `np.dot(A, B)` / `cs.mtimes(A, B)` for 2-D arguments; raises ValueError on a shape mismatch. -/
def dot [AddCommMonoid K] [Mul K] (A B : Mat K) : Except PyErr (Mat K) :=
  if A.cols = B.rows then
    .ok ⟨A.rows, B.cols, fun i j => ∑ k ∈ Finset.range A.cols, A.e i k * B.e k j⟩
  else .error .value

/-- Columns `[a, a+n)` of a matrix (slice `A[:, a : a + n]` inside the shape). -/
def colSlice (A : Mat K) (a n : ℕ) : Mat K := ⟨A.rows, n, fun i j => A.e i (a + j)⟩

/-- `np.hstack`/`cs.horzcat` of a list of matrices with `rows` rows each: column `j` of the result is the
column of the block it falls into. -/
def hcat [Zero K] (rows : ℕ) : List (Mat K) → Mat K
  | [] => ⟨rows, 0, fun _ _ => 0⟩
  | A :: l => ⟨rows, A.cols + (hcat rows l).cols,
      fun i j => if j < A.cols then A.e i j else (hcat rows l).e i (j - A.cols)⟩

end Mat

/-- Element `i` of a 1-D array inside its length. -/
abbrev nd {K : Type*} [Zero K] (l : List K) (i : ℕ) : K := l.getD i 0

end CE
