import Verif.Num.Pdq

/-!
# `SystemTrajectory` (system_trajectory.py:23-67)

Simplification: `np.atleast_2d` is applied before the model starts, i.e. `x`, `z`, `u` are 2-D arrays.
-/

namespace CE

variable {K : Type} [Field K] [LinearOrder K]

/-- Attributes of a `SystemTrajectory` (system_trajectory.py:44-50). -/
structure SystemTrajectory (K : Type) where
  input : Mat K
  state : Mat K
  algState : Mat K
  interpolatorX : PdqInterpolator K
  interpolatorZ : PdqInterpolator K
  interpolatorU : PdqInterpolator K
  pdq : Pdq K

namespace SystemTrajectory

/-- `SystemTrajectory.__init__` (system_trajectory.py:29-50). -/
def new (x z u : Mat K) (pdq : Pdq K) : Except PyErr (SystemTrajectory K) :=
  let nCollocation := pdq.collocationPoints.length
  if x.cols ≠ nCollocation then .error .assertion
  else if (z.cols : ℤ) ≠ nCollocation - 1 then .error .assertion
  else if (u.cols : ℤ) ≠ nCollocation - 1 then .error .assertion
  else do
    let iX ← pdq.interpolator "both"
    let iZ ← pdq.interpolator "right"
    let iU ← pdq.interpolator "right"
    pure { input := u, state := x, algState := z, interpolatorX := iX, interpolatorZ := iZ,
           interpolatorU := iU, pdq := pdq }

/-- system_trajectory.py:53-54 -/
def stateAt (s : SystemTrajectory K) (t : List K) : Except PyErr (Mat K) := s.interpolatorX.call s.state t

/-- system_trajectory.py:57-58 -/
def algStateAt (s : SystemTrajectory K) (t : List K) : Except PyErr (Mat K) := s.interpolatorZ.call s.algState t

/-- system_trajectory.py:61-62 -/
def inputAt (s : SystemTrajectory K) (t : List K) : Except PyErr (Mat K) := s.interpolatorU.call s.input t

/-- system_trajectory.py:65-67 -/
def time (s : SystemTrajectory K) : List K := s.pdq.intervalBounds

end SystemTrajectory

end CE
