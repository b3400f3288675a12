import Verif.Num.Pdq

/-!
# Calls and attributes (collocation.py:243-257, 345-369, 513-522, 569-625, system_trajectory.py:30)

How Python binds the arguments of a call to the parameters of a function, and the calls of `collocation.py` that go through a
signature with several parameters.  Values are of an arbitrary type.
-/

namespace CE

/-- A parameter: its name, and whether it has no default. -/
structure Param where
  name : String
  required : Bool

/-- Binding of arguments to parameters (Python): positional arguments first, then the keywords; TypeError for too many positional
arguments, for a keyword that is not the name of one of the remaining parameters, and for a parameter without default that gets no
argument.  `none` stands for the default.  The parameter `self` is left out. -/
def bindArgs {α : Type} (params : List Param) (pos : List α) (kw : List (String × α)) : Except PyErr (List (String × Option α)) :=
  if pos.length > params.length then .error .type
  else if kw.any fun k => k.1 ∉ (params.drop pos.length).map Param.name then .error .type
  else params.zipIdx.mapM fun p => match pos[p.2]? with
    | some v => .ok (p.1.name, some v)
    | none => match kw.lookup p.1.name with
      | some v => .ok (p.1.name, some v)
      | none => if p.1.required then .error .type else .ok (p.1.name, none)

/-- `CollocationScheme.__init__` (collocation.py:248-249) -/
def schemeSig : List Param := [⟨"dae", true⟩, ⟨"t", true⟩, ⟨"order", true⟩, ⟨"method", false⟩, ⟨"parallelization", false⟩,
  ⟨"tdp_fun", false⟩, ⟨"expand", false⟩, ⟨"repeat_param", false⟩, ⟨"options", false⟩]

/-- `CollocationIntegrator.__init__` (collocation.py:517) and `collocationIntegrator` (collocation.py:569) -/
def integratorSig : List Param := [⟨"name", true⟩, ⟨"dae", true⟩, ⟨"t", true⟩, ⟨"order", true⟩, ⟨"method", false⟩, ⟨"tdp_fun", false⟩]

/-- `SystemTrajectory.__init__` (system_trajectory.py:30) -/
def trajectorySig : List Param := [⟨"x", true⟩, ⟨"z", true⟩, ⟨"u", true⟩, ⟨"pdq", true⟩]

/-- The call of `CollocationScheme` in `CollocationIntegrator.__init__` (collocation.py:522) -/
def integratorCall {α : Type} (dae t order method tdp_fun : α) : Except PyErr (List (String × Option α)) :=
  bindArgs schemeSig [dae] [("t", t), ("order", order), ("method", method), ("tdp_fun", tdp_fun)]

/-- The call of `CollocationIntegrator` in `collocationIntegrator` (collocation.py:572) -/
def functionCall {α : Type} (name dae t order method tdp_fun : α) : Except PyErr (List (String × Option α)) :=
  bindArgs integratorSig [name, dae, t, order, method, tdp_fun] []

/-- The call of `CollocationScheme` in `CollocationSimulator.__init__` (collocation.py:585) -/
def simulatorCall {α : Type} (dae pdq tdp_fun : α) : Except PyErr (List (String × Option α)) :=
  bindArgs schemeSig [dae, pdq] [("tdp_fun", tdp_fun)]

/-- `CollocationSimulator.__init__` (collocation.py:579-612): the `Pdq`, then the call of `CollocationScheme`.  What follows is not
modelled (`rest` is what it returns or raises). -/
def simulatorNew {K α : Type} [Field K] [LinearOrder K] (cp : Except PyErr (List K)) (t : List K) (order : ℕ) (dae tdp_fun : α)
    (ofPdq : Pdq K → α) (rest : List (String × Option α) → Except PyErr α) : Except PyErr α := do
  let pdq ← Pdq.new cp t order
  let args ← simulatorCall dae (ofPdq pdq) tdp_fun
  rest args

/-- The end of `CollocationSimulator.simulate` (collocation.py:625): `ce.SystemTrajectory()` -/
def simulateReturn {α : Type} : Except PyErr (List (String × Option α)) := bindArgs trajectorySig [] []

/-- The attributes that `CollocationScheme.__init__` sets (collocation.py:345-362), in this order. -/
def schemeAttrs : List String := ["_N", "_M", "_eq", "_x", "_X", "_K", "_Z", "_U", "_u", "_quad", "_Q", "_q", "_p", "_tc", "_butcher",
  "_tdp", "_t"]

/-- The properties of `CollocationScheme` (collocation.py:365-486) and the attributes that they read. -/
def schemeProps : List (String × List String) := [("pdq", ["_pdq"]), ("t", ["_t"]), ("tc", ["_tc"]),
  ("numTotalCollocationPoints", ["_M", "_N"]), ("x", ["_x"]), ("X", ["_X"]), ("xdot", ["_K"]), ("K", ["_K"]), ("Z", ["_Z"]),
  ("U", ["_U"]), ("u", ["_u"]), ("p", ["_p"]), ("q", ["_q"]), ("Q", ["_Q"]), ("quad", ["_quad"]), ("eq", ["_eq"]),
  ("butcher", ["_butcher"])]

/-- Reading a property of a `CollocationScheme`: AttributeError for a name that is not a property, and if the property reads an
attribute that has not been set; otherwise the attributes it reads. -/
def readProp (name : String) : Except PyErr (List String) :=
  match schemeProps.lookup name with
  | none => .error .attribute
  | some as => if as.all (· ∈ schemeAttrs) then .ok as else .error .attribute

end CE
