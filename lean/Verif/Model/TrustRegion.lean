import Verif.Model.Steps

/-!
# Model of `fides/stepback.py` and `fides/trust_region.py`
-/

namespace Fides
variable {F : Type} [FloatOps F] {n : Nat}

/-- the `for` loop of `stepback_reflect` (stepback.py:61-70), `k` iterations left; returns the steps appended -/
def reflectLoop (O : Oracles F) (P : Prob F n) : Nat → Step F n → Except PyErr (List (Step F n))
  | 0, _ => .ok []
  | k + 1, cur =>
    if feq cur.alpha (lit 1) then .ok []                                                -- 62-63
    else
      match stepReflected O P cur with
      | .error e => .error e
      | .ok st =>
        match reflectLoop O P k st with
        | .error e => .error e
        | .ok rest => .ok (st :: rest)

/-- `stepback_reflect`, stepback.py:15-72 -/
def stepbackReflect (O : Oracles F) (P : Prob F n) (tr : Step F n) : Except PyErr (List (Step F n)) :=
  match stepReflected O P tr with
  | .error e => .error e
  | .ok st =>
    match reflectLoop O P (n - 1) st with
    | .error e => .error e
    | .ok rest => .ok (st :: rest)

/-- the `while` loop of `stepback_truncate` (stepback.py:121-128); `diverges` when the fuel runs out -/
def truncateLoop (O : Oracles F) (P : Prob F n) : Nat → Step F n → Except PyErr (List (Step F n))
  | 0, cur => if cur.subspace.isEmpty || feq cur.alpha (lit 1) then .ok [] else .error .diverges
  | k + 1, cur =>
    if cur.subspace.isEmpty then .ok []                                                 -- 121
    else if feq cur.alpha (lit 1) then .ok []                                           -- 122-123
    else
      match stepTruncated O P cur with
      | .error e => .error e
      | .ok st =>
        match truncateLoop O P k st with
        | .error e => .error e
        | .ok rest => .ok (st :: rest)

/-- `stepback_truncate`, stepback.py:75-130 -/
def stepbackTruncate (O : Oracles F) (P : Prob F n) (fuel : Nat) (tr : Step F n) : Except PyErr (List (Step F n)) :=
  match stepTruncated O P tr with
  | .error e => .error e
  | .ok st =>
    match truncateLoop O P fuel st with
    | .error e => .error e
    | .ok rest => .ok (st :: rest)

/-- `SubSpaceDim` (constants.py:40-48); `other` is a string that names no member -/
inductive SubSpaceDim where
  | two | full | steihaug | other
  deriving DecidableEq, Repr

/-- `StepBackStrategy` (constants.py:51-62); `other` is a string that names no member -/
inductive StepBackStrategy where
  | singleReflect | reflect | truncate | mixed | refine | other
  deriving DecidableEq, Repr

/-- `step_options[subspace_dim](...)`, `calculate()` (trust_region.py:83-91); an unknown name is a KeyError -/
def trStep (O : Oracles F) (fuel : Nat) (P : Prob F n) : SubSpaceDim → Except PyErr (Step F n)
  | .two => step2d O P
  | .full => stepFull O P
  | .steihaug => stepSteihaug fuel P
  | .other => .error .keyError

/-- candidates added by the step-back strategy (trust_region.py:104-157) -/
def stepbackCandidates (O : Oracles F) (fuel : Nat) (P : Prob F n) (strat : StepBackStrategy) (tr : Step F n) :
    Except PyErr (List (Step F n)) :=
  match strat with
  | .singleReflect =>                                                                   -- 104-109
    match stepReflected O P tr with
    | .error e => .error e
    | .ok st => .ok [st]
  | .reflect => stepbackReflect O P tr                                                  -- 111-128
  | .truncate => stepbackTruncate O P fuel tr                                           -- 130-147
  | .mixed =>
    match stepbackReflect O P tr with
    | .error e => .error e
    | .ok a =>
      match stepbackTruncate O P fuel tr with
      | .error e => .error e
      | .ok b => .ok (a ++ b)
  | .refine =>                                                                          -- 149-157
    if 1 < tr.subspace.length then
      match stepRefined O P tr with
      | .error e => .error e
      | .ok st => .ok [st]
    else .ok []
  | .other => .ok []

/-- all candidate steps in the order of the list `steps` (trust_region.py:97-157): head and tail -/
def candidates (O : Oracles F) (fuel : Nat) (P : Prob F n) (dim : SubSpaceDim) (strat : StepBackStrategy) :
    Except PyErr (Step F n × List (Step F n)) :=
  match trStep O fuel P dim with
  | .error e => .error e
  | .ok tr =>
    if lt tr.alpha (lit 1) && decide (1 < n) then                                       -- 98
      match stepGradient O P with                                                       -- 99-103
      | .error e => .error e
      | .ok gs =>
        match stepbackCandidates O fuel P strat tr with
        | .error e => .error e
        | .ok rest => .ok (tr, gs :: rest)
    else .ok (tr, [])

/-- arguments of `trust_region` (trust_region.py:27-40); `scaling` is the diagonal -/
structure TRIn (F : Type) (n : Nat) where
  x : Vec F n
  g : Vec F n
  hess : Mat F n n
  scaling : Vec F n
  delta : F
  dv : Vec F n
  theta : F
  lb : Vec F n
  ub : Vec F n

/-- the problem data every step is constructed with (trust_region.py:79-81) -/
def TRIn.prob (I : TRIn F n) : Prob F n :=
  { x := I.x, sg := sdot I.scaling I.g, hess := I.hess, scaling := I.scaling,
    gDscaling := fun i => FloatOps.abs (I.g i) * I.dv i,
    delta := I.delta, theta := I.theta, ub := I.ub, lb := I.lb }

/-- `trust_region`, trust_region.py:27-176 -/
def trustRegion (O : Oracles F) (fuel : Nat) (dim : SubSpaceDim) (strat : StepBackStrategy) (I : TRIn F n) :
    Except PyErr (Step F n) :=
  match candidates O fuel I.prob dim strat with
  | .error e => .error e
  | .ok (tr, rest) => .ok (argminGo (fun st : Step F n => st.qpval) tr rest)            -- 175-176

end Fides
