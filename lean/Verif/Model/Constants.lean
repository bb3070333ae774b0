import Verif.Model.TrustRegion

/-!
# Model of `fides/constants.py`
-/

namespace Fides

/-- `Options` (constants.py:15-37) -/
inductive OptKey where
  | maxiter | maxtime | fatol | frtol | xtol | gatol | grtol | subspaceDim | stepbackStrat | thetaMax
  | deltaInit | mu | eta | gamma1 | gamma2 | historyFile
  deriving DecidableEq, Repr

/-- the string value of each member (constants.py:21-36) -/
def OptKey.value : OptKey → String
  | .maxiter => "maxiter" | .maxtime => "maxtime" | .fatol => "fatol" | .frtol => "frtol" | .xtol => "xtol"
  | .gatol => "gatol" | .grtol => "grtol" | .subspaceDim => "subspace_solver"
  | .stepbackStrat => "stepback_strategy" | .thetaMax => "theta_max" | .deltaInit => "delta_init"
  | .mu => "mu" | .eta => "eta" | .gamma1 => "gamma1" | .gamma2 => "gamma2" | .historyFile => "history_file"

def OptKey.all : List OptKey :=
  [.maxiter, .maxtime, .fatol, .frtol, .xtol, .gatol, .grtol, .subspaceDim, .stepbackStrat, .thetaMax,
   .deltaInit, .mu, .eta, .gamma1, .gamma2, .historyFile]

/-- `ExitFlag` (constants.py:85-100) -/
inductive ExitFlag where
  | didNotRun | maxiter | maxtime | notFinite | exceededBoundary | deltaTooSmall | ftol | xtol | gtol
  deriving DecidableEq, Repr

/-- numeric values (constants.py:92-100) -/
def ExitFlag.toInt : ExitFlag → Int
  | .didNotRun => 0 | .maxiter => -1 | .maxtime => -2 | .notFinite => -3 | .exceededBoundary => -4
  | .deltaTooSmall => -5 | .ftol => 1 | .xtol => 2 | .gtol => 3

/-- the string value of the enum members (constants.py:46-48) -/
def SubSpaceDim.ofString (s : String) : SubSpaceDim :=
  if s = "2D" then .two else if s = "full" then .full else if s = "scg" then .steihaug else .other

/-- the string value of the enum members (constants.py:57-62) -/
def StepBackStrategy.ofString (s : String) : StepBackStrategy :=
  if s = "reflect_single" then .singleReflect else if s = "reflect" then .reflect
  else if s = "truncate" then .truncate else if s = "mixed" then .mixed
  else if s = "refine" then .refine else .other

/-- A key of the options dict as the user wrote it: an `Options` member, a string, or another object. -/
inductive RawKey where
  | member (k : OptKey)
  | str (s : String)
  | other
  deriving DecidableEq, Repr

/-- A value of the options dict, as far as `isinstance`, `int()` and `==` can tell: Python/numpy integers
(`Integral`), finite floats and other finite `Real`s, infinite and NaN floats, strings, paths, enum members, `None`
and anything else (not `Real`, not `str`; `int()` raises TypeError). -/
inductive RawVal where
  | int (z : Int)
  | real (q : ℚ)
  | infinite (negative : Bool)
  | nan
  | str (s : String)
  | path
  | subspace (d : SubSpaceDim)
  | stepback (d : StepBackStrategy)
  | none
  | other
  deriving DecidableEq, Repr

/-- `Options(option_key)` (constants.py:124-129) -/
def lookupKey : RawKey → Option OptKey
  | .member k => some k
  | .str s => OptKey.all.find? (fun k => k.value = s)
  | .other => Option.none

/-- `SubSpaceDim(option_value)` (constants.py:131-132): members and their string values; else ValueError -/
def asSubspace : RawVal → Except PyErr RawVal
  | .subspace d => if d = .other then .error .valueError else .ok (.subspace d)
  | .str s => if SubSpaceDim.ofString s = .other then .error .valueError else .ok (.subspace (SubSpaceDim.ofString s))
  | _ => .error .valueError

/-- `StepBackStrategy(option_value)` (constants.py:134-135) -/
def asStepback : RawVal → Except PyErr RawVal
  | .stepback d => if d = .other then .error .valueError else .ok (.stepback d)
  | .str s =>
    if StepBackStrategy.ofString s = .other then .error .valueError else .ok (.stepback (StepBackStrategy.ofString s))
  | _ => .error .valueError

/-- the classes used in `expected_types` (constants.py:105-122) -/
inductive ExpType where
  | integral | real | subspaceOrStr | stepbackOrStr | strOrPath
  deriving DecidableEq, Repr

/-- `expected_types` (constants.py:105-122) -/
def expectedType : OptKey → ExpType
  | .maxiter => .integral
  | .subspaceDim => .subspaceOrStr
  | .stepbackStrat => .stepbackOrStr
  | .historyFile => .strOrPath
  | _ => .real

/-- `isinstance(option_value, expected_type)`; enum members are strings too -/
def isInstance : RawVal → ExpType → Bool
  | .int _, .integral => true
  | .int _, .real => true
  | .real _, .real => true
  | .infinite _, .real => true
  | .nan, .real => true
  | .str _, .subspaceOrStr => true
  | .str _, .stepbackOrStr => true
  | .str _, .strOrPath => true
  | .subspace _, .subspaceOrStr => true
  | .subspace _, .stepbackOrStr => true
  | .subspace _, .strOrPath => true
  | .stepback _, .subspaceOrStr => true
  | .stepback _, .stepbackOrStr => true
  | .stepback _, .strOrPath => true
  | .path, .strOrPath => true
  | _, _ => false

/-- `int(option_value) == option_value` (constants.py:139), or the exception raised by `int()`.  Simplification: the
integer syntax accepted for strings is that of `String.toInt?` (either way the option is refused). -/
def intEq : RawVal → Except PyErr Bool
  | .int _ => .ok true
  | .real q => .ok (decide ((q.num / (q.den : Int)) * (q.den : Int) = q.num))
  | .infinite _ => .error .overflowError
  | .nan => .error .valueError
  | .str s => if (s.trimAscii.toString.toInt?).isSome then .ok false else .error .valueError
  | .subspace _ => .error .valueError
  | .stepback _ => .error .valueError
  | .path => .error .typeError
  | .none => .error .typeError
  | .other => .error .typeError

/-- the body of the loop in `validate_options` (constants.py:124-145) -/
def validateEntry (key : RawKey) (val : RawVal) : Except PyErr Unit :=
  match lookupKey key with
  | Option.none => .error .valueError                                                   -- 126-129
  | some option =>
    let val1 : Except PyErr RawVal := if key = .member .subspaceDim then asSubspace val else .ok val      -- 131-132
    match val1 with
    | .error e => .error e
    | .ok val1 =>
      let val2 : Except PyErr RawVal := if key = .member .stepbackStrat then asStepback val1 else .ok val1  -- 134-135
      match val2 with
      | .error e => .error e
      | .ok v =>
        let ty := expectedType option
        if isInstance v ty then .ok ()
        else if ty = .integral then
          match intEq v with                                                            -- 139
          | .error e => .error e
          | .ok true => .ok ()
          | .ok false => .error .typeError
        else .error .typeError                                                          -- 141-145

/-- `validate_options` (constants.py:103-145): entries in dict order, the first failure is raised -/
def validateOptions : List (RawKey × RawVal) → Except PyErr Unit
  | [] => .ok ()
  | (k, v) :: rest =>
    match validateEntry k v with
    | .error e => .error e
    | .ok () => validateOptions rest

/-- `DEFAULT_OPTIONS` (constants.py:65-82) -/
def defaultOption : OptKey → RawVal
  | .maxiter => .real 1000
  | .maxtime => .infinite false
  | .fatol => .real (1 / 100000000)
  | .frtol => .real (1 / 100000000)
  | .xtol => .int 0
  | .gatol => .real (1 / 1000000)
  | .grtol => .int 0
  | .subspaceDim => .subspace .two
  | .stepbackStrat => .stepback .reflect
  | .thetaMax => .real (19 / 20)
  | .deltaInit => .real 1
  | .mu => .real (1 / 4)
  | .eta => .real (3 / 4)
  | .gamma1 => .real (1 / 4)
  | .gamma2 => .int 2
  | .historyFile => .none

/-- does a dict key written by the user equal (and hash like) the member?  `Options` derives from `str`, so the
plain string value is the same dict key. -/
def keyMatches (k : OptKey) : RawKey → Bool
  | .member k' => k = k'
  | .str s => s = k.value
  | .other => false

/-- `Optimizer.get_option` (minimize.py:946-947) -/
def getOption (options : List (RawKey × RawVal)) (k : OptKey) : RawVal :=
  match options.find? (fun kv => keyMatches k kv.1) with
  | some kv => kv.2
  | Option.none => defaultOption k

/-- comparison of a `subspace_solver` value with the enum members: string equality -/
def RawVal.toSubspace : RawVal → SubSpaceDim
  | .subspace d => d
  | .str s => SubSpaceDim.ofString s
  | _ => .other

/-- comparison of a `stepback_strategy` value with the enum members: string equality -/
def RawVal.toStepback : RawVal → StepBackStrategy
  | .stepback d => d
  | .str s => StepBackStrategy.ofString s
  | _ => .other

/-- truth value of the `history_file` option -/
def RawVal.truthy : RawVal → Bool
  | .none => false
  | .str s => s ≠ ""
  | .int z => z ≠ 0
  | .real q => q ≠ 0
  | _ => true

end Fides
