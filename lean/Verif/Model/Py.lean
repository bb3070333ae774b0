import Verif.Float

/-!
# Python values and exceptions used by the model
-/

namespace Fides

/-- Exceptions that fides or numpy raise in the modelled code.  `diverges` is not an exception: it marks a loop that
did not finish within the fuel given to it. -/
inductive PyErr where
  | valueError
  | typeError
  | runtimeError
  | attributeError
  | keyError
  | indexError
  | overflowError
  | notImplementedError
  /-- an exception raised by user code (the objective) or by an external routine -/
  | userError
  | diverges
  deriving DecidableEq, Repr

/-- A value returned by the user's objective: a Python/numpy scalar, an ndarray given by shape and row-major
data, `None`, or any other object (e.g. a list; it has no `.ndim`, `.copy` as used here). -/
inductive PyVal (F : Type) where
  | scalar (v : F)
  | arr (shape : List Nat) (data : List F)
  | none
  | other

namespace PyVal
variable {F : Type} [FloatOps F]

/-- read a 1-d array of length `n` -/
def toVec? (n : Nat) : PyVal F → Option (Vec F n)
  | arr [k] data => if k = n then some (fun i => data.getD i.val FloatOps.nan) else Option.none
  | _ => Option.none

/-- read an `m × n` array (row-major data) -/
def toMat? (m n : Nat) : PyVal F → Option (Mat F m n)
  | arr [k, l] data => if k = m ∧ l = n then some (fun i j => data.getD (i.val * n + j.val) FloatOps.nan) else Option.none
  | _ => Option.none

def ofVec {n : Nat} (v : Vec F n) : PyVal F := arr [n] (List.ofFn v)
def ofMat {m n : Nat} (a : Mat F m n) : PyVal F := arr [m, n] ((List.ofFn fun i => List.ofFn (a i)).flatten)

end PyVal
end Fides
