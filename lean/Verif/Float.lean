import Mathlib.Data.Rat.Defs
import Mathlib.Algebra.Order.Field.Rat

/-!
# The arithmetic used by fides, as an interface

fides computes with Python floats and numpy arrays.  The model is written against `FloatOps`, the list of
operations the code uses.  Comparisons are `Bool` valued and, as in IEEE arithmetic, false whenever an argument
is NaN (for the instances in this project; the laws used are in `LawfulFloat`).

Nothing in this file models a particular file of /repo: it is the semantics of the numpy/Python primitives.
-/

namespace Fides

/-- Floating point primitives (numpy scalar operations).  `sum` is the reduction used by `np.dot`/`norm`; it is a
separate field because numpy/BLAS may sum in any order. -/
class FloatOps (F : Type) where
  /-- a decimal literal, rounded to the format -/
  lit : ℚ → F
  add : F → F → F
  sub : F → F → F
  mul : F → F → F
  div : F → F → F
  neg : F → F
  abs : F → F
  sqrt : F → F
  /-- `math.copysign(x, y)` -/
  copysign : F → F → F
  lt : F → F → Bool
  le : F → F → Bool
  isFinite : F → Bool
  inf : F
  nan : F
  sum : List F → F

export FloatOps (lit lt le isFinite)

section Ops
variable {F : Type} [FloatOps F]

instance (priority := low) instAddF : Add F := ⟨FloatOps.add⟩
instance (priority := low) instSubF : Sub F := ⟨FloatOps.sub⟩
instance (priority := low) instMulF : Mul F := ⟨FloatOps.mul⟩
instance (priority := low) instDivF : Div F := ⟨FloatOps.div⟩
instance (priority := low) instNegF : Neg F := ⟨FloatOps.neg⟩

/-- `np.isnan` -/
def isNaN (a : F) : Bool := !(le a a)
/-- `a == b` on floats (false on NaN) -/
def feq (a b : F) : Bool := le a b && le b a
/-- `np.sign` -/
def fsign (a : F) : F :=
  if isNaN a then a else if lt (lit 0) a then lit 1 else if lt a (lit 0) then lit (-1) else lit 0

/-- binary step of `np.min` (NaN propagates, the earlier entry wins ties) -/
def npMin2 (a b : F) : F := if isNaN a then a else if isNaN b then b else if lt b a then b else a
/-- binary step of `np.max` (NaN propagates) -/
def npMax2 (a b : F) : F := if isNaN a then a else if isNaN b then b else if lt a b then b else a
/-- `np.nanmin([a, b])` -/
def nanMin2 (a b : F) : F := if isNaN a then b else if isNaN b then a else if lt b a then b else a
/-- Python builtin `max(a, b)`: `b` only if `b > a` -/
def pyMax (a b : F) : F := if lt a b then b else a
/-- Python builtin `min(a, b)`: `b` only if `b < a` -/
def pyMin (a b : F) : F := if lt b a then b else a

/-- 1-d numpy array of length `n` -/
abbrev Vec (F : Type) (n : Nat) := Fin n → F
/-- 2-d numpy array, row index first -/
abbrev Mat (F : Type) (m n : Nat) := Fin m → Fin n → F

variable {m n : Nat}

/-- `np.dot` of two 1-d arrays -/
def dot (v w : Vec F n) : F := FloatOps.sum (List.ofFn fun i => v i * w i)
/-- `numpy.linalg.norm` of a 1-d array -/
def norm (v : Vec F n) : F := FloatOps.sqrt (dot v v)
/-- `norm(v, np.inf)` -/
def normInf (v : Vec F n) : F := (List.ofFn fun i => FloatOps.abs (v i)).foldl npMax2 (lit 0)
/-- `np.min` over a 1-d array (`inf` for the empty array, where numpy raises) -/
def vmin (v : Vec F n) : F := (List.ofFn v).foldl npMin2 FloatOps.inf
def vadd (v w : Vec F n) : Vec F n := fun i => v i + w i
def vsub (v w : Vec F n) : Vec F n := fun i => v i - w i
def vneg (v : Vec F n) : Vec F n := fun i => - v i
/-- `c * v` for a scalar `c` -/
def vsmul (c : F) (v : Vec F n) : Vec F n := fun i => c * v i
def vzero : Vec F n := fun _ => lit 0
def mzero : Mat F m n := fun _ _ => lit 0
/-- `np.eye(n)` -/
def meye : Mat F n n := fun i j => if i = j then lit 1 else lit 0
/-- `mat.dot(v)` -/
def mulVec (a : Mat F m n) (v : Vec F n) : Vec F m := fun i => dot (a i) v
/-- `v.T.dot(mat)` -/
def vecMul (v : Vec F m) (a : Mat F m n) : Vec F n := fun j => dot v (fun i => a i j)
/-- `np.outer(v, w)` -/
def outer (v : Vec F m) (w : Vec F n) : Mat F m n := fun i j => v i * w j
def madd (a b : Mat F m n) : Mat F m n := fun i j => a i j + b i j
def msub (a b : Mat F m n) : Mat F m n := fun i j => a i j - b i j
/-- `c * a` for a scalar `c` -/
def msmul (c : F) (a : Mat F m n) : Mat F m n := fun i j => c * a i j
/-- `a / c` for a scalar `c` -/
def mdiv (a : Mat F m n) (c : F) : Mat F m n := fun i j => a i j / c
/-- `a.T.dot(b)` -/
def mulTM {k : Nat} (a : Mat F k m) (b : Mat F k n) : Mat F m n := fun i j => dot (fun l => a l i) (fun l => b l j)

/-- `np.isfinite(v).all()` -/
def vfinite (v : Vec F n) : Bool := decide (∀ i, isFinite (v i) = true)
/-- `np.isfinite(a).all()` -/
def mfinite (a : Mat F m n) : Bool := decide (∀ i j, isFinite (a i j) = true)

/-- the element selected by `np.argmin` over keys: the first NaN key if there is one, else the first least key -/
def argminGo {α : Type} (key : α → F) (best : α) : List α → α
  | [] => best
  | b :: rest =>
    if isNaN (key best) then best
    else if isNaN (key b) || lt (key b) (key best) then argminGo key b rest
    else argminGo key best rest

/-- `np.spacing(1)` = 2^-52 -/
def spacing1 : F := lit (1 / 4503599627370496)

end Ops

/-- Order and sign laws of IEEE-754 arithmetic (round to nearest, gradual underflow) that the control-flow theorems
use.  They all hold for binary64: comparison is a total preorder off NaN; subtraction of two floats has the
sign of the exact difference; multiplication and division have the sign of the exact result or are zero/NaN. -/
class LawfulFloat (F : Type) [FloatOps F] : Prop where
  le_trans : ∀ a b c : F, le a b = true → le b c = true → le a c = true
  le_total : ∀ a b : F, le a a = true → le b b = true → le a b = true ∨ le b a = true
  le_self_left : ∀ a b : F, le a b = true → le a a = true
  le_self_right : ∀ a b : F, le a b = true → le b b = true
  lt_iff : ∀ a b : F, lt a b = true ↔ (le a b = true ∧ le b a = false)
  finite_self : ∀ a : F, isFinite a = true → le a a = true
  le_inf : ∀ a : F, le a a = true → le a FloatOps.inf = true
  inf_not_finite : isFinite (FloatOps.inf : F) = false
  finite_lt_inf : ∀ a : F, isFinite a = true → lt a FloatOps.inf = true
  finite_of_between : ∀ a b c : F, isFinite a = true → isFinite c = true → le a b = true → le b c = true → isFinite b = true
  lit_self : ∀ q : ℚ, le (lit q : F) (lit q) = true
  lit_mono : ∀ p q : ℚ, p ≤ q → le (lit p : F) (lit q) = true
  lit_finite_zero : isFinite (lit 0 : F) = true
  zero_lt_one : lt (lit 0 : F) (lit 1) = true
  /-- `-1.0 * (u - x) <= 0` implies `x <= u` and `x` is not `+inf` -/
  upper_check : ∀ u x : F, le (lit (-1) * (u - x)) (lit 0) = true → le x u = true ∧ x ≠ FloatOps.inf
  /-- `1.0 * (l - x) <= 0` implies `l <= x`, and `x` lies strictly below `inf`-type values from below -/
  lower_check : ∀ l x : F, le (lit 1 * (l - x)) (lit 0) = true → le l x = true ∧ x ≠ -FloatOps.inf
  /-- the only comparable non-finite values are the two infinities -/
  nonfinite_cases : ∀ x : F, le x x = true → isFinite x = false → x = FloatOps.inf ∨ x = -FloatOps.inf
  sub_pos : ∀ a b : F, lt (lit 0) (a - b) = true → lt b a = true
  abs_nonneg : ∀ a : F, le a a = true → le (lit 0) (FloatOps.abs a) = true
  mul_nonneg : ∀ a b : F, le (lit 0) a = true → le (lit 0) b = true → le (lit 0) (a * b) = true ∨ isNaN (a * b) = true
  /-- `x * (c * x)` is nonnegative (or NaN) for nonnegative `c` -/
  mul_square_nonneg : ∀ x c : F, le (lit 0) c = true → le (lit 0) (x * (c * x)) = true ∨ isNaN (x * (c * x)) = true
  sum_nonneg : ∀ l : List F, (∀ a ∈ l, le (lit 0) a = true ∨ isNaN a = true) →
    le (lit 0) (FloatOps.sum l) = true ∨ isNaN (FloatOps.sum l) = true
  nan_mul_right : ∀ a b : F, isNaN b = true → isNaN (a * b) = true
  nan_mul_left : ∀ a b : F, isNaN a = true → isNaN (a * b) = true
  nan_sub_right : ∀ a b : F, isNaN b = true → isNaN (a - b) = true
  nan_div_left : ∀ a b : F, isNaN a = true → isNaN (a / b) = true
  nan_div_right : ∀ a b : F, isNaN b = true → isNaN (a / b) = true
  /-- a positive quotient with positive denominator has a positive numerator -/
  div_pos : ∀ a b : F, lt (lit 0) b = true → lt (lit 0) (a / b) = true → lt (lit 0) a = true

end Fides
