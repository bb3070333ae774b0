import Verif.Float
import Mathlib.Analysis.Real.Sqrt
import Mathlib.Algebra.BigOperators.Fin
import Mathlib.Algebra.Order.BigOperators.Group.Finset
import Mathlib.Tactic.Linarith
import Mathlib.Tactic.Positivity

/-!
# `Num`: exact real arithmetic with IEEE special values

`Num` is the reals plus `+inf`, `-inf` and `nan`, with the IEEE-754 rules for special values and exact results
on finite values.  Simplification with respect to binary64: no rounding, overflow or underflow, and a single
(positive) zero.
-/

open Classical

namespace Fides

inductive Num where
  | fin (r : ℝ)
  | pinf
  | ninf
  | nan

namespace Num

noncomputable section

protected def add : Num → Num → Num
  | fin a, fin b => fin (a + b)
  | nan, _ => nan
  | _, nan => nan
  | pinf, ninf => nan
  | ninf, pinf => nan
  | pinf, _ => pinf
  | _, pinf => pinf
  | ninf, _ => ninf
  | _, ninf => ninf

protected def neg : Num → Num
  | fin a => fin (-a)
  | pinf => ninf
  | ninf => pinf
  | nan => nan

protected def sub (a b : Num) : Num := Num.add a (Num.neg b)

/-- infinity with the sign of a nonzero real, `nan` for zero -/
def infSign (r : ℝ) : Num := if 0 < r then pinf else if r < 0 then ninf else nan

protected def mul : Num → Num → Num
  | fin a, fin b => fin (a * b)
  | nan, _ => nan
  | _, nan => nan
  | pinf, fin b => infSign b
  | fin a, pinf => infSign a
  | ninf, fin b => Num.neg (infSign b)
  | fin a, ninf => Num.neg (infSign a)
  | pinf, pinf => pinf
  | ninf, ninf => pinf
  | pinf, ninf => ninf
  | ninf, pinf => ninf

protected def div : Num → Num → Num
  | nan, _ => nan
  | _, nan => nan
  | fin a, fin b => if b = 0 then infSign a else fin (a / b)
  | fin _, _ => fin 0
  | pinf, fin b => if b < 0 then ninf else pinf
  | ninf, fin b => if b < 0 then pinf else ninf
  | _, _ => nan

protected def abs : Num → Num
  | fin a => fin |a|
  | pinf => pinf
  | ninf => pinf
  | nan => nan

protected def sqrt : Num → Num
  | fin a => if a < 0 then nan else fin (Real.sqrt a)
  | pinf => pinf
  | ninf => nan
  | nan => nan

protected def le : Num → Num → Bool
  | fin a, fin b => decide (a ≤ b)
  | nan, _ => false
  | _, nan => false
  | ninf, _ => true
  | _, pinf => true
  | _, _ => false

protected def lt : Num → Num → Bool
  | fin a, fin b => decide (a < b)
  | nan, _ => false
  | _, nan => false
  | ninf, ninf => false
  | ninf, _ => true
  | pinf, pinf => false
  | _, pinf => true
  | _, _ => false

protected def isFinite : Num → Bool
  | fin _ => true
  | _ => false

/-- `copysign(x, y)`; the sign of `nan` is taken as positive, zero is positive -/
protected def copysign (x y : Num) : Num := if Num.lt y (fin 0) then Num.neg (Num.abs x) else Num.abs x

instance instFloatOps : FloatOps Num where
  lit q := fin (q : ℝ)
  add := Num.add
  sub := Num.sub
  mul := Num.mul
  div := Num.div
  neg := Num.neg
  abs := Num.abs
  sqrt := Num.sqrt
  copysign := Num.copysign
  lt := Num.lt
  le := Num.le
  isFinite := Num.isFinite
  inf := pinf
  nan := nan
  sum l := l.foldr Num.add (fin 0)

/-! ### computation rules on finite values -/

@[simp] theorem lit_def (q : ℚ) : (Fides.lit q : Num) = fin (q : ℝ) := rfl
@[simp] theorem inf_def : (FloatOps.inf : Num) = pinf := rfl
@[simp] theorem nan_def : (FloatOps.nan : Num) = nan := rfl
@[simp] theorem fin_add (a b : ℝ) : (fin a + fin b : Num) = fin (a + b) := rfl
@[simp] theorem fin_mul (a b : ℝ) : (fin a * fin b : Num) = fin (a * b) := rfl
@[simp] theorem fin_neg (a : ℝ) : (-fin a : Num) = fin (-a) := rfl
@[simp] theorem fin_sub (a b : ℝ) : (fin a - fin b : Num) = fin (a - b) := by
  show Num.sub _ _ = _; simp [Num.sub, Num.neg, Num.add, sub_eq_add_neg]
theorem fin_div_def (a b : ℝ) : (fin a / fin b : Num) = if b = 0 then infSign a else fin (a / b) := rfl
@[simp] theorem fin_div (a b : ℝ) (h : b ≠ 0) : (fin a / fin b : Num) = fin (a / b) := by
  rw [fin_div_def, if_neg h]
@[simp] theorem fin_abs (a : ℝ) : FloatOps.abs (fin a) = fin |a| := rfl
theorem fin_sqrt_def (a : ℝ) : FloatOps.sqrt (fin a) = if a < 0 then nan else fin (Real.sqrt a) := rfl
@[simp] theorem fin_sqrt (a : ℝ) (h : 0 ≤ a) : FloatOps.sqrt (fin a) = fin (Real.sqrt a) := by
  rw [fin_sqrt_def, if_neg (not_lt.mpr h)]
@[simp] theorem fin_lt (a b : ℝ) : Fides.lt (fin a) (fin b) = decide (a < b) := rfl
@[simp] theorem fin_le (a b : ℝ) : Fides.le (fin a) (fin b) = decide (a ≤ b) := rfl
@[simp] theorem fin_isFinite (a : ℝ) : Fides.isFinite (fin a) = true := rfl
@[simp] theorem fin_isNaN (a : ℝ) : isNaN (fin a) = false := by simp [isNaN]
@[simp] theorem fin_feq (a b : ℝ) : feq (fin a) (fin b) = decide (a = b) := by
  simp only [feq, fin_le, ← Bool.decide_and]
  congr 1
  exact propext ⟨fun h => le_antisymm h.1 h.2, fun h => ⟨h.le, h.ge⟩⟩
theorem fin_copysign (a b : ℝ) : FloatOps.copysign (fin a) (fin b) = if b < 0 then fin (-|a|) else fin |a| := by
  show Num.copysign _ _ = _
  simp only [Num.copysign, Num.lt, Num.abs, Num.neg, decide_eq_true_eq]

theorem fin_inj {a b : ℝ} : fin a = fin b ↔ a = b := ⟨fun h => by cases h; rfl, fun h => by rw [h]⟩

@[simp] theorem isNaN_nan : isNaN (nan : Num) = true := rfl
@[simp] theorem isNaN_pinf : isNaN (pinf : Num) = false := rfl
@[simp] theorem isNaN_ninf : isNaN (ninf : Num) = false := rfl
@[simp] theorem isFinite_nan : Fides.isFinite (nan : Num) = false := rfl
@[simp] theorem isFinite_pinf : Fides.isFinite (pinf : Num) = false := rfl
@[simp] theorem isFinite_ninf : Fides.isFinite (ninf : Num) = false := rfl
@[simp] theorem neg_pinf : (-pinf : Num) = ninf := rfl
@[simp] theorem neg_ninf : (-ninf : Num) = pinf := rfl
@[simp] theorem neg_nan : (-nan : Num) = nan := rfl

@[simp] theorem le_nan (a : Num) : Fides.le a nan = false := by cases a <;> rfl
@[simp] theorem nan_le (a : Num) : Fides.le nan a = false := by cases a <;> rfl
@[simp] theorem lt_nan (a : Num) : Fides.lt a nan = false := by cases a <;> rfl
@[simp] theorem nan_lt (a : Num) : Fides.lt nan a = false := by cases a <;> rfl
@[simp] theorem fin_le_pinf (a : ℝ) : Fides.le (fin a) pinf = true := rfl
@[simp] theorem pinf_le_fin (a : ℝ) : Fides.le pinf (fin a) = false := rfl
@[simp] theorem ninf_le_fin (a : ℝ) : Fides.le ninf (fin a) = true := rfl
@[simp] theorem fin_le_ninf (a : ℝ) : Fides.le (fin a) ninf = false := rfl
@[simp] theorem pinf_le_pinf : Fides.le (pinf : Num) pinf = true := rfl
@[simp] theorem ninf_le_ninf : Fides.le (ninf : Num) ninf = true := rfl
@[simp] theorem ninf_le_pinf : Fides.le (ninf : Num) pinf = true := rfl
@[simp] theorem pinf_le_ninf : Fides.le (pinf : Num) ninf = false := rfl
@[simp] theorem fin_lt_pinf (a : ℝ) : Fides.lt (fin a) pinf = true := rfl
@[simp] theorem pinf_lt (a : Num) : Fides.lt pinf a = false := by cases a <;> rfl
@[simp] theorem ninf_lt_fin (a : ℝ) : Fides.lt ninf (fin a) = true := rfl
@[simp] theorem ninf_lt_pinf : Fides.lt (ninf : Num) pinf = true := rfl
@[simp] theorem lt_ninf (a : Num) : Fides.lt a ninf = false := by cases a <;> rfl

@[simp] theorem nan_add (a : Num) : (nan + a : Num) = nan := by cases a <;> rfl
@[simp] theorem add_nan (a : Num) : (a + nan : Num) = nan := by cases a <;> rfl
@[simp] theorem nan_sub (a : Num) : (nan - a : Num) = nan := by cases a <;> rfl
@[simp] theorem sub_nan (a : Num) : (a - nan : Num) = nan := by cases a <;> rfl
@[simp] theorem nan_mul (a : Num) : (nan * a : Num) = nan := by cases a <;> rfl
@[simp] theorem mul_nan (a : Num) : (a * nan : Num) = nan := by cases a <;> rfl
@[simp] theorem nan_div (a : Num) : (nan / a : Num) = nan := by cases a <;> rfl
@[simp] theorem div_nan (a : Num) : (a / nan : Num) = nan := by cases a <;> rfl
@[simp] theorem pinf_sub_fin (a : ℝ) : (pinf - fin a : Num) = pinf := rfl
@[simp] theorem ninf_sub_fin (a : ℝ) : (ninf - fin a : Num) = ninf := rfl
@[simp] theorem fin_sub_pinf (a : ℝ) : (fin a - pinf : Num) = ninf := rfl
@[simp] theorem fin_sub_ninf (a : ℝ) : (fin a - ninf : Num) = pinf := rfl
@[simp] theorem abs_pinf : FloatOps.abs (pinf : Num) = pinf := rfl
@[simp] theorem abs_ninf : FloatOps.abs (ninf : Num) = pinf := rfl
@[simp] theorem abs_nan : FloatOps.abs (nan : Num) = nan := rfl
theorem pinf_div_fin (b : ℝ) : (pinf / fin b : Num) = if b < 0 then ninf else pinf := rfl
theorem ninf_div_fin (b : ℝ) : (ninf / fin b : Num) = if b < 0 then pinf else ninf := rfl
@[simp] theorem fin_div_pinf (b : ℝ) : (fin b / pinf : Num) = fin 0 := rfl
@[simp] theorem fin_div_ninf (b : ℝ) : (fin b / ninf : Num) = fin 0 := rfl
theorem fin_mul_pinf (a : ℝ) : (fin a * pinf : Num) = infSign a := rfl
theorem pinf_mul_fin (a : ℝ) : (pinf * fin a : Num) = infSign a := rfl
theorem fin_mul_ninf (a : ℝ) : (fin a * ninf : Num) = -(infSign a) := rfl
theorem ninf_mul_fin (a : ℝ) : (ninf * fin a : Num) = -(infSign a) := rfl

@[simp] theorem pinf_mul_pinf : (pinf * pinf : Num) = pinf := rfl
@[simp] theorem ninf_mul_ninf : (ninf * ninf : Num) = pinf := rfl
@[simp] theorem pinf_mul_ninf : (pinf * ninf : Num) = ninf := rfl
@[simp] theorem ninf_mul_pinf : (ninf * pinf : Num) = ninf := rfl
@[simp] theorem pinf_sub_pinf : (pinf - pinf : Num) = nan := rfl
@[simp] theorem ninf_sub_ninf : (ninf - ninf : Num) = nan := rfl
@[simp] theorem pinf_sub_ninf : (pinf - ninf : Num) = pinf := rfl
@[simp] theorem ninf_sub_pinf : (ninf - pinf : Num) = ninf := rfl
@[simp] theorem pinf_add_fin (a : ℝ) : (pinf + fin a : Num) = pinf := rfl
@[simp] theorem fin_add_pinf (a : ℝ) : (fin a + pinf : Num) = pinf := rfl
@[simp] theorem ninf_add_fin (a : ℝ) : (ninf + fin a : Num) = ninf := rfl
@[simp] theorem fin_add_ninf (a : ℝ) : (fin a + ninf : Num) = ninf := rfl
@[simp] theorem pinf_add_pinf : (pinf + pinf : Num) = pinf := rfl
@[simp] theorem ninf_add_ninf : (ninf + ninf : Num) = ninf := rfl
@[simp] theorem pinf_add_ninf : (pinf + ninf : Num) = nan := rfl
@[simp] theorem ninf_add_pinf : (ninf + pinf : Num) = nan := rfl
@[simp] theorem pinf_div_pinf : (pinf / pinf : Num) = nan := rfl
@[simp] theorem pinf_div_ninf : (pinf / ninf : Num) = nan := rfl
@[simp] theorem ninf_div_pinf : (ninf / pinf : Num) = nan := rfl
@[simp] theorem ninf_div_ninf : (ninf / ninf : Num) = nan := rfl

theorem infSign_pos {r : ℝ} (h : 0 < r) : infSign r = pinf := by simp [infSign, h]
theorem infSign_neg {r : ℝ} (h : r < 0) : infSign r = ninf := by simp [infSign, h, not_lt.mpr h.le]
@[simp] theorem infSign_zero : infSign 0 = nan := by simp [infSign]

/-! ### vectors -/

/-- embedding of a real vector -/
def ofV {n : ℕ} (v : Fin n → ℝ) : Vec Num n := fun i => fin (v i)
/-- embedding of a real matrix -/
def ofM {m n : ℕ} (a : Fin m → Fin n → ℝ) : Mat Num m n := fun i j => fin (a i j)

@[simp] theorem ofV_apply {n : ℕ} (v : Fin n → ℝ) (i) : ofV v i = fin (v i) := rfl
@[simp] theorem ofM_apply {m n : ℕ} (a : Fin m → Fin n → ℝ) (i j) : ofM a i j = fin (a i j) := rfl

theorem ofV_inj {n : ℕ} {v w : Fin n → ℝ} : ofV v = ofV w ↔ v = w := by
  constructor
  · intro h; funext i; have := congrFun h i; simpa [fin_inj] using this
  · rintro rfl; rfl

theorem sum_list_fin (l : List ℝ) : FloatOps.sum (l.map fin) = fin l.sum := by
  show (l.map fin).foldr Num.add (fin 0) = _
  induction l with
  | nil => rfl
  | cons a l ih => simp only [List.map_cons, List.foldr_cons, ih, List.sum_cons]; rfl

theorem sum_ofFn_fin {n : ℕ} (f : Fin n → ℝ) : FloatOps.sum (List.ofFn fun i => fin (f i)) = fin (∑ i, f i) := by
  have : (List.ofFn fun i => fin (f i)) = (List.ofFn f).map fin := by rw [List.map_ofFn]; rfl
  rw [this, sum_list_fin, List.sum_ofFn]

/-- real dot product -/
def rdot {n : ℕ} (v w : Fin n → ℝ) : ℝ := ∑ i, v i * w i
/-- real Euclidean norm -/
def rnorm {n : ℕ} (v : Fin n → ℝ) : ℝ := Real.sqrt (rdot v v)

@[simp] theorem dot_ofV {n : ℕ} (v w : Fin n → ℝ) : dot (ofV v) (ofV w) = fin (rdot v w) := by
  simp only [dot, ofV_apply, fin_mul, sum_ofFn_fin, rdot]

theorem rdot_self_nonneg {n : ℕ} (v : Fin n → ℝ) : 0 ≤ rdot v v :=
  Finset.sum_nonneg fun _ _ => mul_self_nonneg _

@[simp] theorem norm_ofV {n : ℕ} (v : Fin n → ℝ) : Fides.norm (ofV v) = fin (rnorm v) := by
  simp only [Fides.norm, dot_ofV, fin_sqrt _ (rdot_self_nonneg v), rnorm]

@[simp] theorem vadd_ofV {n : ℕ} (v w : Fin n → ℝ) : vadd (ofV v) (ofV w) = ofV (v + w) := rfl
@[simp] theorem vsub_ofV {n : ℕ} (v w : Fin n → ℝ) : vsub (ofV v) (ofV w) = ofV (v - w) := by
  funext i; simp [vsub]
@[simp] theorem vsmul_ofV {n : ℕ} (c : ℝ) (v : Fin n → ℝ) : vsmul (fin c) (ofV v) = ofV (c • v) := rfl
@[simp] theorem vneg_ofV {n : ℕ} (v : Fin n → ℝ) : vneg (ofV v) = ofV (-v) := rfl
@[simp] theorem vzero_ofV {n : ℕ} : (vzero : Vec Num n) = ofV 0 := by funext i; simp [vzero]

/-- real matrix-vector product -/
def rmv {m n : ℕ} (a : Fin m → Fin n → ℝ) (v : Fin n → ℝ) : Fin m → ℝ := fun i => rdot (a i) v

@[simp] theorem mulVec_ofM {m n : ℕ} (a : Fin m → Fin n → ℝ) (v : Fin n → ℝ) :
    mulVec (ofM a) (ofV v) = ofV (rmv a v) := by
  funext i
  exact dot_ofV (a i) v

@[simp] theorem vecMul_ofM {m n : ℕ} (v : Fin m → ℝ) (a : Fin m → Fin n → ℝ) :
    vecMul (ofV v) (ofM a) = ofV (fun j => rdot v (fun i => a i j)) := by
  funext j
  exact dot_ofV v (fun i => a i j)

@[simp] theorem outer_ofV {m n : ℕ} (v : Fin m → ℝ) (w : Fin n → ℝ) :
    outer (ofV v) (ofV w) = ofM (fun i j => v i * w j) := rfl
@[simp] theorem madd_ofM {m n : ℕ} (a b : Fin m → Fin n → ℝ) : madd (ofM a) (ofM b) = ofM (a + b) := rfl
@[simp] theorem msub_ofM {m n : ℕ} (a b : Fin m → Fin n → ℝ) : msub (ofM a) (ofM b) = ofM (a - b) := by
  funext i j; simp [msub]
@[simp] theorem msmul_ofM {m n : ℕ} (c : ℝ) (a : Fin m → Fin n → ℝ) : msmul (fin c) (ofM a) = ofM (c • a) := rfl
theorem mdiv_ofM {m n : ℕ} (a : Fin m → Fin n → ℝ) (c : ℝ) (h : c ≠ 0) :
    mdiv (ofM a) (fin c) = ofM (fun i j => a i j / c) := by
  funext i j; simp [mdiv, h]
@[simp] theorem mzero_ofM {m n : ℕ} : (mzero : Mat Num m n) = ofM 0 := by funext i j; simp [mzero]
@[simp] theorem meye_ofM {n : ℕ} : (meye : Mat Num n n) = ofM (fun i j => if i = j then 1 else 0) := by
  funext i j; by_cases h : i = j <;> simp [meye, h]
@[simp] theorem mulTM_ofM {k m n : ℕ} (a : Fin k → Fin m → ℝ) (b : Fin k → Fin n → ℝ) :
    mulTM (ofM a) (ofM b) = ofM (fun i j => rdot (fun l => a l i) (fun l => b l j)) := by
  funext i j
  exact dot_ofV (fun l => a l i) (fun l => b l j)

theorem isFinite_iff (a : Num) : Fides.isFinite a = true ↔ ∃ r, a = fin r := by
  cases a with
  | fin r => simp
  | _ => simp

theorem vfinite_iff {n : ℕ} (v : Vec Num n) : vfinite v = true ↔ ∃ r : Fin n → ℝ, v = ofV r := by
  simp only [vfinite, decide_eq_true_eq, isFinite_iff]
  constructor
  · intro h; choose r hr using h; exact ⟨r, funext hr⟩
  · rintro ⟨r, rfl⟩ i; exact ⟨r i, rfl⟩

theorem mfinite_iff {m n : ℕ} (a : Mat Num m n) : mfinite a = true ↔ ∃ r : Fin m → Fin n → ℝ, a = ofM r := by
  simp only [mfinite, decide_eq_true_eq, isFinite_iff]
  constructor
  · intro h; choose r hr using h; exact ⟨r, by funext i j; exact hr i j⟩
  · rintro ⟨r, rfl⟩ i j; exact ⟨r i j, rfl⟩

end

end Num
end Fides
