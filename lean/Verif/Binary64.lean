import Verif.Lemmas.NumLawful
import Mathlib.Data.Set.Finite.Basic
import Mathlib.Data.Finset.Max
import Mathlib.Data.Int.Interval
import Mathlib.Tactic.NormNum

/-!
# IEEE-754 binary64 arithmetic

The arithmetic Python floats and numpy really use: 53 bit significands, exponents -1074 .. 971, gradual underflow, overflow to infinity,
signed zeros, every basic operation and `sqrt` rounded to a nearest representable value.  The tie rule and the order in which `np.dot` sums
are parameters (`Rounding`), so every statement proved for all `Rounding` covers round-to-nearest-even and every summation order of BLAS (without
fused multiply-add).

Nothing in this file models a particular file of /repo: it is the semantics of the numpy/Python primitives.
-/

open Classical

namespace Fides

noncomputable section

/-- the finite values of the format -/
def IsB64 (x : ℝ) : Prop := ∃ m e : ℤ, |m| < 2 ^ 53 ∧ -1074 ≤ e ∧ e ≤ 971 ∧ x = m * (2 : ℝ) ^ e

/-- from this size on results overflow: halfway between the largest finite value and 2^1024 -/
def overflow64 : ℝ := 2 ^ 1024 - 2 ^ 970

/-- a way to add up the entries of an array -/
inductive SumTree where
  | leaf (i : ℕ)
  | node (l r : SumTree)

/-- the entries used, from left to right -/
def SumTree.leaves : SumTree → List ℕ
  | .leaf i => [i]
  | .node l r => l.leaves ++ r.leaves

/-- tie rule and summation order -/
structure Rounding where
  near : ℝ → ℝ
  near_mem : ∀ x, IsB64 (near x)
  near_best : ∀ x d, IsB64 d → |x - near x| ≤ |x - d|
  order : ℕ → SumTree
  order_all : ∀ k, 0 < k → (order k).leaves.Perm (List.range k)

/-! ## the format -/

theorem isB64_zero : IsB64 0 := ⟨0, 0, by norm_num, by norm_num, by norm_num, by simp⟩

theorem isB64_neg {x : ℝ} (h : IsB64 x) : IsB64 (-x) := by
  obtain ⟨m, e, h1, h2, h3, rfl⟩ := h
  exact ⟨-m, e, by rwa [abs_neg], h2, h3, by push_cast; ring⟩

theorem isB64_int (m : ℤ) (h : |m| < 2 ^ 53) : IsB64 m := ⟨m, 0, h, by norm_num, by norm_num, by simp⟩

theorem isB64_finite : {x : ℝ | IsB64 x}.Finite := by
  have : {x : ℝ | IsB64 x} ⊆ (fun p : ℤ × ℤ => (p.1 : ℝ) * (2 : ℝ) ^ p.2) '' ((Finset.Icc (-2 ^ 53) (2 ^ 53) ×ˢ Finset.Icc (-1074) 971 : Finset (ℤ × ℤ)) : Set (ℤ × ℤ)) := by
    rintro x ⟨m, e, h1, h2, h3, rfl⟩
    refine ⟨(m, e), ?_, rfl⟩
    rw [abs_lt] at h1
    simp only [Finset.coe_product, Set.mem_prod, Finset.mem_coe, Finset.mem_Icc]
    exact ⟨⟨by omega, by omega⟩, h2, h3⟩
  exact ((Finset.finite_toSet _).image _).subset this

/-- the difference of two different values is at least the smallest positive value -/
theorem isB64_sub (x y : ℝ) (hx : IsB64 x) (hy : IsB64 y) (hne : x ≠ y) : (2 : ℝ) ^ (-1074 : ℤ) ≤ |x - y| := by
  have key : ∀ x, IsB64 x → ∃ k : ℤ, x = k * (2 : ℝ) ^ (-1074 : ℤ) := by
    rintro x ⟨m, e, _, h2, _, rfl⟩
    refine ⟨m * 2 ^ (e + 1074).toNat, ?_⟩
    push_cast
    rw [mul_assoc, ← zpow_natCast, ← zpow_add₀ (by norm_num)]
    congr 2
    rw [Int.toNat_of_nonneg (by omega)]; ring
  obtain ⟨a, ha⟩ := key x hx
  obtain ⟨b, hb⟩ := key y hy
  have hab : a ≠ b := by rintro rfl; exact hne (by rw [ha, hb])
  have h1 : (1 : ℝ) ≤ |(a : ℝ) - b| := by
    rw [← Int.cast_sub, ← Int.cast_abs]
    have : 1 ≤ |a - b| := Int.one_le_abs (sub_ne_zero.mpr hab)
    exact_mod_cast this
  have hp : (0 : ℝ) < 2 ^ (-1074 : ℤ) := zpow_pos (by norm_num) _
  rw [ha, hb, ← sub_mul, abs_mul, abs_of_pos hp]
  nlinarith

theorem isB64_min : IsB64 ((2 : ℝ) ^ (-1074 : ℤ)) := ⟨1, -1074, by norm_num, by norm_num, by norm_num, by simp⟩

namespace Rounding
variable (R : Rounding)

/-- representable values are not changed -/
theorem near_self {x : ℝ} (h : IsB64 x) : R.near x = x := by
  have := R.near_best x x h
  rw [sub_self, abs_zero] at this
  have := abs_nonpos_iff.mp this
  linarith

theorem near_mono {x y : ℝ} (h : x ≤ y) : R.near x ≤ R.near y := by
  rcases h.eq_or_lt with rfl | h
  · exact le_rfl
  by_contra hc
  push Not at hc
  have h1 := R.near_best x (R.near y) (R.near_mem y)
  have h2 := R.near_best y (R.near x) (R.near_mem x)
  rw [← sq_le_sq] at h1 h2
  nlinarith

theorem near_zero : R.near 0 = 0 := R.near_self isB64_zero

/-- gradual underflow: the computed difference of two different values is not zero -/
theorem near_sub_neg {x y : ℝ} (hx : IsB64 x) (hy : IsB64 y) (h : x < y) : R.near (x - y) < 0 := by
  have h1 := isB64_sub x y hx hy h.ne
  rw [abs_of_neg (sub_neg.mpr h)] at h1
  have h2 := R.near_mono (show x - y ≤ -(2 : ℝ) ^ (-1074 : ℤ) by linarith)
  rw [R.near_self (isB64_neg isB64_min)] at h2
  have : (0 : ℝ) < 2 ^ (-1074 : ℤ) := zpow_pos (by norm_num) _
  linarith

end Rounding

/-- a nearest representable value exists -/
theorem exists_near (x : ℝ) : ∃ y, IsB64 y ∧ ∀ d, IsB64 d → |x - y| ≤ |x - d| := by
  obtain ⟨y, hy, h⟩ := Set.exists_min_image {x : ℝ | IsB64 x} (fun d => |x - d|) isB64_finite ⟨0, isB64_zero⟩
  exact ⟨y, hy, h⟩

/-- sequential summation -/
def seqOrder : ℕ → SumTree
  | 0 => .leaf 0
  | 1 => .leaf 0
  | k + 2 => .node (seqOrder (k + 1)) (.leaf (k + 1))

theorem seqOrder_leaves : ∀ k, (seqOrder (k + 1)).leaves = List.range (k + 1)
  | 0 => rfl
  | k + 1 => by rw [seqOrder, SumTree.leaves, seqOrder_leaves k, SumTree.leaves, List.range_succ (n := k + 1)]

/-- there is such an arithmetic: some tie rule, sequential summation -/
def someRounding : Rounding where
  near x := (exists_near x).choose
  near_mem x := (exists_near x).choose_spec.1
  near_best x := (exists_near x).choose_spec.2
  order := seqOrder
  order_all k hk := by
    obtain ⟨j, rfl⟩ : ∃ j, k = j + 1 := ⟨k - 1, by omega⟩
    rw [seqOrder_leaves]

/-! ## the values -/

/-- a double: signed zero, nonzero finite value, infinity, NaN -/
inductive Dbl (R : Rounding) where
  | zero (neg : Bool)
  | num (x : ℝ) (h : IsB64 x) (hz : x ≠ 0)
  | inf (neg : Bool)
  | nan

namespace Dbl
variable {R : Rounding}

/-- the value of a double, without the sign of zero -/
def val : Dbl R → Num
  | zero _ => .fin 0
  | num x _ _ => .fin x
  | inf false => .pinf
  | inf true => .ninf
  | nan => .nan

/-- the sign bit -/
def sgn : Dbl R → Bool
  | zero b => b
  | num x _ _ => decide (x < 0)
  | inf b => b
  | nan => false

/-- round a real result; `b` is the sign of an exact zero -/
def mk (r : ℝ) (b : Bool) : Dbl R :=
  if overflow64 ≤ |r| then .inf (decide (r < 0))
  else if h : R.near r = 0 then .zero (if r = 0 then b else decide (r < 0))
  else .num (R.near r) (R.near_mem r) h

/-- round a result computed with the rules for special values -/
def ofNum (v : Num) (b : Bool) : Dbl R :=
  match v with
  | .fin r => mk r b
  | .pinf => .inf false
  | .ninf => .inf true
  | .nan => .nan

protected def neg : Dbl R → Dbl R
  | zero b => zero (!b)
  | num x h hz => num (-x) (isB64_neg h) (neg_ne_zero.mpr hz)
  | inf b => inf (!b)
  | nan => nan

protected def abs (a : Dbl R) : Dbl R := if a.sgn then a.neg else a
protected def add (a b : Dbl R) : Dbl R := ofNum (a.val + b.val) (a.sgn && b.sgn)
protected def sub (a b : Dbl R) : Dbl R := a.add b.neg
protected def mul (a b : Dbl R) : Dbl R := ofNum (a.val * b.val) (xor a.sgn b.sgn)
protected def div (a b : Dbl R) : Dbl R :=
  if b.val = .fin 0 then (if a.val = .fin 0 ∨ a.val = .nan then nan else inf (xor a.sgn b.sgn))
  else ofNum (a.val / b.val) (xor a.sgn b.sgn)
protected def sqrt (a : Dbl R) : Dbl R := ofNum (FloatOps.sqrt a.val) a.sgn
protected def copysign (a b : Dbl R) : Dbl R := if a.sgn = b.sgn then a else a.neg

/-- evaluation of a summation tree -/
def treeSum (l : List (Dbl R)) : SumTree → Dbl R
  | .leaf i => l.getD i (zero false)
  | .node a b => (treeSum l a).add (treeSum l b)

instance instFloatOps : FloatOps (Dbl R) where
  lit q := mk q false
  add := Dbl.add
  sub := Dbl.sub
  mul := Dbl.mul
  div := Dbl.div
  neg := Dbl.neg
  abs := Dbl.abs
  sqrt := Dbl.sqrt
  copysign := Dbl.copysign
  lt a b := lt a.val b.val
  le a b := le a.val b.val
  isFinite a := isFinite a.val
  inf := inf false
  nan := nan
  sum l := if l.length = 0 then zero false else treeSum l (R.order l.length)

/-! ## the value of a result -/

/-- rounding of an exact result -/
def rd (R : Rounding) : Num → Num
  | .fin r => if overflow64 ≤ |r| then (if r < 0 then .ninf else .pinf) else .fin (R.near r)
  | .pinf => .pinf
  | .ninf => .ninf
  | .nan => .nan

theorem rd_fin (r : ℝ) : rd R (.fin r) = if overflow64 ≤ |r| then (if r < 0 then .ninf else .pinf) else .fin (R.near r) := rfl

theorem val_mk (r : ℝ) (b : Bool) : (mk r b : Dbl R).val = rd R (.fin r) := by
  rw [rd_fin]
  unfold mk
  by_cases ho : overflow64 ≤ |r|
  · rw [if_pos ho, if_pos ho]
    by_cases h : r < 0 <;> simp [h, val]
  · rw [if_neg ho, if_neg ho]
    split
    · rename_i h; simp [val, h]
    · rfl

theorem val_ofNum (v : Num) (b : Bool) : (ofNum v b : Dbl R).val = rd R v := by
  cases v
  · exact val_mk _ _
  all_goals rfl

theorem val_neg (a : Dbl R) : (-a).val = -a.val := by
  show a.neg.val = _
  cases a with
  | zero b => simp [Dbl.neg, val]
  | num x h hz => rfl
  | inf b => cases b <;> rfl
  | nan => rfl

theorem val_add (a b : Dbl R) : (a + b).val = rd R (a.val + b.val) := val_ofNum _ _
theorem val_mul (a b : Dbl R) : (a * b).val = rd R (a.val * b.val) := val_ofNum _ _
theorem num_sub_def (a b : Num) : a - b = a + -b := rfl
theorem val_sub (a b : Dbl R) : (a - b).val = rd R (a.val - b.val) := by
  show (a + -b).val = _
  rw [val_add, val_neg]; rfl
theorem val_div (a b : Dbl R) (h : b.val ≠ .fin 0) : (a / b).val = rd R (a.val / b.val) := by
  show (Dbl.div a b).val = _
  rw [Dbl.div, if_neg h, val_ofNum]
theorem val_lit (q : ℚ) : (lit q : Dbl R).val = rd R (.fin q) := val_mk _ _
theorem val_sqrt (a : Dbl R) : (FloatOps.sqrt a).val = rd R (FloatOps.sqrt a.val) := val_ofNum _ _

theorem val_abs (a : Dbl R) : (FloatOps.abs a).val = FloatOps.abs a.val := by
  show (Dbl.abs a).val = _
  unfold Dbl.abs
  cases a with
  | zero b => cases b <;> simp [Dbl.neg, val, sgn]
  | num x h hz =>
    by_cases hx : x < 0
    · simp [sgn, hx, Dbl.neg, val, abs_of_neg hx]
    · simp [sgn, hx, val, abs_of_nonneg (not_lt.mp hx)]
  | inf b => cases b <;> rfl
  | nan => rfl

theorem le_def (a b : Dbl R) : le a b = le a.val b.val := rfl
theorem lt_def (a b : Dbl R) : lt a b = lt a.val b.val := rfl
theorem isFinite_def (a : Dbl R) : isFinite a = isFinite a.val := rfl
theorem isNaN_def (a : Dbl R) : isNaN a = isNaN a.val := rfl

/-- a value is a value of the format, an infinity or NaN -/
theorem val_mem (a : Dbl R) (r : ℝ) (h : a.val = .fin r) : IsB64 r ∧ |r| < overflow64 := by
  have hmax : ∀ x, IsB64 x → |x| < overflow64 := by
    rintro x ⟨m, e, h1, h2, h3, rfl⟩
    rw [abs_mul, abs_of_pos (show (0 : ℝ) < 2 ^ e from zpow_pos (by norm_num) _)]
    have hm : |(m : ℝ)| ≤ 2 ^ 53 - 1 := by
      rw [← Int.cast_abs]
      have : |m| ≤ 2 ^ 53 - 1 := by omega
      exact_mod_cast this
    have he : (2 : ℝ) ^ e ≤ 2 ^ 971 := by
      rw [← zpow_natCast]
      exact zpow_le_zpow_right₀ (by norm_num) (by exact_mod_cast h3)
    have hp : (0 : ℝ) < 2 ^ e := zpow_pos (by norm_num) _
    have h970 : (0 : ℝ) < 2 ^ 970 := by positivity
    have e1 : (2 : ℝ) ^ 971 = 2 * 2 ^ 970 := by rw [pow_succ]; ring
    have e2 : (2 : ℝ) ^ 1024 = 2 ^ 54 * 2 ^ 970 := by rw [← pow_add]
    have : |(m : ℝ)| * 2 ^ e ≤ (2 ^ 53 - 1) * 2 ^ 971 := by
      apply mul_le_mul hm he hp.le
      norm_num
    unfold overflow64
    rw [e2]
    rw [e1] at this
    generalize (2 : ℝ) ^ 970 = p at h970 this
    have e3 : ((2 : ℝ) ^ 53 - 1) * (2 * p) = 2 ^ 54 * p - 2 * p := by ring
    rw [e3] at this
    generalize (2 : ℝ) ^ 54 * p = q at this
    linarith
  cases a with
  | zero b => cases h; exact ⟨isB64_zero, hmax _ isB64_zero⟩
  | num x hx hz => cases h; exact ⟨hx, hmax _ hx⟩
  | inf b => cases b <;> cases h
  | nan => cases h

theorem rd_nan (a : Num) : isNaN (rd R a) = isNaN a := by
  cases a with
  | fin r =>
    rw [rd_fin]
    by_cases ho : overflow64 ≤ |r|
    · by_cases hr : r < 0 <;> simp [ho, hr]
    · simp [ho]
  | pinf => rfl
  | ninf => rfl
  | nan => rfl

/-- rounding is monotone -/
theorem rd_mono (a b : Num) (h : le a b = true) : le (rd R a) (rd R b) = true := by
  have ho : (0 : ℝ) < overflow64 := by
    unfold overflow64
    exact _root_.sub_pos.mpr (pow_lt_pow_right₀ (by norm_num) (by norm_num))
  cases a with
  | fin x =>
    cases b with
    | fin y =>
      simp only [Num.fin_le, decide_eq_true_eq] at h
      rw [rd_fin, rd_fin]
      by_cases hx : overflow64 ≤ |x| <;> by_cases hy : overflow64 ≤ |y|
      · simp only [hx, hy, if_true]
        by_cases h1 : x < 0 <;> by_cases h2 : y < 0 <;> simp [h1, h2]
        linarith
      · simp only [hx, hy, if_true, if_false]
        by_cases h1 : x < 0
        · simp [h1]
        · exfalso
          rw [abs_of_nonneg (not_lt.mp h1)] at hx
          have := le_abs_self y
          push Not at hy
          linarith
      · simp only [hx, hy, if_true, if_false]
        by_cases h1 : y < 0
        · exfalso
          rw [abs_of_neg h1] at hy
          have := neg_abs_le x
          push Not at hx
          linarith
        · simp [h1]
      · simp only [hx, hy, if_false, Num.fin_le, decide_eq_true_eq]
        exact R.near_mono h
    | pinf =>
      rw [rd_fin]
      show le _ Num.pinf = true
      by_cases hx : overflow64 ≤ |x|
      · by_cases h1 : x < 0 <;> simp [hx, h1]
      · simp [hx]
    | ninf => cases h
    | nan => simp at h
  | pinf => cases b <;> simp_all [rd]
  | ninf =>
    cases b with
    | fin y =>
      rw [rd_fin]
      show le Num.ninf _ = true
      by_cases hy : overflow64 ≤ |y|
      · by_cases h1 : y < 0 <;> simp [hy, h1]
      · simp [hy]
    | pinf => rfl
    | ninf => rfl
    | nan => simp at h
  | nan => simp at h

/-- values of the format are not changed by rounding -/
theorem rd_self (r : ℝ) (h : IsB64 r) (ho : |r| < overflow64) : rd R (.fin r) = .fin r := by
  rw [rd_fin, if_neg (not_le.mpr ho), R.near_self h]

theorem rd_val (a : Dbl R) : rd R a.val = a.val := by
  cases h : a.val with
  | fin r => obtain ⟨h1, h2⟩ := val_mem a r h; exact rd_self r h1 h2
  | pinf => rfl
  | ninf => rfl
  | nan => rfl

theorem overflow_big : (1 : ℝ) < overflow64 := by
  have h := (val_mem (R := someRounding) (num 1 (by simpa using isB64_int 1 (by norm_num)) one_ne_zero) 1 rfl).2
  simpa using h

theorem rd_zero : rd R (.fin 0) = .fin 0 := rd_self 0 isB64_zero (by rw [abs_zero]; linarith [overflow_big])
theorem rd_one : rd R (.fin 1) = .fin 1 := rd_self 1 (by simpa using isB64_int 1 (by norm_num)) (by rw [abs_one]; exact overflow_big)
theorem rd_neg_one : rd R (.fin (-1)) = .fin (-1) :=
  rd_self (-1) (by simpa using isB64_int (-1) (by norm_num)) (by rw [abs_neg, abs_one]; exact overflow_big)

theorem val_lit_zero : (lit 0 : Dbl R).val = .fin 0 := by rw [val_lit, Rat.cast_zero, rd_zero]
theorem val_lit_one : (lit 1 : Dbl R).val = .fin 1 := by rw [val_lit, Rat.cast_one, rd_one]
theorem val_lit_neg_one : (lit (-1) : Dbl R).val = .fin (-1) := by rw [val_lit, Rat.cast_neg, Rat.cast_one, rd_neg_one]

/-! ## the laws -/

theorem rd_nonneg (a : Num) (h : le (.fin 0) a = true ∨ isNaN a = true) : le (.fin 0) (rd R a) = true ∨ isNaN (rd R a) = true := by
  rcases h with h | h
  · left; have := rd_mono (R := R) _ _ h; rwa [rd_zero] at this
  · right; rwa [rd_nan]

/-- a rounded value is positive only if the exact value is -/
theorem rd_pos (a : Num) (h : lt (.fin 0) (rd R a) = true) : lt (.fin 0) a = true := by
  have hn : isNaN a = false := by
    rw [← rd_nan (R := R)]
    cases hq : rd R a <;> rw [hq] at h <;> simp_all
  have hself : le a a = true := by simpa [isNaN] using hn
  rcases LawfulFloat.le_total (Num.fin 0) a (by simp) hself with h1 | h1
  · by_contra hc
    have hle : le a (Num.fin 0) = true := by
      by_contra hc2
      exact hc ((LawfulFloat.lt_iff _ _).mpr ⟨h1, by simpa using hc2⟩)
    have := rd_mono (R := R) _ _ hle
    rw [rd_zero] at this
    rw [((LawfulFloat.lt_iff _ _).mp h).2] at this
    cases this
  · have := rd_mono (R := R) _ _ h1
    rw [rd_zero] at this
    rw [((LawfulFloat.lt_iff _ _).mp h).2] at this
    cases this

/-- `-1.0 * (u - x)` for `u < x` -/
theorem neg_diff_pos (u x : Dbl R) (h : lt u.val x.val = true) : lt (.fin 0) ((lit (-1) : Dbl R) * (u - x)).val = true := by
  rw [val_mul, val_lit_neg_one, val_sub]
  cases hu : u.val with
  | fin a =>
    cases hx : x.val with
    | fin b =>
      rw [hu, hx] at h
      simp only [Num.fin_lt, decide_eq_true_eq] at h
      have hn := R.near_sub_neg (val_mem u a hu).1 (val_mem x b hx).1 h
      rw [Num.fin_sub, rd_fin]
      split
      · rw [if_pos (by linarith), Num.fin_mul_ninf, Num.infSign_neg (by norm_num)]
        rfl
      · rw [Num.fin_mul]
        have e : (-1 : ℝ) * R.near (a - b) = -R.near (a - b) := by ring
        have hb : IsB64 (-R.near (a - b)) := isB64_neg (R.near_mem _)
        rw [e, rd_self _ hb (val_mem (R := R) (num _ hb (by linarith)) _ rfl).2]
        simpa using hn
    | pinf => rw [Num.fin_sub_pinf]; show lt _ (rd R (Num.fin (-1) * Num.ninf)) = true; rw [Num.fin_mul_ninf, Num.infSign_neg (by norm_num)]; rfl
    | ninf => rw [hu, hx] at h; simp at h
    | nan => rw [hu, hx] at h; simp at h
  | pinf => rw [hu] at h; simp at h
  | ninf =>
    cases hx : x.val with
    | fin b => rw [Num.ninf_sub_fin]; show lt _ (rd R (Num.fin (-1) * Num.ninf)) = true; rw [Num.fin_mul_ninf, Num.infSign_neg (by norm_num)]; rfl
    | pinf => rw [Num.ninf_sub_pinf]; show lt _ (rd R (Num.fin (-1) * Num.ninf)) = true; rw [Num.fin_mul_ninf, Num.infSign_neg (by norm_num)]; rfl
    | ninf => rw [hu, hx] at h; simp at h
    | nan => rw [hu, hx] at h; simp at h
  | nan => rw [hu] at h; simp at h

theorem fin_one_mul (a : Num) : (Num.fin 1 * a : Num) = a := by
  cases a with
  | fin r => simp
  | pinf => rw [Num.fin_mul_pinf, Num.infSign_pos (by norm_num)]
  | ninf => rw [Num.fin_mul_ninf, Num.infSign_pos (by norm_num)]; rfl
  | nan => simp

/-- `1.0 * (l - x)` for `x < l` -/
theorem diff_pos (l x : Dbl R) (h : lt x.val l.val = true) : lt (.fin 0) ((lit 1 : Dbl R) * (l - x)).val = true := by
  rw [val_mul, val_lit_one, fin_one_mul, rd_val, val_sub]
  cases hl : l.val with
  | fin a =>
    cases hx : x.val with
    | fin b =>
      rw [hl, hx] at h
      simp only [Num.fin_lt, decide_eq_true_eq] at h
      have hn := R.near_sub_neg (isB64_neg (val_mem l a hl).1) (isB64_neg (val_mem x b hx).1) (by linarith)
      rw [Num.fin_sub, rd_fin]
      split
      · rw [if_neg (by linarith)]; rfl
      · have h1 := isB64_sub a b (val_mem l a hl).1 (val_mem x b hx).1 h.ne'
        rw [abs_of_pos (by linarith)] at h1
        have h2 := R.near_mono h1
        rw [R.near_self isB64_min] at h2
        have : (0 : ℝ) < 2 ^ (-1074 : ℤ) := zpow_pos (by norm_num) _
        simp only [Num.fin_lt, decide_eq_true_eq]
        linarith
    | pinf => rw [hx] at h; simp at h
    | ninf => rfl
    | nan => rw [hx] at h; simp at h
  | pinf =>
    cases hx : x.val with
    | fin b => rfl
    | pinf => rw [hx] at h; simp at h
    | ninf => rfl
    | nan => rw [hx] at h; simp at h
  | ninf => rw [hl] at h; simp at h
  | nan => rw [hl] at h; simp at h

theorem not_nan_of_mul_sub (c u x : Dbl R) (h : le (c * (u - x)).val (.fin 0) = true) : le u.val u.val = true ∧ le x.val x.val = true ∧ (u - x).val ≠ .nan := by
  have hnn : isNaN (c * (u - x)).val = false := by
    cases hq : (c * (u - x)).val <;> rw [hq] at h <;> simp_all
  rw [val_mul, rd_nan] at hnn
  have hs : (u - x).val ≠ .nan := by
    intro hq; rw [hq] at hnn; simp at hnn
  have hs' := hs
  rw [val_sub] at hs'
  refine ⟨?_, ?_, hs⟩
  · cases hu : u.val <;> simp_all
    exact hs' rfl
  · cases hx : x.val <;> simp_all
    exact hs' rfl

theorem val_eq_pinf (x : Dbl R) (h : x.val = .pinf) : x = inf false := by
  cases x with
  | inf b => cases b <;> [rfl; cases h]
  | zero b => cases h
  | num => cases h
  | nan => cases h

theorem val_eq_ninf (x : Dbl R) (h : x.val = .ninf) : x = inf true := by
  cases x with
  | inf b => cases b <;> [cases h; rfl]
  | zero b => cases h
  | num => cases h
  | nan => cases h

theorem div_zero_nan (a b : Dbl R) (h : isNaN a.val = true ∨ isNaN b.val = true) : isNaN (a / b).val = true := by
  by_cases hb : b.val = .fin 0
  · rw [hb] at h
    simp only [Num.fin_isNaN, Bool.false_eq_true, or_false] at h
    have ha : a.val = .nan := by cases hq : a.val <;> rw [hq] at h <;> simp_all
    show isNaN (Dbl.div a b).val = true
    rw [Dbl.div, if_pos hb, if_pos (Or.inr ha)]; rfl
  · rw [val_div a b hb, rd_nan]
    rcases h with h | h
    · exact LawfulFloat.nan_div_left _ _ h
    · exact LawfulFloat.nan_div_right _ _ h

theorem add_nonneg (a b : Dbl R) (ha : le (.fin 0) a.val = true ∨ isNaN a.val = true) (hb : le (.fin 0) b.val = true ∨ isNaN b.val = true) :
    le (.fin 0) (a.add b).val = true ∨ isNaN (a.add b).val = true := by
  rw [show (a.add b).val = rd R (a.val + b.val) from val_add a b]
  exact rd_nonneg _ (Num.add_nonneg_or_nan _ _ ha hb)

theorem treeSum_nonneg (l : List (Dbl R)) (h : ∀ a ∈ l, le (.fin 0) a.val = true ∨ isNaN a.val = true) (t : SumTree) :
    le (.fin 0) (treeSum l t).val = true ∨ isNaN (treeSum l t).val = true := by
  induction t with
  | leaf i =>
    unfold treeSum
    rw [List.getD_eq_getElem?_getD]
    cases hq : l[i]? with
    | none => left; simp [val]
    | some a => exact h a (List.mem_of_getElem? hq)
  | node a b iha ihb => exact add_nonneg _ _ iha ihb

theorem mul_pos_pos (a b : Num) (ha : le (.fin 0) a = true) (hb : le (.fin 0) b = true ∨ isNaN b = true) :
    le (.fin 0) (a * b) = true ∨ isNaN (a * b) = true := by
  rcases hb with hb | hb
  · simpa using LawfulFloat.mul_nonneg a b (by simpa using ha) (by simpa using hb)
  · exact Or.inr (LawfulFloat.nan_mul_right _ _ hb)

theorem mul_neg_neg (a b : Num) (ha : le a (.fin 0) = true) (hb : le b (.fin 0) = true ∨ isNaN b = true) :
    le (.fin 0) (a * b) = true ∨ isNaN (a * b) = true := by
  have e : a * b = (-a) * (-b) := by
    cases a <;> cases b <;> simp [Num.fin_mul_pinf, Num.fin_mul_ninf, Num.pinf_mul_fin, Num.ninf_mul_fin]
    all_goals
      rename_i r
      rcases Num.infSign_cases r with ⟨h, h'⟩ | ⟨h, h'⟩ | ⟨h, h'⟩
      · rw [h', Num.infSign_neg (by linarith)]; rfl
      · rw [h', Num.infSign_pos (by linarith)]; rfl
      · subst h; simp
  rw [e]
  refine mul_pos_pos _ _ ?_ ?_
  · cases a <;> simp_all
  · cases b <;> simp_all

theorem mul_pos_neg (a b : Num) (ha : le (.fin 0) a = true) (hb : le b (.fin 0) = true) :
    le (a * b) (.fin 0) = true ∨ isNaN (a * b) = true := by
  cases a <;> cases b <;> simp_all
  · exact mul_nonpos_of_nonneg_of_nonpos ha hb
  · rename_i r
    rcases Num.infSign_cases r with ⟨h, h'⟩ | ⟨h, h'⟩ | ⟨h, h'⟩ <;> simp [Num.fin_mul_ninf, h']
    linarith
  · rename_i r
    rcases Num.infSign_cases r with ⟨h, h'⟩ | ⟨h, h'⟩ | ⟨h, h'⟩ <;> simp [Num.pinf_mul_fin, h']
    linarith

/-- binary64 arithmetic with any tie rule and any summation order satisfies the laws used by the control-flow theorems -/
instance : LawfulFloat (Dbl R) where
  le_trans a b c := LawfulFloat.le_trans a.val b.val c.val
  le_total a b := LawfulFloat.le_total a.val b.val
  le_self_left a b := LawfulFloat.le_self_left a.val b.val
  le_self_right a b := LawfulFloat.le_self_right a.val b.val
  lt_iff a b := LawfulFloat.lt_iff a.val b.val
  finite_self a := LawfulFloat.finite_self a.val
  le_inf a := LawfulFloat.le_inf a.val
  inf_not_finite := rfl
  finite_lt_inf a := LawfulFloat.finite_lt_inf a.val
  finite_of_between a b c := LawfulFloat.finite_of_between a.val b.val c.val
  lit_self q := by
    rw [le_def, val_lit]
    exact rd_mono _ _ (by simp)
  lit_mono p q h := by
    rw [le_def, val_lit, val_lit]
    exact rd_mono _ _ (by simpa using h)
  lit_finite_zero := by rw [isFinite_def, val_lit_zero]; rfl
  zero_lt_one := by rw [lt_def, val_lit_zero, val_lit_one]; simp
  upper_check u x h := by
    rw [le_def, val_lit_zero] at h
    obtain ⟨hu, hx, hs⟩ := not_nan_of_mul_sub _ _ _ h
    constructor
    · by_contra hc
      have hlt : lt u.val x.val = true := by
        refine (LawfulFloat.lt_iff _ _).mpr ⟨?_, by simpa [le_def] using hc⟩
        rcases LawfulFloat.le_total u.val x.val hu hx with h1 | h1
        · exact h1
        · exact absurd h1 hc
      have := neg_diff_pos u x hlt
      rw [((LawfulFloat.lt_iff _ _).mp this).2] at h
      cases h
    · rintro rfl
      have hv : (FloatOps.inf : Dbl R).val = .pinf := rfl
      by_cases hup : u.val = .pinf
      · apply hs; rw [val_sub, hv, hup]; rfl
      · have := neg_diff_pos u FloatOps.inf (by
          rw [hv]
          cases hq : u.val with
          | fin r => rfl
          | pinf => exact absurd hq hup
          | ninf => rfl
          | nan => rw [hq] at hu; cases hu)
        rw [((LawfulFloat.lt_iff _ _).mp this).2] at h
        cases h
  lower_check l x h := by
    rw [le_def, val_lit_zero] at h
    obtain ⟨hl, hx, hs⟩ := not_nan_of_mul_sub _ _ _ h
    constructor
    · by_contra hc
      have hlt : lt x.val l.val = true := by
        refine (LawfulFloat.lt_iff _ _).mpr ⟨?_, by simpa [le_def] using hc⟩
        rcases LawfulFloat.le_total l.val x.val hl hx with h1 | h1
        · exact absurd h1 hc
        · exact h1
      have := diff_pos l x hlt
      rw [((LawfulFloat.lt_iff _ _).mp this).2] at h
      cases h
    · rintro rfl
      have hv : (-FloatOps.inf : Dbl R).val = .ninf := rfl
      by_cases hup : l.val = .ninf
      · apply hs; rw [val_sub, hv, hup]; rfl
      · have := diff_pos l (-FloatOps.inf) (by
          rw [hv]
          cases hq : l.val with
          | fin r => rfl
          | pinf => rfl
          | ninf => exact absurd hq hup
          | nan => rw [hq] at hl; cases hl)
        rw [((LawfulFloat.lt_iff _ _).mp this).2] at h
        cases h
  nonfinite_cases x h1 h2 := by
    cases x with
    | zero b => cases h2
    | num => cases h2
    | inf b => cases b <;> [left; right] <;> rfl
    | nan => cases h1
  sub_pos a b h := by
    rw [lt_def, val_lit_zero, val_sub] at h
    have := rd_pos _ h
    rw [lt_def]
    exact LawfulFloat.sub_pos a.val b.val (by simpa using this)
  abs_nonneg a h := by
    rw [le_def, val_lit_zero, val_abs]
    simpa using LawfulFloat.abs_nonneg a.val h
  mul_nonneg a b ha hb := by
    rw [le_def, val_lit_zero] at ha hb
    rw [le_def, val_lit_zero, isNaN_def, val_mul]
    exact rd_nonneg _ (mul_pos_pos _ _ ha (Or.inl hb))
  mul_square_nonneg x c hc := by
    rw [le_def, val_lit_zero] at hc
    rw [le_def, val_lit_zero, isNaN_def, val_mul, val_mul]
    refine rd_nonneg _ ?_
    by_cases hn : isNaN x.val = true
    · exact Or.inr (LawfulFloat.nan_mul_left _ _ hn)
    · have hx : le x.val x.val = true := by simpa [isNaN] using hn
      rcases LawfulFloat.le_total (Num.fin 0) x.val (by simp) hx with h | h
      · exact mul_pos_pos _ _ h (rd_nonneg _ (mul_pos_pos _ _ hc (Or.inl h)))
      · refine mul_neg_neg _ _ h ?_
        rcases mul_pos_neg c.val x.val hc h with h1 | h1
        · left; have := rd_mono (R := R) _ _ h1; rwa [rd_zero] at this
        · right; rwa [rd_nan]
  sum_nonneg l h := by
    rw [le_def, val_lit_zero, isNaN_def]
    show le _ (if l.length = 0 then zero false else treeSum l (R.order l.length)).val = true ∨
      isNaN (if l.length = 0 then zero false else treeSum l (R.order l.length)).val = true
    split
    · left; simp [val]
    · refine treeSum_nonneg l (fun a ha => ?_) _
      have := h a ha
      rwa [le_def, val_lit_zero, isNaN_def] at this
  nan_mul_right a b h := by rw [isNaN_def, val_mul, rd_nan]; exact LawfulFloat.nan_mul_right _ _ h
  nan_mul_left a b h := by rw [isNaN_def, val_mul, rd_nan]; exact LawfulFloat.nan_mul_left _ _ h
  nan_sub_right a b h := by rw [isNaN_def, val_sub, rd_nan]; exact LawfulFloat.nan_sub_right _ _ h
  nan_div_left a b h := by rw [isNaN_def]; exact div_zero_nan a b (Or.inl h)
  nan_div_right a b h := by rw [isNaN_def]; exact div_zero_nan a b (Or.inr h)
  div_pos a b hb h := by
    rw [lt_def, val_lit_zero] at hb h ⊢
    have hne : b.val ≠ .fin 0 := by intro hq; rw [hq] at hb; simp at hb
    rw [val_div a b hne] at h
    have := LawfulFloat.div_pos a.val b.val (by simpa using hb) (by simpa using rd_pos _ h)
    simpa using this

end Dbl
end
end Fides
