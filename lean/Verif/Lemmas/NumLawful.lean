import Verif.Num
import Mathlib.Tactic.Ring

/-! The exact arithmetic `Num` satisfies the laws `LawfulFloat`. -/

open Classical

namespace Fides
namespace Num

theorem infSign_cases (r : ℝ) :
    (0 < r ∧ infSign r = pinf) ∨ (r < 0 ∧ infSign r = ninf) ∨ (r = 0 ∧ infSign r = nan) := by
  rcases lt_trichotomy r 0 with h | h | h
  · right; left; simp [infSign, h, not_lt.mpr h.le]
  · right; right; simp [infSign, h]
  · left; simp [infSign, h]

theorem sum_nil : FloatOps.sum ([] : List Num) = fin 0 := rfl
theorem sum_cons (a : Num) (l : List Num) : FloatOps.sum (a :: l) = a + FloatOps.sum l := rfl

theorem add_nonneg_or_nan (a b : Num) (ha : le (fin 0) a = true ∨ isNaN a = true)
    (hb : le (fin 0) b = true ∨ isNaN b = true) : le (fin 0) (a + b) = true ∨ isNaN (a + b) = true := by
  cases a <;> cases b <;> simp_all
  linarith

instance : LawfulFloat Num where
  le_trans a b c h1 h2 := by
    cases a <;> cases b <;> cases c <;> simp_all
    linarith
  le_total a b h1 h2 := by
    cases a <;> cases b <;> simp_all [le_total]
  le_self_left a b h := by cases a <;> cases b <;> simp_all
  le_self_right a b h := by cases a <;> cases b <;> simp_all
  lt_iff a b := by
    cases a <;> cases b <;> simp_all
    exact fun h => h.le
  finite_self a h := by cases a <;> simp_all
  le_inf a h := by cases a <;> simp_all
  inf_not_finite := rfl
  finite_lt_inf a h := by cases a <;> simp_all
  finite_of_between a b c h1 h2 h3 h4 := by cases a <;> cases b <;> cases c <;> simp_all
  lit_self q := by simp
  lit_mono p q h := by simpa using h
  lit_finite_zero := rfl
  zero_lt_one := by simp
  upper_check u x h := by
    cases u <;> cases x <;> simp_all
    all_goals (rw [fin_mul_ninf, infSign_neg (by norm_num)] at h; simp at h)
  lower_check l x h := by
    cases l <;> cases x <;> simp_all
    all_goals (rw [fin_mul_pinf, infSign_pos (by norm_num)] at h; simp at h)
  nonfinite_cases x h1 h2 := by cases x <;> simp_all
  sub_pos a b h := by
    cases a <;> cases b <;> simp_all
  abs_nonneg a h := by cases a <;> simp_all
  mul_nonneg a b ha hb := by
    cases a <;> cases b <;> simp_all
    · positivity
    · rename_i r
      rcases infSign_cases r with h | h | h <;> simp [fin_mul_pinf, h.2]
      linarith
    · rename_i r
      rcases infSign_cases r with h | h | h <;> simp [pinf_mul_fin, h.2]
      linarith
  mul_square_nonneg x c hc := by
    cases x <;> cases c <;> simp_all
    · rename_i x c
      have : x * (c * x) = c * (x * x) := by ring
      rw [this]; exact _root_.mul_nonneg hc (mul_self_nonneg x)
    · rename_i x
      rcases infSign_cases x with h | h | h
      · simp [pinf_mul_fin, fin_mul_pinf, h.2]
      · simp [pinf_mul_fin, fin_mul_ninf, h.2]
      · simp [pinf_mul_fin, h.2]
    · rename_i x
      rcases infSign_cases x with h | h | h <;> simp [fin_mul_pinf, h.2]
      linarith
    · rename_i x
      rcases infSign_cases x with h | h | h <;> simp [fin_mul_ninf, h.2]
      linarith
  sum_nonneg l h := by
    induction l with
    | nil => left; simp [sum_nil]
    | cons a l ih =>
      rw [sum_cons]
      simpa using add_nonneg_or_nan _ _ (by simpa using h a (by simp)) (by simpa using ih (fun b hb => h b (by simp [hb])))
  nan_mul_right a b h := by cases b <;> simp_all
  nan_mul_left a b h := by cases a <;> simp_all
  nan_sub_right a b h := by cases b <;> simp_all
  nan_div_left a b h := by cases a <;> simp_all
  nan_div_right a b h := by cases b <;> simp_all
  div_pos a b hb h := by
    cases a <;> cases b <;> simp_all
    · rename_i a b
      rw [fin_div _ _ hb.ne'] at h
      simp at h
      exact (div_pos_iff_of_pos_right hb).mp h
    · rw [ninf_div_fin, if_neg (not_lt.mpr hb.le)] at h
      simp at h

end Num
end Fides
