import Verif.Binary64

/-! Helper lemmas: computing with doubles whose values are known. -/

open Classical

namespace Fides

noncomputable section

/-- two values of the format differ by at least the spacing at the larger one -/
theorem isB64_gap (d : ℝ) (hd : IsB64 d) (m e : ℤ) (hm : 2 ^ 52 < m) (hne : d ≠ m * (2 : ℝ) ^ e) :
    (2 : ℝ) ^ e ≤ |d - m * (2 : ℝ) ^ e| := by
  obtain ⟨m', e', h1, h2, h3, rfl⟩ := hd
  have hpos : (0 : ℝ) < 2 ^ e := zpow_pos (by norm_num) _
  by_cases hee : e ≤ e'
  · obtain ⟨k, rfl⟩ := Int.le.dest hee
    have hk : (2 : ℝ) ^ (e + k) = 2 ^ k * 2 ^ e := by
      rw [zpow_add₀ (by norm_num), zpow_natCast]; ring
    have hcast : (m' : ℝ) * 2 ^ (e + (k : ℤ)) - m * 2 ^ e = ((m' * 2 ^ k - m : ℤ) : ℝ) * 2 ^ e := by
      rw [hk]; push_cast; ring
    have hz : (m' * 2 ^ k - m : ℤ) ≠ 0 := by
      intro h0
      apply hne
      have := hcast
      rw [h0] at this
      simp only [Int.cast_zero, zero_mul] at this
      linarith
    rw [hcast, abs_mul, abs_of_pos hpos, ← Int.cast_abs]
    have : (1 : ℝ) ≤ (|m' * 2 ^ k - m| : ℤ) := by exact_mod_cast Int.one_le_abs hz
    nlinarith
  · have he' : e' ≤ e - 1 := by omega
    have hle : (2 : ℝ) ^ e' ≤ 2 ^ (e - 1) := zpow_le_zpow_right₀ (by norm_num) he'
    have hhalf : (2 : ℝ) ^ (e - 1) = 2 ^ e / 2 := by rw [zpow_sub₀ (by norm_num)]; norm_num
    have hm' : (m' : ℝ) ≤ 2 ^ 53 := by
      have := le_of_lt (lt_of_le_of_lt (le_abs_self m') h1)
      exact_mod_cast this
    have hp' : (0 : ℝ) < 2 ^ e' := zpow_pos (by norm_num) _
    have hup : (m' : ℝ) * 2 ^ e' ≤ 2 ^ 52 * 2 ^ e := by
      calc (m' : ℝ) * 2 ^ e' ≤ 2 ^ 53 * 2 ^ e' := by nlinarith
        _ ≤ 2 ^ 53 * 2 ^ (e - 1) := by nlinarith
        _ = 2 ^ 52 * 2 ^ e := by rw [hhalf]; ring
    have hm2 : (2 : ℝ) ^ 52 + 1 ≤ m := by exact_mod_cast hm
    rw [abs_sub_comm]
    refine le_trans ?_ (le_abs_self _)
    nlinarith

namespace Rounding
variable (R : Rounding)

/-- a number closer than half the spacing to a value of the format is rounded to it -/
theorem near_eq (x : ℝ) (m e : ℤ) (hm : 2 ^ 52 < m) (hy : IsB64 (m * (2 : ℝ) ^ e)) (hx : |x - m * (2 : ℝ) ^ e| < 2 ^ e / 2) :
    R.near x = m * (2 : ℝ) ^ e := by
  by_contra hne
  have h1 := isB64_gap (R.near x) (R.near_mem x) m e hm hne
  have h2 := R.near_best x _ hy
  have h3 : |R.near x - m * (2 : ℝ) ^ e| ≤ |x - R.near x| + |x - m * (2 : ℝ) ^ e| := by
    have : R.near x - m * (2 : ℝ) ^ e = -(x - R.near x) + (x - m * (2 : ℝ) ^ e) := by ring
    rw [this]
    refine le_trans (abs_add_le _ _) ?_
    rw [abs_neg]
  linarith

end Rounding

/-- no value of the format lies strictly between `m * 2^e` and `(m + 1) * 2^e` -/
theorem isB64_between (d : ℝ) (hd : IsB64 d) (m e : ℤ) (hm : 2 ^ 52 ≤ m) : d ≤ m * (2 : ℝ) ^ e ∨ (m + 1) * (2 : ℝ) ^ e ≤ d := by
  obtain ⟨m', e', h1, h2, h3, rfl⟩ := hd
  have hpos : (0 : ℝ) < 2 ^ e := zpow_pos (by norm_num) _
  by_cases hee : e ≤ e'
  · obtain ⟨k, rfl⟩ := Int.le.dest hee
    have hk : (m' : ℝ) * 2 ^ (e + (k : ℤ)) = ((m' * 2 ^ k : ℤ) : ℝ) * 2 ^ e := by
      rw [zpow_add₀ (by norm_num), zpow_natCast]; push_cast; ring
    rw [hk]
    rcases le_or_gt (m' * 2 ^ k) m with h | h
    · left
      have : ((m' * 2 ^ k : ℤ) : ℝ) ≤ m := by exact_mod_cast h
      nlinarith
    · right
      have : (m : ℝ) + 1 ≤ ((m' * 2 ^ k : ℤ) : ℝ) := by exact_mod_cast h
      nlinarith
  · left
    have he' : e' ≤ e - 1 := by omega
    have hle : (2 : ℝ) ^ e' ≤ 2 ^ (e - 1) := zpow_le_zpow_right₀ (by norm_num) he'
    have hhalf : (2 : ℝ) ^ (e - 1) = 2 ^ e / 2 := by rw [zpow_sub₀ (by norm_num)]; norm_num
    have hm' : (m' : ℝ) ≤ 2 ^ 53 := by
      have := le_of_lt (lt_of_le_of_lt (le_abs_self m') h1)
      exact_mod_cast this
    have hp' : (0 : ℝ) < 2 ^ e' := zpow_pos (by norm_num) _
    have hm2 : (2 : ℝ) ^ 52 ≤ m := by exact_mod_cast hm
    calc (m' : ℝ) * 2 ^ e' ≤ 2 ^ 53 * 2 ^ e' := by nlinarith
      _ ≤ 2 ^ 53 * 2 ^ (e - 1) := by nlinarith
      _ = 2 ^ 52 * 2 ^ e := by rw [hhalf]; ring
      _ ≤ m * 2 ^ e := by nlinarith

/-- the numbers halfway between two positive normal values -/
def IsTie (x : ℝ) (m e : ℤ) : Prop := 2 ^ 52 ≤ m ∧ m + 1 < 2 ^ 53 ∧ -1074 ≤ e ∧ e ≤ 971 ∧ x = (m + 1 / 2) * (2 : ℝ) ^ e

/-- the even neighbour -/
def evenNeighbour (m e : ℤ) : ℝ := (if Even m then m else m + 1 : ℤ) * (2 : ℝ) ^ e

/-- ties go to the even neighbour (for positive normal values; the part of IEEE `roundTiesToEven` used below) -/
def TiesToEven (R : Rounding) : Prop := ∀ x m e, IsTie x m e → R.near x = evenNeighbour m e

theorem isTie_unique (x : ℝ) (m e m' e' : ℤ) (h : IsTie x m e) (h' : IsTie x m' e') : m = m' ∧ e = e' := by
  have key : ∀ m e m' e' : ℤ, IsTie x m e → IsTie x m' e' → ¬ e < e' := by
    intro m e m' e' ⟨h1, h2, _, _, h5⟩ ⟨h1', h2', _, _, h5'⟩ hlt
    obtain ⟨k, hk⟩ := Int.le.dest (show e + 1 ≤ e' by omega)
    have hpos : (0 : ℝ) < 2 ^ e := zpow_pos (by norm_num) _
    have he' : (2 : ℝ) ^ e' = 2 ^ k * 2 * 2 ^ e := by
      rw [← hk, zpow_add₀ (by norm_num), zpow_add₀ (by norm_num), zpow_natCast]; ring
    rw [h5, he'] at h5'
    have h6 : ((m : ℝ) + 1 / 2) = (m' + 1 / 2) * (2 ^ k * 2) := by
      have := mul_right_cancel₀ hpos.ne' (show ((m : ℝ) + 1 / 2) * 2 ^ e = ((m' + 1 / 2) * (2 ^ k * 2)) * 2 ^ e by rw [h5']; ring)
      exact this
    have h7 : 2 * m + 1 = 2 * ((2 * m' + 1) * 2 ^ k) := by
      have : ((2 * m + 1 : ℤ) : ℝ) = ((2 * ((2 * m' + 1) * 2 ^ k) : ℤ) : ℝ) := by
        push_cast; linarith
      exact_mod_cast this
    omega
  have he : e = e' := le_antisymm (not_lt.mp (key _ _ _ _ h' h)) (not_lt.mp (key _ _ _ _ h h'))
  subst he
  refine ⟨?_, rfl⟩
  have hpos : (0 : ℝ) < 2 ^ e := zpow_pos (by norm_num) _
  have h1 := h.2.2.2.2
  rw [h'.2.2.2.2] at h1
  have := mul_right_cancel₀ hpos.ne' h1
  have : (m' : ℝ) = m := by linarith
  exact_mod_cast this.symm

theorem isB64_evenNeighbour (m e : ℤ) (h1 : 2 ^ 52 ≤ m) (h2 : m + 1 < 2 ^ 53) (h3 : -1074 ≤ e) (h4 : e ≤ 971) : IsB64 (evenNeighbour m e) := by
  refine ⟨_, e, ?_, h3, h4, rfl⟩
  split <;> rw [abs_of_pos] <;> omega

/-- round to nearest, ties to even -/
def evenRounding : Rounding where
  near x := if h : ∃ p : ℤ × ℤ, IsTie x p.1 p.2 then evenNeighbour h.choose.1 h.choose.2 else someRounding.near x
  near_mem x := by
    split
    · rename_i h
      obtain ⟨h1, h2, h3, h4, _⟩ := h.choose_spec
      exact isB64_evenNeighbour _ _ h1 h2 h3 h4
    · exact someRounding.near_mem x
  near_best x d hd := by
    split
    · rename_i h
      obtain ⟨h1, h2, h3, h4, h5⟩ := h.choose_spec
      generalize h.choose.1 = m at *
      generalize h.choose.2 = e at *
      have hpos : (0 : ℝ) < 2 ^ e := zpow_pos (by norm_num) _
      have hl : |x - evenNeighbour m e| = 2 ^ e / 2 := by
        rw [h5, evenNeighbour]
        split
        · rw [abs_of_pos] <;> nlinarith
        · push_cast
          rw [abs_of_neg] <;> nlinarith
      rw [hl, h5]
      rcases isB64_between d hd m e h1 with h | h
      · refine le_trans ?_ (le_abs_self _); nlinarith
      · rw [abs_sub_comm]; refine le_trans ?_ (le_abs_self _); nlinarith
    · exact someRounding.near_best x d hd
  order := someRounding.order
  order_all := someRounding.order_all

theorem evenRounding_even : TiesToEven evenRounding := by
  intro x m e h
  have hex : ∃ p : ℤ × ℤ, IsTie x p.1 p.2 := ⟨(m, e), h⟩
  show (if h : ∃ p : ℤ × ℤ, IsTie x p.1 p.2 then evenNeighbour h.choose.1 h.choose.2 else someRounding.near x) = _
  rw [dif_pos hex]
  obtain ⟨h1, h2⟩ := isTie_unique x _ _ _ _ hex.choose_spec h
  rw [h1, h2]

theorem isB64_lt {x : ℝ} (h : IsB64 x) : |x| < overflow64 := by
  by_cases hz : x = 0
  · subst hz; rw [abs_zero]; linarith [Dbl.overflow_big]
  · exact (Dbl.val_mem (Dbl.num x h hz : Dbl someRounding) x rfl).2

namespace Dbl
variable {R : Rounding}
open Num

theorem v_add {a b : Dbl R} {r s : ℝ} (ha : a.val = .fin r) (hb : b.val = .fin s) (h : IsB64 (r + s)) : (a + b).val = .fin (r + s) := by
  rw [val_add, ha, hb, Num.fin_add, rd_self _ h (isB64_lt h)]
theorem v_sub {a b : Dbl R} {r s : ℝ} (ha : a.val = .fin r) (hb : b.val = .fin s) (h : IsB64 (r - s)) : (a - b).val = .fin (r - s) := by
  rw [val_sub, ha, hb, Num.fin_sub, rd_self _ h (isB64_lt h)]
theorem v_mul {a b : Dbl R} {r s : ℝ} (ha : a.val = .fin r) (hb : b.val = .fin s) (h : IsB64 (r * s)) : (a * b).val = .fin (r * s) := by
  rw [val_mul, ha, hb, Num.fin_mul, rd_self _ h (isB64_lt h)]
theorem v_div {a b : Dbl R} {r s : ℝ} (ha : a.val = .fin r) (hb : b.val = .fin s) (hs : s ≠ 0) (h : IsB64 (r / s)) :
    (a / b).val = .fin (r / s) := by
  rw [val_div _ _ (by rw [hb]; simpa using hs), ha, hb, Num.fin_div _ _ hs, rd_self _ h (isB64_lt h)]
theorem v_neg {a : Dbl R} {r : ℝ} (ha : a.val = .fin r) : (-a).val = .fin (-r) := by rw [val_neg, ha, Num.fin_neg]
theorem v_abs {a : Dbl R} {r : ℝ} (ha : a.val = .fin r) : (FloatOps.abs a).val = .fin |r| := by rw [val_abs, ha, Num.fin_abs]
theorem v_lit (q : ℚ) (h : IsB64 q) : (lit q : Dbl R).val = .fin q := by rw [val_lit, rd_self _ h (isB64_lt h)]
theorem v_sqrt {a : Dbl R} {r : ℝ} (ha : a.val = .fin r) (hr : 0 ≤ r) (h : IsB64 (Real.sqrt r)) : (FloatOps.sqrt a).val = .fin (Real.sqrt r) := by
  have : FloatOps.sqrt (Num.fin r) = Num.fin (Real.sqrt r) := by simp [hr]
  rw [val_sqrt, ha, this, rd_self _ h (isB64_lt h)]

/-- finite results are rounded to nearest -/
theorem v_rd {r : ℝ} (h : |r| < overflow64) : rd R (.fin r) = .fin (R.near r) := by
  rw [rd_fin, if_neg (not_le.mpr h)]

theorem lt_iff {a b : Dbl R} {r s : ℝ} (ha : a.val = .fin r) (hb : b.val = .fin s) : lt a b = decide (r < s) := by
  rw [lt_def, ha, hb, Num.fin_lt]
theorem le_iff {a b : Dbl R} {r s : ℝ} (ha : a.val = .fin r) (hb : b.val = .fin s) : le a b = decide (r ≤ s) := by
  rw [le_def, ha, hb, Num.fin_le]
theorem feq_iff {a b : Dbl R} {r s : ℝ} (ha : a.val = .fin r) (hb : b.val = .fin s) : feq a b = decide (r = s) := by
  rw [feq, le_iff ha hb, le_iff hb ha, ← Bool.decide_and]
  congr 1
  exact propext le_antisymm_iff.symm
theorem nn {a : Dbl R} {r : ℝ} (ha : a.val = .fin r) : isNaN a = false := by
  rw [isNaN, le_iff ha ha]; simp
theorem ff {a : Dbl R} {r : ℝ} (ha : a.val = .fin r) : isFinite a = true := by
  rw [isFinite_def, ha]; rfl

theorem order_one : R.order 1 = .leaf 0 := by
  have h := R.order_all 1 (by norm_num)
  have h2 : ∀ t : SumTree, 0 < t.leaves.length := by
    intro t
    induction t with
    | leaf i => simp [SumTree.leaves]
    | node l r ihl ihr => simp [SumTree.leaves]; omega
  cases ht : R.order 1 with
  | leaf i =>
    rw [ht] at h
    have : [i].Perm [0] := h
    simp at this
    rw [this]
  | node l r =>
    rw [ht] at h
    have hl := h.length_eq
    simp [SumTree.leaves] at hl
    have := h2 l
    have := h2 r
    omega

theorem sum_one (a : Dbl R) : FloatOps.sum [a] = a := by
  show (if ([a] : List (Dbl R)).length = 0 then zero false else treeSum [a] (R.order ([a] : List (Dbl R)).length)) = a
  simp [order_one, treeSum]

theorem dot_one (v w : Vec (Dbl R) 1) : dot v w = v 0 * w 0 := by
  rw [dot, List.ofFn_succ, List.ofFn_zero, sum_one]

theorem mulVec_one (b : Mat (Dbl R) 1 1) (v : Vec (Dbl R) 1) : mulVec b v = fun i => b i 0 * v 0 := by
  funext i; exact dot_one _ _

theorem vecMul_one (b : Mat (Dbl R) 1 1) (v : Vec (Dbl R) 1) : vecMul v b = fun j => v 0 * b 0 j := by
  funext i; exact dot_one _ _

theorem norm_one (v : Vec (Dbl R) 1) : norm v = FloatOps.sqrt (v 0 * v 0) := by rw [norm, dot_one]

theorem inf_val : (FloatOps.inf : Dbl R).val = .pinf := rfl

theorem vmin_one (v : Vec (Dbl R) 1) (h : isNaN (v 0) = false) (hi : (v 0).val ≠ .pinf) : vmin v = v 0 := by
  rw [vmin, List.ofFn_succ, List.ofFn_zero]
  show npMin2 FloatOps.inf (v 0) = _
  unfold npMin2
  have hn : isNaN (FloatOps.inf : Dbl R) = false := by rw [isNaN_def, inf_val]; rfl
  rw [if_neg (by simp [hn]), if_neg (by simp [h])]
  have : lt (v 0) FloatOps.inf = true := by
    rw [lt_def, inf_val]
    rw [isNaN_def] at h
    cases hv : (v 0).val with
    | fin r => rfl
    | pinf => exact absurd hv hi
    | ninf => rfl
    | nan => rw [hv] at h; cases h
  rw [if_pos this]

end Dbl
end
end Fides
