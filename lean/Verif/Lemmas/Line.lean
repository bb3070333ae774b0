import Verif.Lemmas.Consistent

/-! Helper lemmas: one-dimensional subspaces. -/

namespace Fides
open Num Spec
variable {n : ℕ}

theorem normalize_ofV (u : Fin n → ℝ) : normalize (ofV u) = ofV ((rnorm u)⁻¹ • u) := by
  simp only [normalize, norm_ofV, lit_def, Rat.cast_zero, fin_lt, decide_eq_true_eq]
  split
  · rename_i h
    funext i
    rw [ofV_apply, fin_div _ _ h.ne']
    simp [div_eq_inv_mul]
  · rename_i h
    have : u = 0 := rnorm_eq_zero.mp (le_antisymm (not_lt.mp h) (rnorm_nonneg u))
    rw [this]; simp

theorem subDot_one (u : Fin n → ℝ) (t : ℝ) : subDot [ofV u] [fin t] = ofV (t • u) := by
  funext i
  simp only [subDot, List.zipWith_cons_cons, List.zipWith_nil_left, ofV_apply, fin_mul, sum_cons, sum_nil, fin_add, add_zero, mul_comm,
    Pi.smul_apply, smul_eq_mul]

theorem rnorm_normalized {u : Fin n → ℝ} (h : u ≠ 0) : rnorm ((rnorm u)⁻¹ • u) = 1 := by
  rw [rnorm_smul, abs_of_pos (inv_pos.mpr (rnorm_pos h)), inv_mul_cancel₀ (rnorm_pos h).ne']

/-- the interior solution of the one-dimensional subproblem -/
theorem solve1d_interior (B : Fin n → Fin n → ℝ) (g s s0 : Fin n → ℝ) (delta : ℝ) (hd : delta ≠ 0) (hs : s ≠ 0)
    (ha : 0 < rdot (rmv B s) s) (hin : rnorm ((-(rdot s (rmv B s0 + g)) / rdot (rmv B s) s) • s + s0) ≤ delta) :
    solve1d (ofM B) (ofV g) (ofV s) (fin delta) (ofV s0) = fin (-(rdot s (rmv B s0 + g)) / rdot (rmv B s) s) := by
  have hnz : decide (∀ i, feq (ofV s i) (Fides.lit 0 : Num) = true) = false := by
    rw [decide_eq_false_iff_not]
    intro h
    apply hs
    funext i
    simpa using h i
  have hd' : feq (fin delta) (Fides.lit 0 : Num) = false := by simpa using hd
  rw [solve1d, hd', hnz]
  simp only [Bool.false_eq_true, if_false, lit_def, mulVec_ofM, dot_ofV, vadd_ofV, fin_mul, fin_neg]
  have e : (((2 : ℚ) : ℝ) * (((1 / 2 : ℚ) : ℝ) * rdot (rmv B s) s)) = rdot (rmv B s) s := by push_cast; ring
  rw [e, fin_div _ _ ha.ne', vsmul_ofV, vadd_ofV, norm_ofV, if_pos]
  · simp
  · simp only [Bool.and_eq_true, fin_lt, fin_le, decide_eq_true_eq]
    refine ⟨?_, hin⟩
    push_cast; linarith

/-- … along a normalised direction -/
theorem solve1d_normalized (B : Fin n → Fin n → ℝ) (g u s0 : Fin n → ℝ) (delta : ℝ) (hd : delta ≠ 0) (hu : u ≠ 0)
    (ha : 0 < rdot (rmv B u) u) (hin : rnorm ((-(rdot u (rmv B s0 + g)) / rdot (rmv B u) u) • u + s0) ≤ delta) :
    ∃ t : ℝ, solve1d (ofM B) (ofV g) (normalize (ofV u)) (fin delta) (ofV s0) = fin t ∧
      subDot [normalize (ofV u)] [fin t] = ofV ((-(rdot u (rmv B s0 + g)) / rdot (rmv B u) u) • u) := by
  set k := (rnorm u)⁻¹ with hk
  have hk0 : k ≠ 0 := inv_ne_zero (rnorm_pos hu).ne'
  have e1 : rdot (k • u) (rmv B s0 + g) = k * rdot u (rmv B s0 + g) := smul_rdot _ _ _
  have e2 : rdot (rmv B (k • u)) (k • u) = k * k * rdot (rmv B u) u := by
    rw [rmv_smul, smul_rdot, rdot_smul]; ring
  have e3 : -(rdot (k • u) (rmv B s0 + g)) / rdot (rmv B (k • u)) (k • u) * k = -(rdot u (rmv B s0 + g)) / rdot (rmv B u) u := by
    rw [e1, e2]; field_simp
  have e4 : (-(rdot (k • u) (rmv B s0 + g)) / rdot (rmv B (k • u)) (k • u)) • (k • u) =
      (-(rdot u (rmv B s0 + g)) / rdot (rmv B u) u) • u := by
    rw [smul_smul, e3]
  refine ⟨-(rdot (k • u) (rmv B s0 + g)) / rdot (rmv B (k • u)) (k • u), ?_, ?_⟩
  · rw [normalize_ofV]
    refine solve1d_interior B g (k • u) s0 delta hd (smul_ne_zero hk0 hu) ?_ ?_
    · rw [e2]; exact mul_pos (mul_self_pos.mpr hk0) ha
    · rw [e4]; exact hin
  · rw [normalize_ofV, subDot_one, e4]

end Fides
