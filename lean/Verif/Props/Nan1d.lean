import Verif.Lemmas.FiniteStep

/-!
# C20: exactly when the 1-D solver returns NaN
-/

set_option linter.unusedSectionVars false

namespace Fides
open Num Spec
variable {n : ℕ}

/-- the value of the model at a point with a NaN coordinate -/
theorem quadraticForm_nan (B : Mat Num n n) (g v : Vec Num n) (i : Fin n) (hv : v i = nan) : quadraticForm B g v = nan := by
  have hd : dot g v = nan := by
    have : FloatOps.sum (List.ofFn fun i => g i * v i) = nan := by
      apply sum_nan_mem
      rw [List.mem_ofFn]
      exact ⟨i, by rw [hv]; simp⟩
    exact this
  rw [quadraticForm, hd]; simp

/-- on the sphere, along a tangent, one of the two boundary solutions is 0/0 -/
theorem boundary_tangent (B : Fin n → Fin n → ℝ) (g s s0 : Fin n → ℝ) (delta : ℝ) (hs : s ≠ 0) (h0 : rdot s0 s0 = delta * delta) (ho : rdot s0 s = 0) :
    boundarySolution1d (ofM B) (ofV g) (ofV s) (ofV s0) (fin delta) = nan := by
  obtain ⟨i, hi⟩ : ∃ i, s i ≠ 0 := by
    by_contra hc
    push Not at hc
    exact hs (funext hc)
  have ha := rdot_self_pos hs
  simp only [boundarySolution1d, dot_ofV, lit_def, fin_mul, fin_sub, ho, h0, mul_zero, sub_self]
  rw [fin_sqrt _ le_rfl, fin_copysign]
  simp only [lt_self_iff_false, if_false, Real.sqrt_zero, abs_zero, fin_add, add_zero, fin_neg, neg_zero]
  rw [show (fin 0 / fin 0 : Num) = nan by rw [fin_div_def, if_pos rfl, infSign_zero]]
  simp only [argminGo]
  have hq : quadraticForm (ofM B) (ofV g) (vadd (ofV s0) (vsmul nan (ofV s))) = nan :=
    quadraticForm_nan _ _ _ i (by simp [vadd, vsmul])
  have hq1 : isNaN (quadraticForm (ofM B) (ofV g) (vadd (ofV s0) (vsmul (fin 0 / fin (((2 : ℚ) : ℝ) * rdot s s)) (ofV s)))) = false := by
    rw [fin_div _ _ (by push_cast; positivity), vsmul_ofV, vadd_ofV, quadraticForm_ofV, fin_isNaN]
  simp only [hq, hq1]
  simp

/-- **C20, exact characterisation of the failure.** From a start inside or on the sphere, the 1-D solver returns NaN exactly if the radius is
positive, the start lies on the sphere, the direction is a nonzero tangent there, and the start is not already the (strict) minimum of
the model along the direction.  In all other cases `C20_solve1d` applies or the start itself is the solution. -/
theorem C20_nan_iff {B : Fin n → Fin n → ℝ} (hB : Sym B) (g s s0 : Fin n → ℝ) (delta : ℝ) (hd : 0 ≤ delta) (h0 : rnorm s0 ≤ delta) :
    solve1d (ofM B) (ofV g) (ofV s) (fin delta) (ofV s0) = nan ↔
      0 < delta ∧ rnorm s0 = delta ∧ s ≠ 0 ∧ rdot s0 s = 0 ∧ ¬ (0 < rdot s (rmv B s) ∧ rdot s (rmv B s0 + g) = 0) := by
  by_cases hex : rnorm s0 < delta ∨ rdot s0 s ≠ 0 ∨ s = 0 ∨ delta = 0
  · obtain ⟨t, ht, _⟩ := C20_solve1d hB g s s0 delta hd h0 hex
    rw [ht]
    constructor
    · intro h; cases h
    · rintro ⟨h1, h2, h3, h4, _⟩
      rcases hex with h | h | h | h
      · exact absurd h2 h.ne
      · exact absurd h4 h
      · exact absurd h h3
      · exact absurd h h1.ne'
  · push Not at hex
    obtain ⟨h1, ho, hs, hd0⟩ := hex
    have hn : rnorm s0 = delta := le_antisymm h0 h1
    have hpos : 0 < delta := lt_of_le_of_ne hd hd0.symm
    have hsq : rdot s0 s0 = delta * delta := by rw [← rnorm_sq, hn]
    have hbd := boundary_tangent B g s s0 delta hs hsq ho
    have hnz : ¬ (∀ i, feq (ofV s i) (Fides.lit 0 : Num) = true) := by
      intro h; apply hs; funext i; simpa using h i
    have hA := rdot_self_pos hs
    have hval : solve1d (ofM B) (ofV g) (ofV s) (fin delta) (ofV s0) =
        if 0 < rdot s (rmv B s) ∧ rdot s (rmv B s0 + g) = 0 then fin 0 else nan := by
      rw [solve1d]
      simp only [hbd, mulVec_ofM, vadd_ofV, dot_ofV, lit_def, fin_mul, fin_feq, Rat.cast_zero, hd0, decide_false, Bool.false_eq_true, if_false]
      rw [if_neg (by simpa using hnz), rdot_comm (rmv B s) s]
      generalize rdot s (rmv B s) = q
      generalize rdot s (rmv B s0 + g) = b
      by_cases hq : 0 < q
      · have e : ((2 : ℚ) : ℝ) * (((1 / 2 : ℚ) : ℝ) * q) = q := by push_cast; ring
        rw [e, fin_neg, fin_div _ _ hq.ne', vsmul_ofV, vadd_ofV, norm_ofV]
        have hle : rnorm ((-b / q) • s + s0) ≤ delta ↔ b = 0 := by
          rw [rnorm_le_iff hd, add_rdot, rdot_add, rdot_add, smul_rdot, smul_rdot, rdot_smul, rdot_smul, rdot_comm s s0, ho, hsq]
          constructor
          · intro h
            have h2 : (-b / q) * (-b / q) * rdot s s ≤ 0 := by nlinarith
            have h3 : (-b / q) * (-b / q) = 0 := by
              rcases (mul_self_nonneg (-b / q)).lt_or_eq with h | h
              · have := mul_pos h hA; linarith
              · exact h.symm
            have := mul_self_eq_zero.mp h3
            rw [div_eq_zero_iff] at this
            rcases this with h | h
            · linarith
            · exact absurd h hq.ne'
          · rintro rfl; simp
        have hp2 : (0 : ℝ) < ((1 / 2 : ℚ) : ℝ) * q := by push_cast; positivity
        simp only [fin_lt, hp2, decide_true, Bool.true_and, fin_le, hle, hq, true_and, decide_eq_true_eq]
        split
        · rename_i hb; simp [hb]
        · simp
      · have hp2 : ¬ (0 : ℝ) < ((1 / 2 : ℚ) : ℝ) * q := by push_cast; intro h; apply hq; linarith
        simp [hq]
    rw [hval]
    constructor
    · intro h
      refine ⟨hpos, hn, hs, ho, fun hc => ?_⟩
      rw [if_pos hc] at h; cases h
    · rintro ⟨_, _, _, _, h⟩
      rw [if_neg h]

/-- both sides occur: the tangent at a point of the unit circle, without and with positive curvature -/
example : solve1d (ofM (fun _ _ => (0 : ℝ))) (ofV ![0, 1]) (ofV ![0, 1]) (fin 1) (ofV ![1, 0]) = nan ∧
    solve1d (ofM (fun i j : Fin 2 => if i = j then (1 : ℝ) else 0)) (ofV ![1, 0]) (ofV ![0, 1]) (fin 1) (ofV ![1, 0]) ≠ nan := by
  have hn : rnorm ![(1 : ℝ), 0] = 1 := by simp [rnorm, rdot, Fin.sum_univ_two]
  constructor
  · refine (C20_nan_iff (fun i j => rfl) _ _ _ 1 (by norm_num) hn.le).mpr ⟨by norm_num, hn, ?_, ?_, ?_⟩
    · intro h; have := congrFun h 1; simp at this
    · simp [rdot, Fin.sum_univ_two]
    · simp [rdot, rmv, Fin.sum_univ_two]
  · rw [ne_eq, C20_nan_iff (fun i j => by simp [eq_comm]) _ _ _ 1 (by norm_num) hn.le]
    rintro ⟨_, _, _, _, h⟩
    apply h
    simp [rdot, rmv, Fin.sum_univ_two]

end Fides
