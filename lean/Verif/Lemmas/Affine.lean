import Verif.Lemmas.FiniteCand
import Verif.Model.Minimize

/-! Helper lemmas: the affine scaling in exact arithmetic. -/

namespace Fides
open Num Spec
variable {n : ℕ}

theorem fsign_fin (a : ℝ) : fsign (fin a) = if 0 < a then fin 1 else if a < 0 then fin (-1) else fin 0 := by
  simp only [fsign, fin_isNaN, Bool.false_eq_true, if_false, lit_def, Rat.cast_zero, fin_lt, decide_eq_true_eq, Rat.cast_one, Rat.cast_neg]

/-- one coordinate of `v` and `dv` -/
theorem affine_coord (lb ub : Vec Num n) (x g : Fin n → ℝ) (hb : InBox lb ub x) (i : Fin n) :
    (g i < 0 ∧ ∃ u, ub i = fin u ∧ x i ≤ u ∧ affineV lb ub (ofV x) (ofV g) i = fin (x i - u) ∧ affineDv lb ub (ofV g) i = fin 1) ∨
    (g i < 0 ∧ ub i = pinf ∧ affineV lb ub (ofV x) (ofV g) i = fin (-1) ∧ affineDv lb ub (ofV g) i = fin 0) ∨
    (0 ≤ g i ∧ ∃ l, lb i = fin l ∧ l ≤ x i ∧ affineV lb ub (ofV x) (ofV g) i = fin (x i - l) ∧ affineDv lb ub (ofV g) i = fin 1) ∨
    (0 ≤ g i ∧ lb i = ninf ∧ affineV lb ub (ofV x) (ofV g) i = fin 1 ∧ affineDv lb ub (ofV g) i = fin 0) := by
  obtain ⟨h1, h2⟩ := hb i
  by_cases hg : g i < 0
  · have hlt : lt (ofV g i) (Fides.lit 0 : Num) = true := by simpa using hg
    simp only [affineV, affineDv, hlt, if_true]
    cases hu : ub i with
    | nan => rw [hu] at h2; simp at h2
    | ninf => rw [hu] at h2; simp at h2
    | pinf =>
      right; left
      refine ⟨hg, rfl, ?_, ?_⟩
      · simp [fsign_fin, hg, not_lt.mpr hg.le, hg.ne]
      · simp
    | fin u =>
      left
      rw [hu] at h2
      refine ⟨hg, u, rfl, by simpa using h2, ?_, ?_⟩
      · simp
      · simp
  · have hlt : lt (ofV g i) (Fides.lit 0 : Num) = false := by simpa using hg
    rw [not_lt] at hg
    simp only [affineV, affineDv, hlt, Bool.false_eq_true, if_false]
    cases hl : lb i with
    | nan => rw [hl] at h1; simp at h1
    | pinf => rw [hl] at h1; simp at h1
    | ninf =>
      right; right; right
      refine ⟨hg, rfl, ?_, ?_⟩
      · rcases hg.eq_or_lt with h0 | h0
        · simp [fsign_fin, ← h0]
        · simp [fsign_fin, h0, h0.ne']
      · simp
    | fin l =>
      right; right; left
      rw [hl] at h1
      refine ⟨hg, l, rfl, by simpa using h1, ?_, ?_⟩
      · simp
      · simp

/-- real form of `v`: its sign agrees with the gradient's -/
theorem affineV_real (lb ub : Vec Num n) (x g : Fin n → ℝ) (hb : InBox lb ub x) :
    ∃ v : Fin n → ℝ, affineV lb ub (ofV x) (ofV g) = ofV v ∧ ∀ i, 0 ≤ v i * g i := by
  have h : ∀ i, ∃ v, affineV lb ub (ofV x) (ofV g) i = fin v ∧ 0 ≤ v * g i := by
    intro i
    rcases affine_coord lb ub x g hb i with ⟨h1, u, _, h2, h3, _⟩ | ⟨h1, _, h3, _⟩ | ⟨h1, l, _, h2, h3, _⟩ | ⟨h1, _, h3, _⟩
    · exact ⟨_, h3, mul_nonneg_of_nonpos_of_nonpos (by linarith) h1.le⟩
    · exact ⟨_, h3, by linarith⟩
    · exact ⟨_, h3, mul_nonneg (by linarith) h1⟩
    · exact ⟨_, h3, by linarith⟩
  choose v h1 h2 using h
  exact ⟨v, funext h1, h2⟩

theorem foldl_npMax2_fin (l : List ℝ) (a : ℝ) : ∃ r, (l.map fin).foldl npMax2 (fin a) = fin r ∧ a ≤ r ∧ (∀ b ∈ l, b ≤ r) ∧ (r = a ∨ r ∈ l) := by
  induction l generalizing a with
  | nil => exact ⟨a, rfl, le_rfl, by simp, Or.inl rfl⟩
  | cons b l ih =>
    simp only [List.map_cons, List.foldl_cons, npMax2_fin]
    obtain ⟨r, h1, h2, h3, h4⟩ := ih (max a b)
    refine ⟨r, h1, (le_max_left _ _).trans h2, ?_, ?_⟩
    · intro c hc
      rcases List.mem_cons.mp hc with rfl | hc
      · exact (le_max_right _ _).trans h2
      · exact h3 c hc
    · rcases h4 with h4 | h4
      · rcases max_choice a b with h | h
        · left; rw [h4, h]
        · right; rw [h4, h]; simp
      · right; simp [h4]

theorem normInf_ofV (v : Fin n → ℝ) : ∃ r, normInf (ofV v) = fin r ∧ 0 ≤ r ∧ (∀ i, |v i| ≤ r) ∧ (r = 0 ∨ ∃ i, r = |v i|) := by
  have h : (List.ofFn fun i => FloatOps.abs (ofV v i)) = (List.ofFn fun i => |v i|).map fin := by
    rw [List.map_ofFn]; rfl
  obtain ⟨r, h1, h2, h3, h4⟩ := foldl_npMax2_fin (List.ofFn fun i => |v i|) 0
  refine ⟨r, ?_, h2, fun i => h3 _ (by rw [List.mem_ofFn]; exact ⟨i, rfl⟩), ?_⟩
  · unfold normInf
    rw [h, lit_def, Rat.cast_zero]; exact h1
  · rcases h4 with h4 | h4
    · exact Or.inl h4
    · rw [List.mem_ofFn] at h4
      obtain ⟨i, hi⟩ := h4
      exact Or.inr ⟨i, hi.symm⟩

/-- `theta` for real data -/
theorem thetaOf_real (tm : ℝ) (v g : Fin n → ℝ) : ∃ r, 0 ≤ r ∧ (∀ i, |v i * g i| ≤ r) ∧ (r = 0 ∨ ∃ i, r = |v i * g i|) ∧
    thetaOf (fin tm) (ofV v) (ofV g) = fin (max tm (1 - r)) := by
  obtain ⟨r, h1, h2, h3, h4⟩ := normInf_ofV (fun i => v i * g i)
  refine ⟨r, h2, h3, h4, ?_⟩
  have : normInf (fun i => ofV v i * ofV g i) = fin r := h1
  simp only [thetaOf, this, lit_def, Rat.cast_one, fin_sub, pyMax, fin_lt, decide_eq_true_eq]
  split
  · rename_i h; rw [max_eq_right h.le]
  · rename_i h; rw [max_eq_left (not_lt.mp h)]

theorem thetaOf_range (tm : ℝ) (h0 : 0 < tm) (h1 : tm ≤ 1) (v g : Fin n → ℝ) : ∃ t, thetaOf (fin tm) (ofV v) (ofV g) = fin t ∧
    tm ≤ t ∧ t ≤ 1 := by
  obtain ⟨r, hr, _, _, h⟩ := thetaOf_real tm v g
  exact ⟨_, h, le_max_left _ _, max_le h1 (by linarith)⟩

/-- the scaling matrix for real data -/
theorem scaling_real (v : Fin n → ℝ) : (fun i => FloatOps.sqrt (FloatOps.abs (ofV v i)) : Vec Num n) = ofV fun i => Real.sqrt |v i| := by
  funext i
  simp [fin_sqrt _ (abs_nonneg (v i))]

end Fides
