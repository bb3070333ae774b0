import Verif.Lemmas.HeadInv
import Verif.Spec.Box
import Verif.Lemmas.NumLawful
import Verif.Lemmas.StepBack

/-! Helper lemmas: the degeneracy nudge and the bounds check in exact arithmetic. -/

namespace Fides
open Spec Num
variable {n : ℕ}

theorem margin_pos : 0 < margin := by unfold margin; positivity

theorem degEps_num : (degEps : Num) = fin margin := by
  simp only [degEps, spacing1, Num.lit_def, Num.fin_mul, margin]
  norm_num

/-- one coordinate of the nudge -/
theorem nudge_coord (lb ub x : Vec Num n) (i : Fin n) :
    nudge lb ub x i = x i ∨
    nudge lb ub x i = (let xi := if lt (ub i - x i) (fin margin) then x i - fin margin else x i
      if lt (x i - lb i) (fin margin) then xi + fin margin else xi) := by
  unfold nudge
  rw [degEps_num]
  split
  · right; rfl
  · left; rfl

/-- the nudge acts on a coordinate that is near a bound, or no coordinate is near a bound -/
theorem nudge_near (lb ub : Vec Num n) (r : Fin n → ℝ) (hbox : InBox lb ub r) (i : Fin n)
    (hnear : lt (ub i - fin (r i)) (fin margin) = true ∨ lt (fin (r i) - lb i) (fin margin) = true) :
    nudge lb ub (ofV r) i = (let xi := if lt (ub i - fin (r i)) (fin margin) then fin (r i) - fin margin else fin (r i)
      if lt (fin (r i) - lb i) (fin margin) then xi + fin margin else xi) := by
  unfold nudge
  rw [degEps_num, if_pos]
  · rfl
  · have hu : ∀ j, isNaN (FloatOps.abs (ub j - ofV r j)) = false := by
      intro j
      have h2 := (hbox j).2
      revert h2
      cases ub j <;> simp
    have hl : ∀ j, isNaN (FloatOps.abs (ofV r j - lb j)) = false := by
      intro j
      have h2 := (hbox j).1
      revert h2
      cases lb j <;> simp
    have h1 := vmin_spec (fun j => FloatOps.abs (ub j - ofV r j)) hu
    have h2 := vmin_spec (fun j => FloatOps.abs (ofV r j - lb j)) hl
    rw [Bool.or_eq_true]
    rcases hnear with h | h
    · left
      have hle : le (vmin fun j => FloatOps.abs (ub j - ofV r j)) (FloatOps.abs (ub i - fin (r i))) = true := h1.2.1 i
      refine lt_of_le_of_lt' hle ?_
      have h2 := (hbox i).2
      revert h h2
      cases ub i with
      | fin u => simp only [fin_le, fin_sub, fin_lt, fin_abs, decide_eq_true_eq]; intro h h2; rw [abs_of_nonneg (by linarith)]; exact h
      | _ => simp
    · right
      have hle : le (vmin fun j => FloatOps.abs (ofV r j - lb j)) (FloatOps.abs (fin (r i) - lb i)) = true := h2.2.1 i
      refine lt_of_le_of_lt' hle ?_
      have h2 := (hbox i).1
      revert h h2
      cases lb i with
      | fin u => simp only [fin_le, fin_sub, fin_lt, fin_abs, decide_eq_true_eq]; intro h h2; rw [abs_of_nonneg (by linarith)]; exact h
      | _ => simp


/-- the nudge applied to any feasible point: the result is a feasible real point, each coordinate moved by at most the
margin; coordinates with that margin to both bounds are unchanged; a coordinate whose box is at least three margins wide
ends with that margin to both bounds. -/
theorem nudge_spec (lb ub : Vec Num n) (r : Fin n → ℝ) (hbox : InBox lb ub r) :
    ∃ r' : Fin n → ℝ, nudge lb ub (ofV r) = ofV r' ∧ InBox lb ub r' ∧ (∀ i, |r' i - r i| ≤ margin) ∧
      (∀ i, InBox1 (lb i) (ub i) (r i - margin) → InBox1 (lb i) (ub i) (r i + margin) → r' i = r i) ∧
      (∀ i, (∃ a, InBox1 (lb i) (ub i) a ∧ InBox1 (lb i) (ub i) (a + 3 * margin)) →
        InBox1 (lb i) (ub i) (r' i - margin) ∧ InBox1 (lb i) (ub i) (r' i + margin)) := by
  have hm := margin_pos
  suffices H : ∀ i, ∃ a : ℝ, nudge lb ub (ofV r) i = fin a ∧ InBox1 (lb i) (ub i) a ∧ |a - r i| ≤ margin ∧
      (InBox1 (lb i) (ub i) (r i - margin) → InBox1 (lb i) (ub i) (r i + margin) → a = r i) ∧
      ((∃ c, InBox1 (lb i) (ub i) c ∧ InBox1 (lb i) (ub i) (c + 3 * margin)) →
        InBox1 (lb i) (ub i) (a - margin) ∧ InBox1 (lb i) (ub i) (a + margin)) by
    choose a h1 h2 h3 h4 h5 using H
    exact ⟨a, funext h1, h2, h3, h4, h5⟩
  intro i
  have hb := hbox i
  by_cases hnear : lt (ub i - fin (r i)) (fin margin) = true ∨ lt (fin (r i) - lb i) (fin margin) = true
  · have h := nudge_near lb ub r hbox i hnear
    rw [h]
    clear h
    obtain ⟨h1, h2⟩ := hb
    revert h1 h2 hnear
    generalize hl : lb i = l
    generalize hu : ub i = u
    generalize r i = x
    intro hnear h1 h2
    cases l with
    | nan => simp at h1
    | pinf => simp at h1
    | ninf =>
      cases u with
      | nan => simp at h2
      | ninf => simp at h2
      | pinf => simp at hnear
      | fin u =>
        simp [InBox1] at hnear h1 h2 ⊢
        refine ⟨x - margin, ?_, ?_, ?_, ?_, ?_⟩
        · simp [hnear]
        · linarith
        · rw [abs_le]; constructor <;> linarith
        · intro _ _; linarith
        · intro _ _ _; constructor <;> linarith
    | fin l =>
      cases u with
      | nan => simp at h2
      | ninf => simp at h2
      | pinf =>
        simp [InBox1] at hnear h1 h2 ⊢
        refine ⟨x + margin, ?_, ?_, ?_, ?_, ?_⟩
        · simp [hnear]
        · linarith
        · rw [abs_le]; constructor <;> linarith
        · intro _ _; linarith
        · intro _ _ _; constructor <;> linarith
      | fin u =>
        simp only [InBox1, fin_le, fin_sub, fin_lt, decide_eq_true_eq] at hnear h1 h2 ⊢
        by_cases ha : u - x < margin
        · by_cases hb : x - l < margin
          · refine ⟨x - margin + margin, ?_, ?_, ?_, ?_, ?_⟩
            · simp [ha, hb]
            · constructor <;> linarith
            · rw [abs_le]; constructor <;> linarith
            · intro _ _; linarith
            · rintro ⟨c, hc⟩; constructor <;> constructor <;> linarith [hc.1.1, hc.1.2, hc.2.1, hc.2.2]
          · refine ⟨x - margin, ?_, ?_, ?_, ?_, ?_⟩
            · simp [ha, hb]
            · constructor <;> linarith
            · rw [abs_le]; constructor <;> linarith
            · rintro ⟨_, _⟩ ⟨_, _⟩; linarith
            · rintro ⟨c, hc⟩; constructor <;> constructor <;> linarith [hc.1.1, hc.1.2, hc.2.1, hc.2.2]
        · have hb : x - l < margin := by tauto
          refine ⟨x + margin, ?_, ?_, ?_, ?_, ?_⟩
          · simp [ha, hb]
          · constructor <;> linarith
          · rw [abs_le]; constructor <;> linarith
          · rintro ⟨_, _⟩ ⟨_, _⟩; linarith
          · rintro ⟨c, hc⟩; constructor <;> constructor <;> linarith [hc.1.1, hc.1.2, hc.2.1, hc.2.2]
  · refine ⟨r i, ?_, hb, by simp [hm.le], fun _ _ => rfl, fun _ => ?_⟩
    · push Not at hnear
      rcases nudge_coord lb ub (ofV r) i with h | h
      · exact h
      · have e1 : lt (ub i - ofV r i) (fin margin) = false := by simpa using hnear.1
        have e2 : lt (ofV r i - lb i) (fin margin) = false := by simpa using hnear.2
        rw [h, e1, e2]
        rfl
    · push Not at hnear
      obtain ⟨h1, h2⟩ := hb
      revert h1 h2 hnear
      cases lb i <;> cases ub i <;> simp [InBox1] <;> intros <;>
        first | (refine ⟨⟨?_, ?_⟩, ?_, ?_⟩ <;> linarith) | (constructor <;> linarith)

/-- feasible real points pass the bounds check -/
theorem inBounds_real (lb ub : Vec Num n) (r : Fin n → ℝ) (hbox : InBox lb ub r) : inBounds lb ub (ofV r) = true := by
  simp only [inBounds, Bool.and_eq_true, decide_eq_true_eq]
  constructor
  · intro i
    have h2 := (hbox i).2
    revert h2
    cases ub i with
    | fin u => simp
    | pinf => simp [fin_mul_pinf, infSign_neg]
    | _ => simp
  · intro i
    have h2 := (hbox i).1
    revert h2
    cases lb i with
    | fin u => simp
    | ninf => simp [fin_mul_ninf, infSign_pos]
    | _ => simp

/-- only feasible real points pass the bounds check -/
theorem inBounds_real_of (lb ub x : Vec Num n) (h : inBounds lb ub x = true) : ∃ r, x = ofV r ∧ InBox lb ub r := by
  have hs := inBounds_spec lb ub x h
  have : ∀ i, ∃ r, x i = fin r := fun i => (isFinite_iff _).mp (hs i).2.2
  choose r hr using this
  refine ⟨r, funext hr, fun i => ?_⟩
  have := hs i
  rw [hr i] at this
  exact ⟨this.1, this.2.1⟩

end Fides
