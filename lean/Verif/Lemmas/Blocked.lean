import Verif.Spec.Blocked
import Verif.Lemmas.Feasible
import Verif.Lemmas.Consistent

/-! Helper lemmas: the coordinates in which a step is blocked. -/

namespace Fides
open Num Spec
variable {n : ℕ}

theorem brOf_blocked (l u : Num) (x s r : ℝ) (h : InBox1 l u x) (hr : 0 ≤ r) :
    brOf l u (fin x) (fin s) = fin r ↔ (0 < s ∧ u = fin (x + r * s)) ∨ (s < 0 ∧ l = fin (x + r * s)) := by
  obtain ⟨h1, h2⟩ := h
  have hb := brOf_real l u x s ⟨h1, h2⟩
  constructor
  · intro hv
    rcases hb with ⟨hb, _⟩ | ⟨r', _, hs, hb, hiff⟩
    · rw [hb] at hv; cases hv
    · rw [hb, fin_inj] at hv
      subst hv
      have hnot : ¬ InBox1 l u (x + (r' + 1) * s) := fun hc => absurd ((hiff _ (by linarith)).mp hc) (by linarith)
      have hyes : InBox1 l u (x + r' * s) := (hiff _ hr).mpr le_rfl
      rcases lt_or_gt_of_ne hs with hneg | hpos
      · right
        refine ⟨hneg, ?_⟩
        have hup : ∀ t : ℝ, 0 ≤ t → le (fin (x + t * s)) u = true := by
          intro t ht
          cases u with
          | nan => simp at h2
          | ninf => simp at h2
          | pinf => simp
          | fin u0 => simp at h2 ⊢; nlinarith
        cases l with
        | nan => simp at h1
        | pinf => simp at h1
        | ninf => exact absurd ⟨by simp, hup _ (by linarith)⟩ hnot
        | fin l0 =>
          have h1' : l0 ≤ x := by simpa using h1
          have ht0 : 0 ≤ (l0 - x) / s := div_nonneg_of_nonpos (by linarith) hneg.le
          have hval : x + (l0 - x) / s * s = l0 := by field_simp; ring
          have : (l0 - x) / s ≤ r' := (hiff _ ht0).mp ⟨by rw [hval]; simp, hup _ ht0⟩
          have h3 : l0 ≤ x + r' * s := by simpa using hyes.1
          have h4 : r' * s ≤ (l0 - x) / s * s := mul_le_mul_of_nonpos_right this hneg.le
          have : l0 = x + r' * s := by linarith
          rw [this]
      · left
        refine ⟨hpos, ?_⟩
        have hlo : ∀ t : ℝ, 0 ≤ t → le l (fin (x + t * s)) = true := by
          intro t ht
          cases l with
          | nan => simp at h1
          | pinf => simp at h1
          | ninf => simp
          | fin l0 => simp at h1 ⊢; nlinarith
        cases u with
        | nan => simp at h2
        | ninf => simp at h2
        | pinf => exact absurd ⟨hlo _ (by linarith), by simp⟩ hnot
        | fin u0 =>
          have h2' : x ≤ u0 := by simpa using h2
          have ht0 : 0 ≤ (u0 - x) / s := div_nonneg (by linarith) hpos.le
          have hval : x + (u0 - x) / s * s = u0 := by field_simp; ring
          have : (u0 - x) / s ≤ r' := (hiff _ ht0).mp ⟨hlo _ ht0, by rw [hval]; simp⟩
          have h3 : x + r' * s ≤ u0 := by simpa using hyes.2
          have h4 : (u0 - x) / s * s ≤ r' * s := mul_le_mul_of_nonneg_right this hpos.le
          have : u0 = x + r' * s := by linarith
          rw [this]
  · intro hbl
    have hno : ¬ InBox1 l u (x + (r + 1) * s) := by
      rintro ⟨c1, c2⟩
      rcases hbl with ⟨hs, rfl⟩ | ⟨hs, rfl⟩
      · simp at c2; nlinarith
      · simp at c1; nlinarith
    rcases hb with ⟨_, hb⟩ | ⟨r', h0, hs, hb, hiff⟩
    · exact absurd (hb _ (by linarith)) hno
    · rw [hb, fin_inj]
      have hyes : InBox1 l u (x + r * s) := by
        rcases hbl with ⟨hs, rfl⟩ | ⟨hs, rfl⟩
        · refine ⟨?_, by simp⟩
          cases l with
          | nan => simp at h1
          | pinf => simp at h1
          | ninf => simp
          | fin l0 => simp at h1 ⊢; nlinarith
        · refine ⟨by simp, ?_⟩
          cases u with
          | nan => simp at h2
          | ninf => simp at h2
          | pinf => simp
          | fin u0 => simp at h2 ⊢; nlinarith
      refine le_antisymm ?_ ((hiff _ hr).mp hyes)
      have hy' : InBox1 l u (x + r' * s) := (hiff _ h0).mpr le_rfl
      rcases hbl with ⟨hs, rfl⟩ | ⟨hs, rfl⟩
      · have := hy'.2
        simp at this; nlinarith
      · have := hy'.1
        simp at this; nlinarith

/-- every candidate has been stepped back -/
theorem cand_stepBack {F : Type} [FloatOps F] {P : Prob F n} (O : Oracles F) (fuel : ℕ) (dim : SubSpaceDim) (st : Step F n)
    (h : Cand O fuel P dim st) : ∃ st1 q, st = { Step.stepBack P st1 with qpval := q } := by
  have hc : ∀ a b : Step F n, a.calculate O.sub P = .ok b → ∃ st1 q, b = { Step.stepBack P st1 with qpval := q } := by
    intro a b hab
    unfold Step.calculate at hab
    split at hab
    · cases hab
    · cases hab; exact ⟨_, _, rfl⟩
  cases h with
  | base st h =>
    cases dim with
    | two =>
      simp only [trStep, step2d] at h
      split at h
      · cases h
      · exact hc _ _ h
    | full => exact hc _ _ h
    | steihaug =>
      simp only [trStep, stepSteihaug] at h
      split at h
      · cases h
      · split at h
        · cases h
        · cases h; exact ⟨_, _, rfl⟩
    | other => cases h
  | grad st h => exact hc _ _ h
  | refl cur st _ _ h => exact hc _ _ h
  | trunc cur st _ _ h => exact hc _ _ h
  | refined cur st _ h =>
    simp only [stepRefined] at h
    split at h
    · cases h
    · cases h; exact ⟨_, _, rfl⟩

/-- where a shortened candidate is blocked -/
theorem stepBack_blocked (P : Prob Num n) (st : Step Num n) (x s : Fin n → ℝ) (theta : ℝ) (hx : st.x = ofV x) (hs : st.s = ofV s)
    (ht : P.theta = fin theta) (h0 : 0 < theta) (hbox : InBox P.lb P.ub x) (ha : feq (st.stepBack P).alpha (Fides.lit 1) = false) :
    ∃ T, Leaves P.lb P.ub x s T ∧ (st.stepBack P).minbr = fin T ∧
      (∀ i, (st.stepBack P).iminbr i = true ↔ Blocked P.lb P.ub x s T i) ∧
      (∀ i, Blocked P.lb P.ub x s T i → (st.stepBack P).br i = fin T) ∧ (∃ i, Blocked P.lb P.ub x s T i) ∧
      (st.stepBack P).alpha = fin (theta * T) ∧ theta * T < 1 := by
  have hnx : ∀ i, NanOrIn (P.lb i) (P.ub i) (st.x i) := fun i => Or.inr ⟨x i, by rw [hx]; rfl, hbox i⟩
  have hbr : ∀ i, (st.stepBack P).br i = brOf (P.lb i) (P.ub i) (fin (x i)) (fin (s i)) := by
    intro i; rw [stepBack_br, hx, hs]; rfl
  rcases stepBack_alpha_cases P st theta ht h0 hnx with ⟨h1, h2⟩ | ⟨h1, h2, h3⟩ | ⟨r, h1, h2, h3, ⟨k, h4⟩, h5⟩
  · exfalso
    have hno : ∀ i, isNaN ((st.stepBack P).br i) = false := by
      intro i
      rw [hbr]
      rcases brOf_real _ _ _ (s i) (hbox i) with ⟨h, _⟩ | ⟨_, _, _, h, _⟩ <;> rw [h] <;> simp
    have := (vmin_spec _ hno).1
    rw [← stepBack_minbr, h1] at this
    simp at this
  · rw [h2] at ha; simp at ha
  · have hlt : theta * r < 1 := by
      by_contra hc
      rw [h3, min_eq_left (not_lt.mp hc)] at ha
      simp at ha
    have hblk : ∀ i, (st.stepBack P).br i = fin r ↔ Blocked P.lb P.ub x s r i := by
      intro i; rw [hbr]; exact brOf_blocked _ _ _ _ _ (hbox i) h1
    refine ⟨r, ⟨h1, ?_⟩, h2, ?_, fun i hi => (hblk i).mpr hi, ⟨k, (hblk k).mp h4⟩, ?_, hlt⟩
    · intro t ht0
      constructor
      · intro hin
        rcases brOf_real _ _ _ (s k) (hbox k) with ⟨h, _⟩ | ⟨q, _, _, h, hq⟩
        · rw [hbr, h] at h4; cases h4
        · rw [hbr, h, fin_inj] at h4
          subst h4
          exact (hq t ht0).mp (hin k)
      · intro hle i
        rcases brOf_real _ _ _ (s i) (hbox i) with ⟨_, h⟩ | ⟨q, _, _, h, hq⟩
        · exact h t ht0
        · rcases h5 i with h' | ⟨q', hq', h'⟩
          · rw [hbr, h] at h'; cases h'
          · rw [hbr, h, fin_inj] at h'
            subst h'
            exact (hq t ht0).mpr (hle.trans hq')
    · intro i
      rw [← hblk i]
      show feq ((st.stepBack P).br i) ((st.stepBack P).minbr) = true ↔ _
      rw [h2]
      cases (st.stepBack P).br i <;> first | (simp; done) | simp [feq]
    · rw [h3, min_eq_right hlt.le]

end Fides
