import Verif.Spec.Box
import Verif.Lemmas.Subproblem
import Verif.Model.TrustRegion

/-! Helper lemmas: the step-back computation, coordinate by coordinate. -/

namespace Fides
open Num Spec
variable {n : ℕ}

/-- distance (in multiples of `s`) to the blocking bound of one coordinate, steps.py:182-197 -/
noncomputable def brOf (l u x s : Num) : Num :=
  if lt (Fides.lit 0 : Num) (FloatOps.abs s) = true then npMax2 ((u - x) / s) ((l - x) / s) else FloatOps.inf

theorem npMax2_fin (a b : ℝ) : npMax2 (fin a) (fin b) = fin (max a b) := by
  simp only [npMax2, fin_isNaN, fin_lt, Bool.false_eq_true, if_false, decide_eq_true_eq]
  split
  · rename_i h; rw [max_eq_right h.le]
  · rename_i h; rw [max_eq_left (not_lt.mp h)]

theorem npMin2_fin (a b : ℝ) : npMin2 (fin a) (fin b) = fin (min a b) := by
  simp only [npMin2, fin_isNaN, fin_lt, Bool.false_eq_true, if_false, decide_eq_true_eq]
  split
  · rename_i h; rw [min_eq_right h.le]
  · rename_i h; rw [min_eq_left (not_lt.mp h)]

/-- the blocking distance of a coordinate of a finite step from a feasible point -/
theorem brOf_real (l u : Num) (x s : ℝ) (h : InBox1 l u x) :
    (brOf l u (fin x) (fin s) = pinf ∧ ∀ t, 0 ≤ t → InBox1 l u (x + t * s)) ∨
    ∃ r, 0 ≤ r ∧ s ≠ 0 ∧ brOf l u (fin x) (fin s) = fin r ∧ ∀ t, 0 ≤ t → (InBox1 l u (x + t * s) ↔ t ≤ r) := by
  obtain ⟨h1, h2⟩ := h
  rcases lt_trichotomy s 0 with hs | hs | hs
  · have habs : 0 < |s| := abs_pos.mpr hs.ne
    cases l with
    | nan => simp at h1
    | pinf => simp at h1
    | ninf =>
      left
      constructor
      · cases u with
        | nan => simp at h2
        | ninf => simp at h2
        | pinf => simp [brOf, pinf_div_fin, ninf_div_fin, hs, npMax2, hs.ne]
        | fin u => simp [brOf, hs.ne, ninf_div_fin, hs, npMax2]
      · intro t ht
        refine ⟨by simp, ?_⟩
        cases u with
        | nan => simp at h2
        | ninf => simp at h2
        | pinf => simp
        | fin u => simp at h2 ⊢; nlinarith
    | fin l =>
      right
      simp only [fin_le, decide_eq_true_eq] at h1
      refine ⟨(l - x) / s, div_nonneg_of_nonpos (by linarith) hs.le, hs.ne, ?_, ?_⟩
      · cases u with
        | nan => simp at h2
        | ninf => simp at h2
        | pinf => simp [brOf, hs.ne, pinf_div_fin, hs, npMax2]
        | fin u =>
          simp only [fin_le, decide_eq_true_eq] at h2
          have e : (u - x) / s ≤ (l - x) / s := by
            rw [div_le_div_right_of_neg hs]; linarith
          simp only [brOf, fin_abs, lit_def, Rat.cast_zero, fin_lt, habs, decide_true, if_true, fin_sub, fin_div _ _ hs.ne,
            npMax2_fin, max_eq_right e]
      · intro t ht
        have e : t ≤ (l - x) / s ↔ l - x ≤ t * s := by rw [le_div_iff_of_neg hs]
        rw [e]
        constructor
        · intro hh
          have := hh.1
          simp only [fin_le, decide_eq_true_eq] at this
          linarith
        · intro hh
          refine ⟨by simp; linarith, ?_⟩
          cases u with
          | nan => simp at h2
          | ninf => simp at h2
          | pinf => simp
          | fin u => simp at h2 ⊢; nlinarith
  · left
    subst hs
    refine ⟨by simp [brOf], fun t _ => ?_⟩
    simpa using ⟨h1, h2⟩
  · have habs : 0 < |s| := abs_pos.mpr hs.ne'
    cases u with
    | nan => simp at h2
    | ninf => simp at h2
    | pinf =>
      left
      constructor
      · cases l with
        | nan => simp at h1
        | pinf => simp at h1
        | ninf => simp [brOf, hs.ne', pinf_div_fin, ninf_div_fin, npMax2, not_lt.mpr hs.le]
        | fin u => simp [brOf, hs.ne', pinf_div_fin, npMax2, not_lt.mpr hs.le]
      · intro t ht
        refine ⟨?_, by simp⟩
        cases l with
        | nan => simp at h1
        | pinf => simp at h1
        | ninf => simp
        | fin l => simp at h1 ⊢; nlinarith
    | fin u =>
      right
      simp only [fin_le, decide_eq_true_eq] at h2
      refine ⟨(u - x) / s, div_nonneg (by linarith) hs.le, hs.ne', ?_, ?_⟩
      · cases l with
        | nan => simp at h1
        | pinf => simp at h1
        | ninf => simp [brOf, hs.ne', ninf_div_fin, npMax2, not_lt.mpr hs.le]
        | fin l =>
          simp only [fin_le, decide_eq_true_eq] at h1
          have e : (l - x) / s ≤ (u - x) / s := by
            rw [div_le_div_iff_of_pos_right hs]; linarith
          simp only [brOf, fin_abs, lit_def, Rat.cast_zero, fin_lt, habs, decide_true, if_true, fin_sub, fin_div _ _ hs.ne',
            npMax2_fin, max_eq_left e]
      · intro t ht
        have e : t ≤ (u - x) / s ↔ t * s ≤ u - x := by rw [le_div_iff₀ hs]
        rw [e]
        constructor
        · intro hh
          have := hh.2
          simp only [fin_le, decide_eq_true_eq] at this
          linarith
        · intro hh
          refine ⟨?_, by simp; linarith⟩
          cases l with
          | nan => simp at h1
          | pinf => simp at h1
          | ninf => simp
          | fin l => simp at h1 ⊢; nlinarith

/-- blocking distances are nonnegative, infinite or NaN whatever the step, from a feasible or NaN coordinate -/
theorem brOf_nonneg (l u x s : Num) (h : NanOrIn l u x) :
    brOf l u x s = nan ∨ brOf l u x s = pinf ∨ ∃ r, 0 ≤ r ∧ brOf l u x s = fin r := by
  rcases h with rfl | ⟨x, rfl, hx⟩
  · unfold brOf
    split
    · left; simp [npMax2]
    · right; left; rfl
  · cases s with
    | fin s =>
      rcases brOf_real l u x s hx with ⟨h, _⟩ | ⟨r, h1, _, h2, _⟩
      · exact Or.inr (Or.inl h)
      · exact Or.inr (Or.inr ⟨r, h1, h2⟩)
    | nan => right; left; simp [brOf]
    | pinf =>
      obtain ⟨h1, h2⟩ := hx
      cases l <;> cases u <;> simp_all [brOf, npMax2]
    | ninf =>
      obtain ⟨h1, h2⟩ := hx
      cases l <;> cases u <;> simp_all [brOf, npMax2]

/-- an infinite step coordinate is blocked at once or poisons the minimum -/
theorem brOf_inf (l u x s : Num) (h : NanOrIn l u x) (hs : s = pinf ∨ s = ninf) :
    brOf l u x s = nan ∨ brOf l u x s = fin 0 := by
  rcases h with rfl | ⟨x, rfl, h1, h2⟩
  · rcases hs with rfl | rfl <;> · left; simp [brOf, npMax2]
  · rcases hs with rfl | rfl
    · cases l <;> cases u <;> simp_all [brOf, npMax2]
    · cases l <;> cases u <;> simp_all [brOf, npMax2]

/-- `np.min` over a vector without NaN -/
theorem foldl_npMin2_spec (l : List Num) (a : Num) (ha : isNaN a = false) (hl : ∀ b ∈ l, isNaN b = false) :
    isNaN (l.foldl npMin2 a) = false ∧ le (l.foldl npMin2 a) a = true ∧ (∀ b ∈ l, le (l.foldl npMin2 a) b = true) ∧
      (l.foldl npMin2 a = a ∨ l.foldl npMin2 a ∈ l) := by
  induction l generalizing a with
  | nil =>
    refine ⟨ha, ?_, by simp, Or.inl rfl⟩
    simpa [isNaN] using ha
  | cons b l ih =>
    have hb := hl b (by simp)
    have hl' : ∀ c ∈ l, isNaN c = false := fun c hc => hl c (by simp [hc])
    have h2 : npMin2 a b = if lt b a = true then b else a := by simp [npMin2, ha, hb]
    simp only [List.foldl_cons, h2]
    have ha' : le a a = true := by simpa [isNaN] using ha
    have hb' : le b b = true := by simpa [isNaN] using hb
    by_cases hlt : lt b a = true
    · rw [if_pos hlt]
      obtain ⟨i1, i2, i3, i4⟩ := ih b hb hl'
      have hba := ((LawfulFloat.lt_iff b a).mp hlt).1
      refine ⟨i1, LawfulFloat.le_trans _ _ _ i2 hba, ?_, ?_⟩
      · intro c hc
        rcases List.mem_cons.mp hc with rfl | hc
        · exact i2
        · exact i3 c hc
      · right
        rcases i4 with i4 | i4
        · rw [i4]; simp
        · simp [i4]
    · rw [if_neg hlt]
      obtain ⟨i1, i2, i3, i4⟩ := ih a ha hl'
      have hab : le a b = true := by
        rcases LawfulFloat.le_total a b ha' hb' with h | h
        · exact h
        · by_contra hc
          exact hlt ((LawfulFloat.lt_iff b a).mpr ⟨h, by simpa using hc⟩)
      refine ⟨i1, i2, ?_, ?_⟩
      · intro c hc
        rcases List.mem_cons.mp hc with rfl | hc
        · exact LawfulFloat.le_trans _ _ _ i2 hab
        · exact i3 c hc
      · rcases i4 with i4 | i4
        · exact Or.inl i4
        · right; simp [i4]

theorem vmin_spec (v : Vec Num n) (h : ∀ i, isNaN (v i) = false) :
    isNaN (vmin v) = false ∧ (∀ i, le (vmin v) (v i) = true) ∧ (vmin v = pinf ∨ ∃ i, vmin v = v i) := by
  obtain ⟨h1, _, h3, h4⟩ := foldl_npMin2_spec (List.ofFn v) pinf rfl (by
    intro b hb; rw [List.mem_ofFn] at hb; obtain ⟨i, rfl⟩ := hb; exact h i)
  refine ⟨h1, fun i => h3 _ (by simp [List.mem_ofFn]), ?_⟩
  rcases h4 with h4 | h4
  · exact Or.inl h4
  · right
    rw [List.mem_ofFn] at h4
    obtain ⟨i, hi⟩ := h4
    exact ⟨i, hi.symm⟩

theorem npMin2_nan_left (b : Num) : npMin2 nan b = nan := by simp [npMin2]

theorem isNaN_eq {a : Num} (h : isNaN a = true) : a = nan := by cases a <;> simp_all

theorem foldl_npMin2_nan (l : List Num) (a : Num) (h : a = nan ∨ ∃ b ∈ l, b = nan) : l.foldl npMin2 a = nan := by
  induction l generalizing a with
  | nil =>
    rcases h with h | ⟨b, hb, _⟩
    · exact h
    · simp at hb
  | cons b l ih =>
    simp only [List.foldl_cons]
    apply ih
    rcases h with rfl | ⟨c, hc, rfl⟩
    · left; exact npMin2_nan_left b
    · rcases List.mem_cons.mp hc with rfl | hc
      · left; cases a <;> simp [npMin2]
      · right; exact ⟨_, hc, rfl⟩

/-- `np.min` is NaN as soon as one entry is -/
theorem vmin_nan (v : Vec Num n) (i : Fin n) (h : v i = nan) : vmin v = nan :=
  foldl_npMin2_nan _ _ (Or.inr ⟨_, by simp [List.mem_ofFn], h⟩)

/-- `minbr` from entries that are nonnegative, infinite or NaN -/
theorem vmin_nonneg (v : Vec Num n) (h : ∀ i, v i = nan ∨ v i = pinf ∨ ∃ r, 0 ≤ r ∧ v i = fin r) :
    (vmin v = nan ∧ ∃ i, v i = nan) ∨ (vmin v = pinf ∧ ∀ i, v i = pinf) ∨
      ∃ r, 0 ≤ r ∧ vmin v = fin r ∧ (∃ i, v i = fin r) ∧ ∀ i, v i = pinf ∨ ∃ q, r ≤ q ∧ v i = fin q := by
  by_cases hn : ∃ i, v i = nan
  · obtain ⟨i, hi⟩ := hn
    exact Or.inl ⟨vmin_nan v i hi, i, hi⟩
  · have hno : ∀ i, v i ≠ nan := fun i hi => hn ⟨i, hi⟩
    have h' : ∀ i, isNaN (v i) = false := by
      intro i
      rcases h i with hi | hi | ⟨r, _, hi⟩
      · exact absurd hi (hno i)
      · rw [hi]; rfl
      · rw [hi]; simp
    obtain ⟨h1, h2, h3⟩ := vmin_spec v h'
    right
    by_cases hp : vmin v = pinf
    · left
      refine ⟨hp, fun i => ?_⟩
      have := h2 i
      rw [hp] at this
      rcases h i with hi | hi | ⟨r, _, hi⟩
      · exact absurd hi (hno i)
      · exact hi
      · rw [hi] at this; simp at this
    · right
      rcases h3 with h3 | ⟨k, hk⟩
      · exact absurd h3 hp
      · rcases h k with hi | hi | ⟨r, hr, hi⟩
        · exact absurd hi (hno k)
        · exact absurd (hk.trans hi) hp
        · refine ⟨r, hr, hk.trans hi, ⟨k, hi⟩, fun i => ?_⟩
          rcases h i with hj | hj | ⟨q, _, hj⟩
          · exact absurd hj (hno i)
          · exact Or.inl hj
          · right
            have := h2 i
            rw [hk, hi, hj] at this
            exact ⟨q, by simpa using this, hj⟩

theorem stepBack_br (P : Prob Num n) (st : Step Num n) (i : Fin n) :
    (st.stepBack P).br i = brOf (P.lb i) (P.ub i) (st.x i) (st.s i) := rfl
theorem stepBack_minbr (P : Prob Num n) (st : Step Num n) : (st.stepBack P).minbr = vmin (st.stepBack P).br := rfl
theorem stepBack_alpha (P : Prob Num n) (st : Step Num n) :
    (st.stepBack P).alpha = npMin2 (Fides.lit 1) (P.theta * (st.stepBack P).minbr) := rfl

/-- the step length factor, for `0 < theta` -/
theorem stepBack_alpha_cases (P : Prob Num n) (st : Step Num n) (theta : ℝ) (ht : P.theta = fin theta) (h0 : 0 < theta)
    (hx : ∀ i, NanOrIn (P.lb i) (P.ub i) (st.x i)) :
    ((st.stepBack P).minbr = nan ∧ (st.stepBack P).alpha = nan) ∨
    ((st.stepBack P).minbr = pinf ∧ (st.stepBack P).alpha = fin 1 ∧ ∀ i, (st.stepBack P).br i = pinf) ∨
    ∃ r, 0 ≤ r ∧ (st.stepBack P).minbr = fin r ∧ (st.stepBack P).alpha = fin (min 1 (theta * r)) ∧
      (∃ i, (st.stepBack P).br i = fin r) ∧
      ∀ i, (st.stepBack P).br i = pinf ∨ ∃ q, r ≤ q ∧ (st.stepBack P).br i = fin q := by
  have h := vmin_nonneg (st.stepBack P).br (fun i => brOf_nonneg _ _ _ _ (hx i))
  rw [stepBack_alpha, stepBack_minbr, ht]
  rcases h with ⟨h, -⟩ | ⟨h, h'⟩ | ⟨r, h1, h2, h3, h4⟩
  · left
    rw [h]; simp [npMin2]
  · right; left
    refine ⟨h, ?_, h'⟩
    rw [h, fin_mul_pinf, infSign_pos h0]; simp [npMin2]
  · right; right
    refine ⟨r, h1, h2, ?_, h3, h4⟩
    rw [h2, fin_mul, lit_def, npMin2_fin]; simp

end Fides
