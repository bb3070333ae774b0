import Verif.Lemmas.Candidates

/-! Helper lemmas: every candidate step leads to a point whose coordinates are NaN or within the bounds. -/

namespace Fides
open Num Spec
variable {n : ℕ}

/-- invariant of all candidate steps -/
structure Feas (P : Prob Num n) (st : Step Num n) : Prop where
  x : st.x = vadd P.x st.s0
  base : ∀ i, NanOrIn (P.lb i) (P.ub i) (st.x i)
  trial : ∀ i, NanOrIn (P.lb i) (P.ub i) (P.x i + st.s i + st.s0 i)
  refl : ∀ i, NanOrIn (P.lb i) (P.ub i) (P.x i + (pyMin st.minbr (Fides.lit 1) * st.ogS i + st.s0 i))
  trunc : feq st.alpha (Fides.lit 1) = false → ∀ i, st.iminbr i = true →
    NanOrIn (P.lb i) (P.ub i) (P.x i + (st.s0 i + P.theta * st.br i * st.ogS i))

theorem s0_fin (l u : Num) (x : ℝ) (s0 : Num) (h : NanOrIn l u (fin x + s0)) : s0 = nan ∨ ∃ a, s0 = fin a ∧ InBox1 l u (x + a) := by
  cases s0 with
  | nan => exact Or.inl rfl
  | pinf => rcases h with h | ⟨r, h, _⟩ <;> simp at h
  | ninf => rcases h with h | ⟨r, h, _⟩ <;> simp at h
  | fin a =>
    right
    rcases h with h | ⟨r, h, hb⟩
    · simp at h
    · simp at h; subst h; exact ⟨a, rfl, hb⟩

/-- the invariant after `step_back` -/
theorem stepBack_feas (P : Prob Num n) (st : Step Num n) (xr : Fin n → ℝ) (theta : ℝ) (hx : P.x = ofV xr)
    (ht : P.theta = fin theta) (h0 : 0 < theta) (h1 : theta ≤ 1) (hst : st.x = vadd P.x st.s0)
    (hb : ∀ i, NanOrIn (P.lb i) (P.ub i) (st.x i)) : Feas P (st.stepBack P) := by
  have hs0 : ∀ i, st.s0 i = nan ∨ ∃ a, st.s0 i = fin a ∧ InBox1 (P.lb i) (P.ub i) (xr i + a) := by
    intro i
    apply s0_fin
    have := hb i
    rw [hst, hx] at this
    exact this
  have hxi : ∀ i a, st.s0 i = fin a → st.x i = fin (xr i + a) := by
    intro i a ha
    rw [hst, hx]; show fin (xr i) + st.s0 i = _; rw [ha]; rfl
  have hPx : ∀ i, P.x i = fin (xr i) := fun i => by rw [hx]; rfl
  have hal := stepBack_alpha_cases P st theta ht h0 hb
  -- the three claims, coordinatewise
  have key : ∀ i, NanOrIn (P.lb i) (P.ub i) (P.x i + st.s i * (st.stepBack P).alpha + st.s0 i) ∧
      NanOrIn (P.lb i) (P.ub i) (P.x i + (pyMin (st.stepBack P).minbr (Fides.lit 1) * st.s i + st.s0 i)) ∧
      (feq (st.stepBack P).alpha (Fides.lit 1) = false → feq ((st.stepBack P).br i) (st.stepBack P).minbr = true →
        NanOrIn (P.lb i) (P.ub i) (P.x i + (st.s0 i + P.theta * (st.stepBack P).br i * st.s i))) := by
    intro i
    rcases hs0 i with hs | ⟨a, ha, hbox⟩
    · rw [hs]
      exact ⟨Or.inl (by simp), Or.inl (by simp), fun _ _ => Or.inl (by simp)⟩
    · rw [hPx i, ha]
      have hbr : (st.stepBack P).br i = brOf (P.lb i) (P.ub i) (fin (xr i + a)) (st.s i) := by
        rw [stepBack_br, hxi i a ha]
      rcases hal with ⟨hm, hA⟩ | ⟨hm, hA, hbrs⟩ | ⟨r, hr, hm, hA, hex, hbrs⟩
      · -- NaN
        rw [hm, hA]
        refine ⟨Or.inl (by simp), Or.inl ?_, fun _ h => ?_⟩
        · simp [pyMin]
        · simp [feq] at h
      · -- never blocked
        rw [hm, hA]
        have hb1 := hbrs i
        rw [hbr] at hb1
        have hp : pyMin (pinf : Num) (Fides.lit 1) = fin 1 := by simp [pyMin]
        rw [hp]
        refine ⟨?_, ?_, fun h => by simp at h⟩
        · cases hsi : st.s i with
          | nan => exact Or.inl (by simp)
          | pinf => rw [hsi] at hb1; rcases brOf_inf (P.lb i) (P.ub i) (fin (xr i + a)) pinf (Or.inr ⟨_, rfl, hbox⟩) (Or.inl rfl) with h | h <;> rw [h] at hb1 <;> cases hb1
          | ninf => rw [hsi] at hb1; rcases brOf_inf (P.lb i) (P.ub i) (fin (xr i + a)) ninf (Or.inr ⟨_, rfl, hbox⟩) (Or.inr rfl) with h | h <;> rw [h] at hb1 <;> cases hb1
          | fin s =>
            rw [hsi] at hb1
            rcases brOf_real _ _ _ s hbox with ⟨_, h⟩ | ⟨q, _, _, h, _⟩
            · right
              refine ⟨xr i + s * 1 + a, by simp, ?_⟩
              have := h 1 (by norm_num)
              convert this using 1; ring
            · rw [h] at hb1; cases hb1
        · cases hsi : st.s i with
          | nan => exact Or.inl (by simp)
          | pinf => rw [hsi] at hb1; rcases brOf_inf (P.lb i) (P.ub i) (fin (xr i + a)) pinf (Or.inr ⟨_, rfl, hbox⟩) (Or.inl rfl) with h | h <;> rw [h] at hb1 <;> cases hb1
          | ninf => rw [hsi] at hb1; rcases brOf_inf (P.lb i) (P.ub i) (fin (xr i + a)) ninf (Or.inr ⟨_, rfl, hbox⟩) (Or.inr rfl) with h | h <;> rw [h] at hb1 <;> cases hb1
          | fin s =>
            rw [hsi] at hb1
            rcases brOf_real _ _ _ s hbox with ⟨_, h⟩ | ⟨q, _, _, h, _⟩
            · right
              refine ⟨xr i + (1 * s + a), by simp, ?_⟩
              have := h 1 (by norm_num)
              convert this using 1; ring
            · rw [h] at hb1; cases hb1
      · rw [hm, hA]
        have hp : pyMin (fin r : Num) (Fides.lit 1) = fin (min r 1) := by
          simp only [pyMin, lit_def, Rat.cast_one, fin_lt, decide_eq_true_eq]
          split
          · rename_i h; rw [min_eq_right h.le]
          · rename_i h; rw [min_eq_left (not_lt.mp h)]
        rw [hp]
        have hmin0 : 0 ≤ min 1 (theta * r) := le_min (by norm_num) (mul_nonneg h0.le hr)
        have hminr : min 1 (theta * r) ≤ r := (min_le_right _ _).trans (by nlinarith)
        have hm1 : 0 ≤ min r 1 := le_min hr (by norm_num)
        have hb1 := hbrs i
        rw [hbr] at hb1 ⊢
        cases hsi : st.s i with
        | nan => exact ⟨Or.inl (by simp), Or.inl (by simp), fun _ _ => Or.inl (by simp)⟩
        | pinf =>
          rw [hsi] at hb1
          rcases brOf_inf (P.lb i) (P.ub i) (fin (xr i + a)) pinf (Or.inr ⟨_, rfl, hbox⟩) (Or.inl rfl) with h | h
          · rw [h] at hb1; rcases hb1 with h | ⟨_, _, h⟩ <;> cases h
          · rw [h] at hb1 ⊢
            have hr0 : r = 0 := by
              rcases hb1 with h' | ⟨q, hq, h'⟩
              · cases h'
              · cases h'; exact le_antisymm hq hr
            subst hr0
            simp only [mul_zero, min_eq_right zero_le_one, min_eq_left zero_le_one, fin_mul, ht, pinf_mul_fin, fin_mul_pinf, infSign_zero]
            exact ⟨Or.inl (by simp), Or.inl (by simp), fun _ _ => Or.inl (by simp)⟩
        | ninf =>
          rw [hsi] at hb1
          rcases brOf_inf (P.lb i) (P.ub i) (fin (xr i + a)) ninf (Or.inr ⟨_, rfl, hbox⟩) (Or.inr rfl) with h | h
          · rw [h] at hb1; rcases hb1 with h | ⟨_, _, h⟩ <;> cases h
          · rw [h] at hb1 ⊢
            have hr0 : r = 0 := by
              rcases hb1 with h' | ⟨q, hq, h'⟩
              · cases h'
              · cases h'; exact le_antisymm hq hr
            subst hr0
            simp only [mul_zero, min_eq_right zero_le_one, min_eq_left zero_le_one, fin_mul, ht, ninf_mul_fin, fin_mul_ninf, infSign_zero]
            exact ⟨Or.inl (by simp), Or.inl (by simp), fun _ _ => Or.inl (by simp)⟩
        | fin s =>
          rw [hsi] at hb1
          rcases brOf_real _ _ _ s hbox with ⟨hbp, h⟩ | ⟨q, hq, _, hbq, h⟩
          · refine ⟨Or.inr ⟨xr i + s * min 1 (theta * r) + a, by simp, ?_⟩, Or.inr ⟨xr i + (min r 1 * s + a), by simp, ?_⟩, ?_⟩
            · have := h _ hmin0
              convert this using 1; ring
            · have := h _ hm1
              convert this using 1; ring
            · intro _ hf
              rw [hbp] at hf; simp [feq] at hf
          · have hrq : r ≤ q := by
              rcases hb1 with h' | ⟨q', hq', h'⟩
              · rw [hbq] at h'; cases h'
              · rw [hbq] at h'; cases h'; exact hq'
            refine ⟨Or.inr ⟨xr i + s * min 1 (theta * r) + a, by simp, ?_⟩, Or.inr ⟨xr i + (min r 1 * s + a), by simp, ?_⟩, ?_⟩
            · have := (h _ hmin0).mpr (hminr.trans hrq)
              convert this using 1; ring
            · have := (h _ hm1).mpr ((min_le_left _ _).trans hrq)
              convert this using 1; ring
            · intro _ _
              rw [hbq, ht]
              refine Or.inr ⟨xr i + (a + theta * q * s), by simp, ?_⟩
              have := (h (theta * q) (mul_nonneg h0.le hq)).mpr (by nlinarith)
              convert this using 1; ring
  exact { x := hst, base := hb, trial := fun i => (key i).1, refl := fun i => (key i).2.1, trunc := fun h i hi => (key i).2.2 h hi }

theorem Feas.qp {P : Prob Num n} {st : Step Num n} (h : Feas P st) (q : Num) : Feas P { st with qpval := q } :=
  { x := h.x, base := h.base, trial := h.trial, refl := h.refl, trunc := h.trunc }

theorem computeStep_frame {F : Type} [FloatOps F] (O : SubOracles F) (P : Prob F n) (st st' : Step F n)
    (h : st.computeStep O P = .ok st') : st'.x = st.x ∧ st'.s0 = st.s0 ∧ st'.ss0 = st.ss0 ∧ st'.subspace = st.subspace := by
  unfold Step.computeStep at h
  split at h
  · cases h; exact ⟨rfl, rfl, rfl, rfl⟩
  · cases h; exact ⟨rfl, rfl, rfl, rfl⟩
  · simp only at h
    split at h
    · cases h
    · cases h; exact ⟨rfl, rfl, rfl, rfl⟩

section
variable {P : Prob Num n} {xr : Fin n → ℝ} {theta : ℝ} (hx : P.x = ofV xr) (ht : P.theta = fin theta) (h0 : 0 < theta)
  (h1 : theta ≤ 1) (hbox : InBox P.lb P.ub xr)
include hx ht h0 h1

theorem calculate_feas (O : SubOracles Num) (st st' : Step Num n) (hst : st.x = vadd P.x st.s0)
    (hb : ∀ i, NanOrIn (P.lb i) (P.ub i) (st.x i)) (h : st.calculate O P = .ok st') : Feas P st' := by
  unfold Step.calculate at h
  split at h
  · cases h
  · rename_i st1 hc
    obtain ⟨f1, f2, _, _⟩ := computeStep_frame O P st st1 hc
    cases h
    exact (stepBack_feas P st1 xr theta hx ht h0 h1 (by rw [f1, f2]; exact hst) (by rw [f1]; exact hb)).qp _

include hbox

theorem init_ok : P.x = vadd P.x (vzero : Vec Num n) ∧ ∀ i, NanOrIn (P.lb i) (P.ub i) (P.x i) := by
  constructor
  · rw [hx]; simp
  · intro i; right; rw [hx]; exact ⟨xr i, rfl, hbox i⟩

/-- every step considered by `trust_region` leads to a point with coordinates NaN or within the bounds -/
theorem cand_feas (O : Oracles Num) (fuel : ℕ) (dim : SubSpaceDim) (st : Step Num n) (h : Cand O fuel P dim st) : Feas P st := by
  obtain ⟨i1, i2⟩ := init_ok hx ht h0 h1 hbox
  induction h with
  | base st h =>
    cases dim with
    | two =>
      simp only [trStep, step2d] at h
      split at h
      · cases h
      · exact calculate_feas hx ht h0 h1 _ _ _ i1 i2 h
    | full => exact calculate_feas hx ht h0 h1 _ _ _ i1 i2 h
    | steihaug =>
      simp only [trStep, stepSteihaug] at h
      split at h
      · cases h
      · split at h
        · cases h
        · cases h
          exact (stepBack_feas P _ xr theta hx ht h0 h1 i1 i2).qp _
    | other => cases h
  | grad st h => exact calculate_feas hx ht h0 h1 _ _ _ i1 i2 h
  | refl cur st _ ha h ih =>
    refine calculate_feas hx ht h0 h1 _ _ _ ?_ ?_ h
    · rfl
    · exact fun i => ih.refl i
  | trunc cur st _ ha h ih =>
    refine calculate_feas hx ht h0 h1 _ _ _ rfl ?_ h
    intro i
    show NanOrIn _ _ (P.x i + if cur.iminbr i = true then cur.s0 i + P.theta * cur.br i * cur.ogS i else cur.s0 i)
    split
    · rename_i hi; exact ih.trunc ha i hi
    · have := ih.base i
      rw [ih.x] at this
      exact this
  | refined cur st _ h ih =>
    simp only [stepRefined] at h
    split at h
    · cases h
    · cases h
      exact (stepBack_feas P _ xr theta hx ht h0 h1 i1 i2).qp _

end

end Fides
