import Verif.Lemmas.Feasible

/-! Helper lemmas: scaled and unscaled step of every candidate step. -/

namespace Fides
open Num Spec
variable {n : ℕ}

/-! ### finite results have finite arguments -/

theorem add_fin_iff (a b : Num) (r : ℝ) (h : a + b = fin r) : ∃ p q, a = fin p ∧ b = fin q ∧ r = p + q := by
  cases a <;> cases b <;> simp at h
  exact ⟨_, _, rfl, rfl, h.symm⟩

theorem mul_fin_iff (a b : Num) (r : ℝ) (h : a * b = fin r) : ∃ p q, a = fin p ∧ b = fin q ∧ r = p * q := by
  cases a with
  | nan => simp at h
  | fin p =>
    cases b with
    | nan => simp at h
    | fin q => simp at h; exact ⟨p, q, rfl, rfl, h.symm⟩
    | pinf => rcases infSign_cases p with hp | hp | hp <;> simp [fin_mul_pinf, hp.2] at h
    | ninf => rcases infSign_cases p with hp | hp | hp <;> simp [fin_mul_ninf, hp.2] at h
  | pinf =>
    cases b with
    | nan => simp at h
    | fin p => rcases infSign_cases p with hp | hp | hp <;> simp [pinf_mul_fin, hp.2] at h
    | pinf => simp at h
    | ninf => simp at h
  | ninf =>
    cases b with
    | nan => simp at h
    | fin p => rcases infSign_cases p with hp | hp | hp <;> simp [ninf_mul_fin, hp.2] at h
    | pinf => simp at h
    | ninf => simp at h

theorem add_zero_num (a : Num) : a + fin 0 = a := by cases a <;> simp

theorem sum_fin_mem (l : List Num) (r : ℝ) (h : FloatOps.sum l = fin r) : ∀ a ∈ l, ∃ p, a = fin p := by
  induction l generalizing r with
  | nil => simp
  | cons b l ih =>
    rw [sum_cons] at h
    obtain ⟨p, q, h1, h2, _⟩ := add_fin_iff _ _ _ h
    intro a ha
    rcases List.mem_cons.mp ha with rfl | ha
    · exact ⟨p, h1⟩
    · exact ih q h2 a ha

theorem dot_fin (v w : Vec Num n) (r : ℝ) (h : dot v w = fin r) (i : Fin n) : ∃ p q, v i = fin p ∧ w i = fin q := by
  obtain ⟨p, hp⟩ := sum_fin_mem _ r h (v i * w i) (by rw [List.mem_ofFn]; exact ⟨i, rfl⟩)
  obtain ⟨a, b, h1, h2, _⟩ := mul_fin_iff _ _ _ hp
  exact ⟨a, b, h1, h2⟩

/-- a finite model value needs a finite step -/
theorem quadraticForm_fin (q : Mat Num n n) (p x : Vec Num n) (r : ℝ) (h : quadraticForm q p x = fin r) (i : Fin n) : ∃ a, x i = fin a := by
  unfold quadraticForm at h
  obtain ⟨_, b, _, h2, _⟩ := add_fin_iff _ _ _ h
  obtain ⟨_, c, _, h3⟩ := dot_fin _ _ _ h2 i
  exact ⟨c, h3⟩

/-- the predicted value of every candidate is the quadratic model at its scaled step -/
theorem cand_qpval {P : Prob Num n} (O : Oracles Num) (fuel : ℕ) (dim : SubSpaceDim) (st : Step Num n) (h : Cand O fuel P dim st) :
    st.qpval = quadraticForm P.shess P.sg (vadd st.ss st.ss0) := by
  have hcalc : ∀ (st st' : Step Num n), st.calculate O.sub P = .ok st' → st'.qpval = quadraticForm P.shess P.sg (vadd st'.ss st'.ss0) := by
    intro st st' h
    unfold Step.calculate at h
    split at h
    · cases h
    · cases h; rfl
  cases h with
  | base st h =>
    cases dim with
    | two =>
      simp only [trStep, step2d] at h
      split at h
      · cases h
      · exact hcalc _ _ h
    | full => exact hcalc _ _ h
    | steihaug =>
      simp only [trStep, stepSteihaug] at h
      split at h
      · cases h
      · split at h
        · cases h
        · cases h; rfl
    | other => cases h
  | grad st h => exact hcalc _ _ h
  | refl cur st _ ha h => exact hcalc _ _ h
  | trunc cur st _ ha h => exact hcalc _ _ h
  | refined cur st _ h =>
    simp only [stepRefined] at h
    split at h
    · cases h
    · cases h
      show quadraticForm _ _ _ = quadraticForm _ _ _
      congr 1
      funext i
      show _ = _ + fin ((0 : ℚ) : ℝ)
      rw [Rat.cast_zero, add_zero_num]

/-- `a` is finite whenever `b` is -/
def FinIf (a b : Num) : Prop := (∃ r, b = fin r) → ∃ r, a = fin r

/-- finite scaled steps have finite unscaled steps -/
structure FinInv (st : Step Num n) : Prop where
  s0 : ∀ i, FinIf (st.s0 i) (st.ss0 i)
  og : ∀ i, (∃ r, st.ss0 i = fin r) → FinIf (st.ogS i) (st.ogSs i)
  s : ∀ i, (∃ r, st.ss0 i = fin r) → FinIf (st.s i) (st.ss i)

theorem sdot_fin (d : Fin n → ℝ) (v : Vec Num n) (i : Fin n) (r : ℝ) (h : v i = fin r) : sdot (ofV d) v i = fin (d i * r) := by
  simp only [sdot, ofV_apply, lit_def, Rat.cast_zero, fin_feq, decide_eq_true_eq, h, fin_mul]
  split
  · rename_i h0; rw [h0, zero_mul]
  · rfl

theorem stepBack_finInv (P : Prob Num n) (st : Step Num n) (h0 : ∀ i, FinIf (st.s0 i) (st.ss0 i))
    (h : ∀ i, (∃ r, st.ss0 i = fin r) → FinIf (st.s i) (st.ss i)) (q : Num) : FinInv { st.stepBack P with qpval := q } where
  s0 := h0
  og := h
  s i hs := by
    rintro ⟨r, hr⟩
    have hr' : st.ss i * (st.stepBack P).alpha = fin r := hr
    obtain ⟨a, b, h1, h2, _⟩ := mul_fin_iff _ _ _ hr'
    obtain ⟨c, hc⟩ := h i hs ⟨a, h1⟩
    refine ⟨c * b, ?_⟩
    show st.s i * (st.stepBack P).alpha = _
    rw [hc, h2, fin_mul]

theorem calculate_finInv (O : SubOracles Num) (P : Prob Num n) (d : Fin n → ℝ) (hd : P.scaling = ofV d) (st st' : Step Num n)
    (h0 : ∀ i, FinIf (st.s0 i) (st.ss0 i)) (h : st.calculate O P = .ok st') : FinInv st' := by
  unfold Step.calculate at h
  split at h
  · cases h
  · rename_i st1 hc
    obtain ⟨_, f2, f3, _⟩ := computeStep_frame O P st st1 hc
    cases h
    refine stepBack_finInv P st1 (by rw [f2, f3]; exact h0) ?_ _
    intro i _
    unfold Step.computeStep at hc
    split at hc
    · cases hc; exact fun _ => ⟨_, rfl⟩
    · cases hc
      rintro ⟨r, hr⟩
      exact ⟨_, by rw [hd]; exact sdot_fin d _ i r hr⟩
    · simp only at hc
      split at hc
      · cases hc
      · cases hc
        rintro ⟨r, hr⟩
        exact ⟨_, by rw [hd]; exact sdot_fin d _ i r hr⟩

theorem cand_finInv {P : Prob Num n} (d : Fin n → ℝ) (hd : P.scaling = ofV d) (O : Oracles Num) (fuel : ℕ) (dim : SubSpaceDim)
    (st : Step Num n) (h : Cand O fuel P dim st) : FinInv st := by
  have hz : ∀ i : Fin n, FinIf ((vzero : Vec Num n) i) ((vzero : Vec Num n) i) := fun i _ => ⟨_, rfl⟩
  induction h with
  | base st h =>
    cases dim with
    | two =>
      simp only [trStep, step2d] at h
      split at h
      · cases h
      · exact calculate_finInv _ P d hd _ _ hz h
    | full => exact calculate_finInv _ P d hd _ _ hz h
    | steihaug =>
      simp only [trStep, stepSteihaug] at h
      split at h
      · cases h
      · split at h
        · cases h
        · rename_i o ho
          cases h
          refine stepBack_finInv P _ (fun i _ => ⟨_, rfl⟩) ?_ _
          rintro i ⟨r, hr⟩ ⟨q, hq⟩
          have hr' : o.ss0 i = fin r := hr
          have hq' : o.ss i = fin q := hq
          have hv : vadd o.ss o.ss0 i = fin (q + r) := by
            show o.ss i + o.ss0 i = _
            rw [hr', hq']; rfl
          exact ⟨_, by rw [hd]; exact sdot_fin d _ i (q + r) hv⟩
    | other => cases h
  | grad st h => exact calculate_finInv _ P d hd _ _ hz h
  | refl cur st _ ha h ih =>
    refine calculate_finInv _ P d hd _ _ ?_ h
    rintro i ⟨r, hr⟩
    have hr' : pyMin cur.minbr (Fides.lit 1) * cur.ogSs i + cur.ss0 i = fin r := hr
    obtain ⟨a, b, h1, h2, _⟩ := add_fin_iff _ _ _ hr'
    obtain ⟨c, e, h3, h4, _⟩ := mul_fin_iff _ _ _ h1
    obtain ⟨a', ha'⟩ := ih.s0 i ⟨b, h2⟩
    obtain ⟨b', hb'⟩ := ih.og i ⟨b, h2⟩ ⟨e, h4⟩
    refine ⟨c * b' + a', ?_⟩
    show pyMin cur.minbr (Fides.lit 1) * cur.ogS i + cur.s0 i = _
    rw [h3, ha', hb']; rfl
  | trunc cur st _ ha h ih =>
    refine calculate_finInv _ P d hd _ _ ?_ h
    rintro i ⟨r, hr⟩
    have hr' : (if cur.iminbr i = true then cur.ss0 i + P.theta * cur.br i * cur.ogSs i else cur.ss0 i) = fin r := hr
    show ∃ r, (if cur.iminbr i = true then cur.s0 i + P.theta * cur.br i * cur.ogS i else cur.s0 i) = fin r
    split
    · rename_i hi
      rw [if_pos hi] at hr'
      obtain ⟨a, b, h1, h2, _⟩ := add_fin_iff _ _ _ hr'
      obtain ⟨c, e, h3, h4, _⟩ := mul_fin_iff _ _ _ h2
      obtain ⟨a', ha'⟩ := ih.s0 i ⟨a, h1⟩
      obtain ⟨b', hb'⟩ := ih.og i ⟨a, h1⟩ ⟨e, h4⟩
      exact ⟨a' + c * b', by rw [h3, ha', hb']; rfl⟩
    · rename_i hi
      rw [if_neg hi] at hr'
      exact ih.s0 i ⟨r, hr'⟩
  | refined cur st _ h ih =>
    simp only [stepRefined] at h
    split at h
    · cases h
    · cases h
      refine stepBack_finInv P _ hz ?_ _
      rintro i _ ⟨r, hr⟩
      exact ⟨_, by rw [hd]; exact sdot_fin d _ i r hr⟩

/-- a candidate with finite predicted value is a finite step -/
theorem cand_finite {P : Prob Num n} (d : Fin n → ℝ) (hd : P.scaling = ofV d) (O : Oracles Num) (fuel : ℕ) (dim : SubSpaceDim)
    (st : Step Num n) (h : Cand O fuel P dim st) (q : ℝ) (hq : st.qpval = fin q) :
    ∃ a b c e : Fin n → ℝ, st.s = ofV a ∧ st.s0 = ofV b ∧ st.ss = ofV c ∧ st.ss0 = ofV e := by
  have hi := cand_finInv d hd O fuel dim st h
  rw [cand_qpval O fuel dim st h] at hq
  have hs : ∀ i, ∃ a b c e, st.s i = fin a ∧ st.s0 i = fin b ∧ st.ss i = fin c ∧ st.ss0 i = fin e := by
    intro i
    obtain ⟨r, hr⟩ := quadraticForm_fin _ _ _ _ hq i
    obtain ⟨c, e, h1, h2, _⟩ := add_fin_iff _ _ _ hr
    obtain ⟨a, ha⟩ := hi.s i ⟨e, h2⟩ ⟨c, h1⟩
    obtain ⟨b, hb⟩ := hi.s0 i ⟨e, h2⟩
    exact ⟨a, b, c, e, ha, hb, h1, h2⟩
  choose a b c e ha hb hc he using hs
  exact ⟨a, b, c, e, funext ha, funext hb, funext hc, funext he⟩

end Fides
