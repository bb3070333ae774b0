import Verif.Lemmas.StepBack

/-!
# C23, C24: step-back and candidate selection
-/

namespace Fides
open Num Spec
variable {n : ℕ}

/-! ## C23 -/

/-- C23: from a feasible point, a finite step is multiplied by `min(1, theta*T)` where `T` is the largest multiple of the
step that stays feasible, or by one when the ray never leaves the box; all parts of the step object are multiplied by
the same factor. -/
theorem C23_factor (P : Prob Num n) (st : Step Num n) (x s : Fin n → ℝ) (theta : ℝ) (hx : st.x = ofV x) (hs : st.s = ofV s)
    (ht : P.theta = fin theta) (h0 : 0 < theta) (hbox : InBox P.lb P.ub x) :
    ∃ a : ℝ, (st.stepBack P).alpha = fin a ∧ 0 ≤ a ∧ a ≤ 1 ∧ (st.stepBack P).s = ofV (a • s) ∧
      (st.stepBack P).ss = (fun i => st.ss i * fin a) ∧ (st.stepBack P).sc = st.sc.map (· * fin a) ∧
      (st.stepBack P).ogS = st.s ∧
      ((a = 1 ∧ ∀ t : ℝ, 0 ≤ t → InBox P.lb P.ub (x + t • s)) ∨
        ∃ T, 0 ≤ T ∧ a = min 1 (theta * T) ∧ ∀ t : ℝ, 0 ≤ t → (InBox P.lb P.ub (x + t • s) ↔ t ≤ T)) := by
  have hnx : ∀ i, NanOrIn (P.lb i) (P.ub i) (st.x i) := fun i => Or.inr ⟨x i, by rw [hx]; rfl, hbox i⟩
  have hbr : ∀ i, (st.stepBack P).br i = brOf (P.lb i) (P.ub i) (fin (x i)) (fin (s i)) := by
    intro i; rw [stepBack_br, hx, hs]; rfl
  have fin_of : ∀ a : ℝ, (st.stepBack P).alpha = fin a → (st.stepBack P).s = ofV (a • s) ∧
      (st.stepBack P).ss = (fun i => st.ss i * fin a) ∧ (st.stepBack P).sc = st.sc.map (· * fin a) := by
    intro a ha
    refine ⟨?_, ?_, ?_⟩
    · funext i
      show st.s i * (st.stepBack P).alpha = _
      rw [ha, hs]; simp [mul_comm]
    · funext i
      show st.ss i * (st.stepBack P).alpha = _
      rw [ha]
    · show st.sc.map (fun c => c * (st.stepBack P).alpha) = _
      rw [ha]
  rcases stepBack_alpha_cases P st theta ht h0 hnx with ⟨h1, h2⟩ | ⟨h1, h2, h3⟩ | ⟨r, h1, h2, h3, ⟨k, h4⟩, h5⟩
  · exfalso
    have hno : ∀ i, isNaN ((st.stepBack P).br i) = false := by
      intro i
      rw [hbr]
      rcases brOf_real _ _ _ (s i) (hbox i) with ⟨h, _⟩ | ⟨_, _, _, h, _⟩ <;> rw [h] <;> simp
    have := (vmin_spec _ hno).1
    rw [← stepBack_minbr, h1] at this
    simp at this
  · refine ⟨1, h2, zero_le_one, le_rfl, (fin_of 1 h2).1, (fin_of 1 h2).2.1, (fin_of 1 h2).2.2, rfl, Or.inl ⟨rfl, ?_⟩⟩
    intro t ht0 i
    rcases brOf_real _ _ _ (s i) (hbox i) with ⟨_, h⟩ | ⟨q, _, _, h, _⟩
    · exact h t ht0
    · have := h3 i
      rw [hbr, h] at this
      cases this
  · have ha0 : 0 ≤ min 1 (theta * r) := le_min zero_le_one (mul_nonneg h0.le h1)
    refine ⟨min 1 (theta * r), h3, ha0, min_le_left _ _, (fin_of _ h3).1, (fin_of _ h3).2.1, (fin_of _ h3).2.2, rfl,
      Or.inr ⟨r, h1, rfl, ?_⟩⟩
    intro t ht0
    constructor
    · intro hin
      rcases brOf_real _ _ _ (s k) (hbox k) with ⟨h, _⟩ | ⟨q, _, _, h, hq⟩
      · rw [hbr, h] at h4; cases h4
      · rw [hbr, h, fin_inj] at h4
        subst h4
        exact (hq t ht0).mp (hin k)
    · intro hle i
      rcases brOf_real _ _ _ (s i) (hbox i) with ⟨_, h⟩ | ⟨q, _, _, h, hq⟩
      · exact h t ht0
      · rcases h5 i with h' | ⟨q', hq', h'⟩
        · rw [hbr, h] at h'; cases h'
        · rw [hbr, h, fin_inj] at h'
          subst h'
          exact (hq t ht0).mpr (hle.trans hq')

/-- C23, consequence: with `theta ≤ 1` the shortened step is feasible. -/
theorem C23_feasible (P : Prob Num n) (st : Step Num n) (x s : Fin n → ℝ) (theta : ℝ) (hx : st.x = ofV x) (hs : st.s = ofV s)
    (ht : P.theta = fin theta) (h0 : 0 < theta) (h1 : theta ≤ 1) (hbox : InBox P.lb P.ub x) :
    ∃ r, (st.stepBack P).s = ofV r ∧ InBox P.lb P.ub (x + r) := by
  obtain ⟨a, _, ha0, _, hsa, _, _, _, h⟩ := C23_factor P st x s theta hx hs ht h0 hbox
  refine ⟨_, hsa, ?_⟩
  rcases h with ⟨_, h⟩ | ⟨T, hT, rfl, h⟩
  · exact h a ha0
  · refine (h _ ha0).mpr ((min_le_right _ _).trans ?_)
    nlinarith

/-- C23, consequence: with `theta < 1`, from a strictly interior point, the shortened step is strictly interior unless it
was taken in full without reaching a bound (then the full step is strictly interior as well or ends where the ray
would have been blocked after `1/theta` of it): in every case the result is strictly inside. -/
theorem C23_strict (P : Prob Num n) (st : Step Num n) (x s : Fin n → ℝ) (theta : ℝ) (hx : st.x = ofV x) (hs : st.s = ofV s)
    (ht : P.theta = fin theta) (h0 : 0 < theta) (h1 : theta < 1) (hin : Inside P.lb P.ub x) :
    ∃ r, (st.stepBack P).s = ofV r ∧ Inside P.lb P.ub (x + r) := by
  have hbox : InBox P.lb P.ub x := fun i =>
    ⟨((LawfulFloat.lt_iff _ _).mp (hin i).1).1, ((LawfulFloat.lt_iff _ _).mp (hin i).2).1⟩
  obtain ⟨a, _, ha0, ha1, hsa, _, _, _, h⟩ := C23_factor P st x s theta hx hs ht h0 hbox
  refine ⟨_, hsa, ?_⟩
  -- a slightly longer step is feasible too
  obtain ⟨t, hat, hft⟩ : ∃ t : ℝ, (a < t ∨ a = 0) ∧ (0 < a → InBox P.lb P.ub (x + t • s)) := by
    rcases h with ⟨ha, h⟩ | ⟨T, hT, rfl, h⟩
    · exact ⟨2, Or.inl (by linarith), fun _ => h 2 (by norm_num)⟩
    · by_cases hz : T = 0
      · exact ⟨0, Or.inr (by subst hz; simp), fun hp => by subst hz; simp at hp⟩
      · have hTp : 0 < T := lt_of_le_of_ne hT (Ne.symm hz)
        refine ⟨T, Or.inl ?_, fun _ => (h T hT).mpr le_rfl⟩
        calc min 1 (theta * T) ≤ theta * T := min_le_right _ _
          _ < T := by nlinarith
  intro i
  rcases eq_or_lt_of_le ha0 with hz | hpos
  · rw [← hz]; simpa using hin i
  · have ht1 : a < t := by
      rcases hat with h | h
      · exact h
      · exact absurd h hpos.ne'
    have hf := hft hpos i
    have hi := hin i
    have hconv : x i + a * s i = (1 - a / t) * x i + a / t * (x i + t * s i) := by
      have : t ≠ 0 := by linarith
      field_simp; ring
    have hc1 : 0 < 1 - a / t := by
      have : a / t < 1 := (div_lt_one (by linarith)).mpr ht1
      linarith
    have hc2 : 0 < a / t := div_pos hpos (by linarith)
    simp only [Pi.add_apply, Pi.smul_apply, smul_eq_mul] at hf ⊢
    rw [hconv]
    generalize x i + t * s i = y at hf
    generalize x i = z at hi
    generalize a / t = c at hc1 hc2
    obtain ⟨f1, f2⟩ := hf
    obtain ⟨i1, i2⟩ := hi
    constructor
    · cases hl : P.lb i with
      | nan => rw [hl] at i1; simp at i1
      | pinf => rw [hl] at i1; simp at i1
      | ninf => simp
      | fin l =>
        rw [hl] at i1 f1
        simp only [fin_lt, fin_le, decide_eq_true_eq] at i1 f1 ⊢
        nlinarith
    · cases hu : P.ub i with
      | nan => rw [hu] at i2; simp at i2
      | ninf => rw [hu] at i2; simp at i2
      | pinf => simp
      | fin u =>
        rw [hu] at i2 f2
        simp only [fin_lt, fin_le, decide_eq_true_eq] at i2 f2 ⊢
        nlinarith

/-- the hypotheses are met by a step in the plane that hits one of two bounds -/
example : ∃ (P : Prob Num 2) (st : Step Num 2) (x s : Fin 2 → ℝ) (theta : ℝ), st.x = ofV x ∧ st.s = ofV s ∧
    P.theta = fin theta ∧ 0 < theta ∧ theta < 1 ∧ Inside P.lb P.ub x ∧ ¬ InBox P.lb P.ub (x + s) := by
  let P : Prob Num 2 := {
    x := ofV ![0, 0], sg := ofV ![1, 1], hess := ofM 0, scaling := ofV ![1, 1],
    gDscaling := ofV ![0, 0], delta := fin 1, theta := fin (1 / 2), ub := ![fin 1, pinf], lb := ![ninf, ninf] }
  refine ⟨P, { Step.init P .nd [] with s := ofV ![2, 1] }, ![0, 0], ![2, 1], 1 / 2, rfl, rfl, rfl, by norm_num,
    by norm_num, ?_, ?_⟩
  · intro i; fin_cases i <;> simp [P, Inside1]
  · intro h; have := (h 0).2; norm_num [P] at this

/-! ## C24 -/

/-- what `argmin` picks from a list without NaN keys -/
theorem argminGo_spec {α : Type} (key : α → Num) (b : α) (l : List α) (hb : isNaN (key b) = false)
    (hl : ∀ a ∈ l, isNaN (key a) = false) :
    ∃ pre post, b :: l = pre ++ argminGo key b l :: post ∧ (∀ a ∈ pre, lt (key (argminGo key b l)) (key a) = true) ∧
      ∀ a ∈ post, le (key (argminGo key b l)) (key a) = true := by
  induction l generalizing b with
  | nil => exact ⟨[], [], rfl, by simp, by simp⟩
  | cons c l ih =>
    have hc := hl c (by simp)
    have hl' : ∀ a ∈ l, isNaN (key a) = false := fun a ha => hl a (by simp [ha])
    have hb' : le (key b) (key b) = true := by simpa [isNaN] using hb
    have hc' : le (key c) (key c) = true := by simpa [isNaN] using hc
    by_cases hlt : lt (key c) (key b) = true
    · have e : argminGo key b (c :: l) = argminGo key c l := by simp [argminGo, hb, hlt]
      rw [e]
      obtain ⟨pre, post, h1, h2, h3⟩ := ih c hc hl'
      refine ⟨b :: pre, post, by rw [h1]; rfl, ?_, h3⟩
      intro a ha
      rcases List.mem_cons.mp ha with rfl | ha
      · -- the chosen key is at most that of `c`
        have hle : le (key (argminGo key c l)) (key c) = true := by
          cases pre with
          | nil => simp only [List.nil_append, List.cons.injEq] at h1; rw [← h1.1]; exact hc'
          | cons p ps =>
            simp only [List.cons_append, List.cons.injEq] at h1
            have := h2 p (by simp)
            rw [← h1.1] at this
            exact ((LawfulFloat.lt_iff _ _).mp this).1
        have hcb := (LawfulFloat.lt_iff _ _).mp hlt
        refine (LawfulFloat.lt_iff _ _).mpr ⟨LawfulFloat.le_trans _ _ _ hle hcb.1, ?_⟩
        by_contra hcon
        have : le (key a) (key c) = true := LawfulFloat.le_trans _ _ _ (by simpa using hcon) hle
        rw [hcb.2] at this; cases this
      · exact h2 a ha
    · have e : argminGo key b (c :: l) = argminGo key b l := by simp [argminGo, hb, hc, hlt]
      rw [e]
      have hbc : le (key b) (key c) = true := by
        rcases LawfulFloat.le_total _ _ hb' hc' with h | h
        · exact h
        · by_contra hcon
          exact hlt ((LawfulFloat.lt_iff _ _).mpr ⟨h, by simpa using hcon⟩)
      obtain ⟨pre, post, h1, h2, h3⟩ := ih b hb hl'
      cases pre with
      | nil =>
        simp only [List.nil_append, List.cons.injEq] at h1
        refine ⟨[], c :: l, by rw [← h1.1]; rfl, by simp, ?_⟩
        intro a ha
        rcases List.mem_cons.mp ha with rfl | ha
        · rw [← h1.1]; exact hbc
        · rw [h1.2] at ha; exact h3 a ha
      | cons p ps =>
        simp only [List.cons_append, List.cons.injEq] at h1
        obtain ⟨rfl, h1⟩ := h1
        refine ⟨b :: c :: ps, post, by simp only [List.cons_append]; rw [← h1], ?_, h3⟩
        have hpb := h2 b (by simp)
        intro a ha
        simp only [List.mem_cons] at ha
        rcases ha with rfl | rfl | ha
        · exact hpb
        · have hp := (LawfulFloat.lt_iff _ _).mp hpb
          refine (LawfulFloat.lt_iff _ _).mpr ⟨LawfulFloat.le_trans _ _ _ hp.1 hbc, ?_⟩
          by_contra hcon
          have : le (key b) (key (argminGo key b l)) = true := LawfulFloat.le_trans _ _ _ hbc (by simpa using hcon)
          rw [hp.2] at this; cases this
        · exact h2 a (by simp [ha])

/-- C24: when no predicted value is NaN, the proposal returned by `trust_region` is one of the computed candidates, has
the least predicted model value of them, and is the first with that value. -/
theorem C24_best (O : Oracles Num) (fuel : ℕ) (dim : SubSpaceDim) (strat : StepBackStrategy) (I : TRIn Num n) (tr : Step Num n)
    (rest : List (Step Num n)) (best : Step Num n) (hc : candidates O fuel I.prob dim strat = .ok (tr, rest))
    (hnn : ∀ st ∈ tr :: rest, isNaN st.qpval = false) (h : trustRegion O fuel dim strat I = .ok best) :
    ∃ pre post, tr :: rest = pre ++ best :: post ∧ (∀ st ∈ pre, lt best.qpval st.qpval = true) ∧
      ∀ st ∈ post, le best.qpval st.qpval = true := by
  rw [trustRegion, hc] at h
  cases h
  exact argminGo_spec (fun st : Step Num n => st.qpval) tr rest (hnn tr (by simp)) (fun a ha => hnn a (by simp [ha]))

/-- C24, NaN: if some candidate has a NaN predicted value, a candidate with NaN predicted value is returned. -/
theorem C24_nan_preferred (O : Oracles Num) (fuel : ℕ) (dim : SubSpaceDim) (strat : StepBackStrategy) (I : TRIn Num n)
    (tr : Step Num n) (rest : List (Step Num n)) (best : Step Num n)
    (hc : candidates O fuel I.prob dim strat = .ok (tr, rest)) (hnn : ∃ st ∈ tr :: rest, st.qpval = nan)
    (h : trustRegion O fuel dim strat I = .ok best) : best.qpval = nan := by
  rw [trustRegion, hc] at h
  cases h
  clear hc
  induction rest generalizing tr with
  | nil =>
    obtain ⟨st, hst, hq⟩ := hnn
    simp at hst; subst hst; exact hq
  | cons c l ih =>
    rw [argminGo]
    by_cases hb : isNaN tr.qpval = true
    · rw [if_pos hb]; exact isNaN_eq hb
    · rw [if_neg hb]
      obtain ⟨st, hst, hq⟩ := hnn
      simp only [List.mem_cons] at hst
      have hne : st ≠ tr := by rintro rfl; rw [hq] at hb; simp at hb
      split
      · refine ih c ⟨st, ?_, hq⟩
        rcases hst with h | h | h
        · exact absurd h hne
        · simp [h]
        · simp [h]
      · rename_i hc
        refine ih tr ⟨st, ?_, hq⟩
        rcases hst with h | h | h
        · exact absurd h hne
        · subst h; rw [hq] at hc; simp at hc
        · simp [h]

end Fides
