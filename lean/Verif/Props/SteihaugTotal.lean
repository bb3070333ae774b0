import Verif.Lemmas.SteihaugOracle
import Verif.Props.Loops
import Verif.Lemmas.TruncDemo

/-!
# C66: the truncated-CG solver needs no external routine and never fails
-/

namespace Fides
open Num Spec
section
variable {F : Type} [FloatOps F] {n : ℕ}

theorem calculate_small (O : SubOracles F) (P : Prob F n) (st : Step F n) (h : st.subspace.length ≤ 1) : ∃ st', st.calculate O P = .ok st' := by
  have : ∃ st', st.computeStep O P = .ok st' := by
    unfold Step.computeStep
    split
    · exact ⟨_, rfl⟩
    · exact ⟨_, rfl⟩
    · rename_i h1 h2
      exfalso
      rcases hs : st.subspace with _ | ⟨c, _ | ⟨c', l⟩⟩
      · exact h1 hs
      · exact h2 c hs
      · rw [hs] at h; simp at h
  obtain ⟨st', hs⟩ := this
  unfold Step.calculate
  rw [hs]
  exact ⟨_, rfl⟩

theorem stepReflected_small (O : Oracles F) (P : Prob F n) (st : Step F n) : ∃ st', stepReflected O P st = .ok st' :=
  calculate_small _ _ _ (by simp [reflectInit, Step.init])

theorem stepGradient_small (O : Oracles F) (P : Prob F n) : ∃ st', stepGradient O P = .ok st' :=
  calculate_small _ _ _ (by simp [Step.init])

theorem stepTruncated_small (O : Oracles F) (P : Prob F n) (st : Step F n) (h : st.subspace.length ≤ 1) : ∃ st', stepTruncated O P st = .ok st' :=
  calculate_small _ _ _ ((reduceSubspace_length _ _).trans h)

theorem reflectLoop_small (O : Oracles F) (P : Prob F n) (k : ℕ) (cur : Step F n) : ∃ l, reflectLoop O P k cur = .ok l := by
  induction k generalizing cur with
  | zero => exact ⟨[], rfl⟩
  | succ k ih =>
    unfold reflectLoop
    split
    · exact ⟨[], rfl⟩
    · obtain ⟨st, h1⟩ := stepReflected_small O P cur
      obtain ⟨l, h2⟩ := ih st
      rw [h1]; simp only; rw [h2]; exact ⟨_, rfl⟩

theorem stepbackReflect_small (O : Oracles F) (P : Prob F n) (cur : Step F n) : ∃ l, stepbackReflect O P cur = .ok l := by
  unfold stepbackReflect
  obtain ⟨st, h1⟩ := stepReflected_small O P cur
  obtain ⟨l, h2⟩ := reflectLoop_small O P (n - 1) st
  rw [h1]; simp only; rw [h2]; exact ⟨_, rfl⟩

theorem truncateLoop_small (O : Oracles F) (P : Prob F n) (k : ℕ) (cur : Step F n) (hc : cur.subspace.length ≤ 1) (e : PyErr)
    (h : truncateLoop O P k cur = .error e) : e = .diverges := by
  induction k generalizing cur with
  | zero =>
    unfold truncateLoop at h
    split at h <;> cases h
    rfl
  | succ k ih =>
    unfold truncateLoop at h
    split at h
    · cases h
    split at h
    · cases h
    obtain ⟨st, h1⟩ := stepTruncated_small O P cur hc
    rw [h1] at h
    simp only at h
    split at h
    · rename_i e' h2
      cases h
      exact ih st (stepTruncated_cols O P cur st h1 hc) h2
    · cases h

theorem stepbackTruncate_small (O : Oracles F) (P : Prob F n) (k : ℕ) (cur : Step F n) (hc : cur.subspace.length ≤ 1) (e : PyErr)
    (h : stepbackTruncate O P k cur = .error e) : e = .diverges := by
  unfold stepbackTruncate at h
  obtain ⟨st, h1⟩ := stepTruncated_small O P cur hc
  rw [h1] at h
  simp only at h
  split at h
  · rename_i e' h2
    cases h
    exact truncateLoop_small O P k st (stepTruncated_cols O P cur st h1 hc) _ h2
  · cases h

theorem steihaugLoop_error (P : Prob F n) (eps : F) (k : ℕ) (z r d : Vec F n) (e : PyErr) (h : steihaugLoop P eps k z r d = .error e) : e = .diverges := by
  induction k generalizing z r d with
  | zero => unfold steihaugLoop at h; cases h; rfl
  | succ k ih =>
    unfold steihaugLoop at h
    simp only at h
    split at h
    · cases h
    split at h
    · cases h
    · exact ih _ _ _ h

/-- **C66.** The truncated-CG solver calls no external routine: with any step-back strategy, the proposal is the same whatever the routines
(eigenvalue decomposition, root finding, least squares, `scipy.optimize.minimize`) return or raise.  This holds for every kind of floating point
numbers. -/
theorem C66_independent (O O' : Oracles F) (fuel : ℕ) (strat : StepBackStrategy) (I : TRIn F n) :
    trustRegion O fuel .steihaug strat I = trustRegion O' fuel .steihaug strat I := steihaug_oracle O O' fuel strat I

end

variable {n : ℕ} {x d : Fin n → ℝ} {delta theta : ℝ}

/-- the early return of the CG loop, which leaves the step unset, is never taken -/
theorem steihaug_no_early (v : Vec Num n) :
    lt (norm v) (pyMin (lit (1 / 2)) (FloatOps.sqrt (norm v)) * norm v) = false := by
  have hcase : (∃ r : ℝ, 0 ≤ r ∧ norm v = fin r) ∨ norm v = pinf ∨ norm v = nan := by
    unfold norm
    cases dot v v with
    | fin a =>
      rw [fin_sqrt_def]
      split
      · exact Or.inr (Or.inr rfl)
      · exact Or.inl ⟨_, Real.sqrt_nonneg a, rfl⟩
    | pinf => exact Or.inr (Or.inl rfl)
    | ninf => exact Or.inr (Or.inr rfl)
    | nan => exact Or.inr (Or.inr rfl)
  rcases hcase with ⟨r, hr, h⟩ | h | h
  · rw [h, fin_sqrt _ hr]
    simp only [pyMin, lit_def, fin_lt, decide_eq_true_eq]
    split
    · rename_i h1
      rw [fin_mul, fin_lt, decide_eq_false_iff_not, not_lt]
      norm_num at h1
      nlinarith
    · rw [fin_mul, fin_lt, decide_eq_false_iff_not, not_lt]
      norm_num
      linarith
  · rw [h]; cases hb : (pyMin (lit (1 / 2)) (FloatOps.sqrt pinf) * pinf : Num) <;> rfl
  · rw [h]; cases hb : (pyMin (lit (1 / 2)) (FloatOps.sqrt nan) * nan : Num) <;> rfl

/-- **C66.** The truncated-CG solver raises no exception: the only way it fails to return a proposal is that a loop does not end.  This holds for all
inputs, infinite values and NaN included. -/
theorem C66_never_raises (O : Oracles Num) (fuel : ℕ) (strat : StepBackStrategy) (I : TRIn Num n) (e : PyErr)
    (h : trustRegion O fuel .steihaug strat I = .error e) : e = .diverges := by
  unfold trustRegion at h
  split at h
  swap; · cases h
  rename_i e' he
  cases h
  unfold candidates at he
  split at he
  · rename_i e hb
    cases he
    simp only [trStep] at hb
    unfold stepSteihaug at hb
    simp only [steihaug_no_early] at hb
    split at hb
    · rename_i hx; cases hx
    split at hb
    · rename_i e h2; cases hb; exact steihaugLoop_error _ _ _ _ _ _ _ h2
    · cases hb
  rename_i tr htr
  have hc := stepSteihaug_cols fuel I.prob tr htr
  split at he
  swap; · cases he
  obtain ⟨gs, hg⟩ := stepGradient_small O I.prob
  rw [hg] at he
  simp only at he
  split at he
  swap; · cases he
  rename_i e' hb
  cases he
  cases strat with
  | singleReflect =>
    obtain ⟨st, h1⟩ := stepReflected_small O I.prob tr
    simp only [stepbackCandidates, h1] at hb
    cases hb
  | reflect =>
    obtain ⟨st, h1⟩ := stepbackReflect_small O I.prob tr
    simp only [stepbackCandidates, h1] at hb
    cases hb
  | truncate => exact stepbackTruncate_small O _ _ tr hc.le _ hb
  | mixed =>
    obtain ⟨st, h1⟩ := stepbackReflect_small O I.prob tr
    simp only [stepbackCandidates, h1] at hb
    split at hb
    · rename_i e h2; cases hb; exact stepbackTruncate_small O _ _ tr hc.le _ h2
    · cases hb
  | refine =>
    simp only [stepbackCandidates, hc, lt_irrefl, if_false] at hb
    cases hb
  | other => simp only [stepbackCandidates] at hb; cases hb

/-- **C66.** In exact arithmetic, with finite data and a symmetric Hessian, at a point of the box: the truncated-CG solver returns a proposal, with every
step-back strategy, whatever the external routines do; `n` passes are enough for each of its loops. -/
theorem C66_total {I : TRIn Num n} {g dv : Fin n → ℝ} {H : Fin n → Fin n → ℝ} (hI : RealData I x d g dv H delta theta) (h0 : 0 < theta)
    (h1 : theta ≤ 1) (hbox : InBox I.lb I.ub x) (hn : 0 < n) (O : Oracles Num) (strat : StepBackStrategy) :
    ∃ st, trustRegion O n .steihaug strat I = .ok st := by
  cases h : trustRegion O n .steihaug strat I with
  | ok st => exact ⟨st, rfl⟩
  | error e =>
    exfalso
    rw [C66_never_raises O n strat I e h, C66_independent O tameOracles] at h
    exact C27_total hI h0 h1 hbox hn tameOracles tame_finite tame_terminating .steihaug strat h

/-- `C66_total` applies to the demonstration problem: its proposal exists for every behaviour of the external routines -/
example (O : Oracles Num) : ∃ st, trustRegion O 2 .steihaug .mixed tdIn = .ok st :=
  C66_total td_data (by norm_num) (by norm_num) td_box (by norm_num) O .mixed

end Fides
