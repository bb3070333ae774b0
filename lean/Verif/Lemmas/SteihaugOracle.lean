import Verif.Lemmas.Candidates

/-! Helper lemmas: with the Steihaug solver every subspace has at most one column, so no external routine is called. -/

namespace Fides
variable {F : Type} [FloatOps F] {n : ℕ}

/-- external routines that all raise -/
def noOracles (F : Type) : Oracles F where
  sub := { eig := fun _ => .error .runtimeError, newton := fun _ _ _ => .error .runtimeError, brentq := fun _ _ _ _ => .error .runtimeError }
  lstsq := fun _ _ => .error .runtimeError
  npEig := fun _ => .error .runtimeError
  refine := fun _ _ => .error .runtimeError

theorem computeStep_oracle (O O' : SubOracles F) (P : Prob F n) (st : Step F n) (h : st.subspace.length ≤ 1) :
    st.computeStep O P = st.computeStep O' P := by
  unfold Step.computeStep
  split
  · rfl
  · rfl
  · rename_i h1 h2
    exfalso
    rcases hs : st.subspace with _ | ⟨c, _ | ⟨c', l⟩⟩
    · exact h1 hs
    · exact h2 c hs
    · rw [hs] at h; simp at h

theorem calculate_oracle (O O' : SubOracles F) (P : Prob F n) (st : Step F n) (h : st.subspace.length ≤ 1) :
    st.calculate O P = st.calculate O' P := by
  unfold Step.calculate
  rw [computeStep_oracle O O' P st h]

theorem stepReflected_oracle (O O' : Oracles F) (P : Prob F n) (st : Step F n) : stepReflected O P st = stepReflected O' P st :=
  calculate_oracle _ _ _ _ (by simp [reflectInit, Step.init])

theorem stepGradient_oracle (O O' : Oracles F) (P : Prob F n) : stepGradient O P = stepGradient O' P :=
  calculate_oracle _ _ _ _ (by simp [Step.init])

theorem reduceSubspace_length (im : Fin n → Bool) (cols : List (Vec F n)) : (reduceSubspace im cols).length ≤ cols.length := by
  unfold reduceSubspace
  simp only [List.length_map]
  refine (List.length_filter_le _ _).trans ?_
  simp

theorem stepTruncated_oracle (O O' : Oracles F) (P : Prob F n) (st : Step F n) (h : st.subspace.length ≤ 1) :
    stepTruncated O P st = stepTruncated O' P st :=
  calculate_oracle _ _ _ _ ((reduceSubspace_length _ _).trans h)

theorem calculate_subspace_eq (O : SubOracles F) (P : Prob F n) (st st' : Step F n) (h : st.calculate O P = .ok st') : st'.subspace = st.subspace := by
  unfold Step.calculate at h
  split at h
  · cases h
  · rename_i st1 hc
    cases h
    show st1.subspace = _
    unfold Step.computeStep at hc
    split at hc
    · cases hc; rfl
    · cases hc; rfl
    · simp only at hc
      split at hc
      · cases hc
      · cases hc; rfl

theorem stepTruncated_cols (O : Oracles F) (P : Prob F n) (st st' : Step F n) (h : stepTruncated O P st = .ok st') (hc : st.subspace.length ≤ 1) :
    st'.subspace.length ≤ 1 := by
  rw [calculate_subspace_eq _ _ _ _ h]
  exact (reduceSubspace_length _ _).trans hc

theorem reflectLoop_oracle (O O' : Oracles F) (P : Prob F n) (k : ℕ) (cur : Step F n) : reflectLoop O P k cur = reflectLoop O' P k cur := by
  induction k generalizing cur with
  | zero => rfl
  | succ k ih => simp only [reflectLoop, stepReflected_oracle O O', ih]

theorem stepbackReflect_oracle (O O' : Oracles F) (P : Prob F n) (cur : Step F n) : stepbackReflect O P cur = stepbackReflect O' P cur := by
  simp only [stepbackReflect, stepReflected_oracle O O', reflectLoop_oracle O O']

theorem truncateLoop_oracle (O O' : Oracles F) (P : Prob F n) (k : ℕ) (cur : Step F n) (hc : cur.subspace.length ≤ 1) :
    truncateLoop O P k cur = truncateLoop O' P k cur := by
  induction k generalizing cur with
  | zero => rfl
  | succ k ih =>
    simp only [truncateLoop, stepTruncated_oracle O O' P cur hc]
    split
    · rfl
    split
    · rfl
    split
    · rfl
    · rename_i st hst
      rw [ih st (stepTruncated_cols O' P cur st hst hc)]

theorem stepbackTruncate_oracle (O O' : Oracles F) (P : Prob F n) (k : ℕ) (cur : Step F n) (hc : cur.subspace.length ≤ 1) :
    stepbackTruncate O P k cur = stepbackTruncate O' P k cur := by
  simp only [stepbackTruncate, stepTruncated_oracle O O' P cur hc]
  split
  · rfl
  · rename_i st hst
    rw [truncateLoop_oracle O O' P k st (stepTruncated_cols O' P cur st hst hc)]

theorem steihaugLoop_cols (P : Prob F n) (eps : F) (k : ℕ) (z r d : Vec F n) (o : CGOut F n) (h : steihaugLoop P eps k z r d = .ok o) :
    o.subspace.length = 1 := by
  induction k generalizing z r d with
  | zero => cases h
  | succ k ih =>
    rw [steihaugLoop] at h
    simp only at h
    split at h
    · cases h; rfl
    split at h
    · cases h; rfl
    · exact ih _ _ _ h

theorem stepSteihaug_cols (fuel : ℕ) (P : Prob F n) (st : Step F n) (h : stepSteihaug fuel P = .ok st) : st.subspace.length = 1 := by
  simp only [stepSteihaug] at h
  split at h
  · cases h
  · split at h
    · cases h
    · rename_i o ho
      cases h
      exact steihaugLoop_cols P _ _ _ _ _ o ho

/-- the proposal of the Steihaug solver does not depend on the external routines -/
theorem steihaug_oracle (O O' : Oracles F) (fuel : ℕ) (strat : StepBackStrategy) (I : TRIn F n) :
    trustRegion O fuel .steihaug strat I = trustRegion O' fuel .steihaug strat I := by
  suffices h : candidates O fuel I.prob .steihaug strat = candidates O' fuel I.prob .steihaug strat by
    simp only [trustRegion, h]
  simp only [candidates, trStep]
  split
  · rfl
  · rename_i tr htr
    have hc := stepSteihaug_cols fuel I.prob tr htr
    split
    · rw [stepGradient_oracle O O']
      split
      · rfl
      · have : stepbackCandidates O fuel I.prob strat tr = stepbackCandidates O' fuel I.prob strat tr := by
          cases strat with
          | singleReflect => simp only [stepbackCandidates, stepReflected_oracle O O']
          | reflect => exact stepbackReflect_oracle O O' _ _
          | truncate => exact stepbackTruncate_oracle O O' _ _ _ hc.le
          | mixed => simp only [stepbackCandidates, stepbackReflect_oracle O O', stepbackTruncate_oracle O O' _ _ _ hc.le]
          | refine => simp only [stepbackCandidates, hc, lt_irrefl, if_false]
          | other => rfl
        rw [this]
    · rfl

end Fides
