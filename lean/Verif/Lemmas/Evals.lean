import Verif.Lemmas.Pass

/-! Helper lemmas: every argument passed to the objective is the nudged start or the trial point of some pass. -/

namespace Fides
open Spec
variable {F : Type} [FloatOps F] {n : ℕ}

/-- `a` is the trial point computed from some loop head of the run -/
def TrialArg (E : Env F n) (x0 : Vec F n) (startId : String) (hess0 : Hess0 F) (st0 : St F n) (a : Vec F n) : Prop :=
  ∃ k prev cur step, LoopHead E x0 startId hess0 st0 k prev cur ∧
    E.tr prev.proposals (trInput E { prev with iteration := prev.iteration + 1, deltaIter := prev.delta,
                                               ticks := prev.ticks + 1 }) = .ok step ∧
    a = vadd (vadd prev.x step.s) step.s0

variable (E : Env F n) (x0 : Vec F n) (startId : String) (hess0 : Hess0 F) (st0 : St F n)

theorem loopHead_evals (k : ℕ) (st : St F n) (cur : Funout F n) (h : LoopHead E x0 startId hess0 st0 k st cur) :
    inBounds E.lb E.ub (nudge E.lb E.ub x0) = true ∧ ∃ l r, st.evals = l ++ r :: st0.evals ∧
      r.arg = nudge E.lb E.ub x0 ∧ ∀ q ∈ l, TrialArg E x0 startId hess0 st0 q.arg := by
  induction k generalizing st cur with
  | zero =>
    cases h with
    | start st1 _ _ hb hs =>
      obtain ⟨rfl, hin⟩ := checkInBounds_ok _ _ _ _ hb
      refine ⟨hin, ?_⟩
      obtain ⟨raw, happ, _, _, _, _, _, _, _, rfl⟩ := setup_ok E hess0 _ st cur hs
      obtain ⟨x, i, f, g, hf⟩ := setupState_frame (startState E x0 startId st0) cur happ
      refine ⟨[], { arg := nudge E.lb E.ub x0, out := .ok cur }, ?_, rfl, by simp⟩
      rw [hf]; rfl
  | succ k ih =>
    obtain ⟨prev, cur0, step, new, hhp, hpass⟩ := loopHead_pass E x0 startId hess0 st0 k st cur h
    obtain ⟨hin, l, r, h1, h2, h3⟩ := ih prev cur0 hhp
    refine ⟨hin, { arg := vadd (vadd prev.x step.s) step.s0, out := .ok new } :: l, r, ?_, h2, ?_⟩
    · rw [hpass.evaluated, h1]; rfl
    · intro q hq
      rcases List.mem_cons.mp hq with rfl | hq
      · exact ⟨k, prev, cur0, step, hhp, hpass.proposal, rfl⟩
      · exact h3 q hq

/-- all calls of the objective in a run, however it ends -/
theorem final_evals (fuel : ℕ) :
    ((finalState (minimize E fuel x0 startId hess0 st0)).evals = st0.evals ∧
      (n = 0 ∨ (∃ st', minimize E fuel x0 startId hess0 st0 = .error (.runtimeError, st') ∧
        st'.exitflag = .exceededBoundary) ∧ inBounds E.lb E.ub (nudge E.lb E.ub x0) = false)) ∨
    (inBounds E.lb E.ub (nudge E.lb E.ub x0) = true ∧
      ∃ l r, (finalState (minimize E fuel x0 startId hess0 st0)).evals = l ++ r :: st0.evals ∧
        r.arg = nudge E.lb E.ub x0 ∧ ∀ q ∈ l, TrialArg E x0 startId hess0 st0 q.arg) := by
  cases h : minimize E fuel x0 startId hess0 st0 with
  | ok st' =>
    right
    obtain ⟨_, k, st1, cur, st2, hk, hh, hc, hw⟩ := minimize_ok E x0 startId hess0 st0 fuel st' h
    obtain ⟨f, rfl⟩ := writeHistory_ok E st2 st' hw
    obtain ⟨hin, l, r, h1, h2, h3⟩ := loopHead_evals E x0 startId hess0 st0 k st1 cur hh
    have he : st2.evals = st1.evals := by
      rcases checkContinue_false E st1 st2 hc with ⟨_, rfl⟩ | ⟨_, _, rfl⟩ | ⟨_, _, _, rfl⟩ | ⟨_, _, _, rfl⟩ <;> rfl
    exact ⟨hin, l, r, he.trans h1, h2, h3⟩
  | error p =>
    obtain ⟨e, st'⟩ := p
    rcases minimize_error E x0 startId hess0 st0 fuel st' e h with ⟨hn, h, _⟩ | h | ⟨st1, hb, h⟩ |
      ⟨k, st1, cur1, st2, hh, hc, h⟩ | ⟨k, st1, cur, st2, hh, hc, h⟩
    · exact Or.inl ⟨h, Or.inl hn⟩
    · obtain ⟨hb, rfl, rfl⟩ := checkInBounds_error _ _ _ _ _ h
      exact Or.inl ⟨rfl, Or.inr ⟨⟨_, rfl, rfl⟩, hb⟩⟩
    · right
      obtain ⟨rfl, hin⟩ := checkInBounds_ok _ _ _ _ hb
      refine ⟨hin, [], ?_⟩
      rcases setup_error E hess0 _ st' e h with ⟨rfl, _⟩ | ⟨raw, happ, fo, _, _, _, _, rfl⟩
      · exact ⟨{ arg := nudge E.lb E.ub x0, out := .error e }, rfl, rfl, by simp⟩
      · obtain ⟨x, i, f, g, hs⟩ := setupState_frame (startState E x0 startId st0) fo happ
        exact ⟨{ arg := nudge E.lb E.ub x0, out := .ok fo }, by rw [hs]; rfl, rfl, by simp⟩
    · right
      obtain ⟨hin, l, r, h1, h2, h3⟩ := loopHead_evals E x0 startId hess0 st0 k st1 cur1 hh
      refine ⟨hin, ?_⟩
      obtain ⟨rfl, -⟩ := checkContinue_true E st1 st2 hc
      have hsame : ∀ s : St F n, s.evals = st1.evals → ∃ l r, s.evals = l ++ r :: st0.evals ∧
          r.arg = nudge E.lb E.ub x0 ∧ ∀ q ∈ l, TrialArg E x0 startId hess0 st0 q.arg := by
        intro s hs; exact ⟨l, r, hs.trans h1, h2, h3⟩
      have hone : ∀ (s : St F n) step q,
          E.tr st1.proposals (trInput E (preIter { st1 with ticks := st1.ticks + 1 })) = .ok step →
          q.arg = trialPoint { st1 with ticks := st1.ticks + 1 } step → s.evals = q :: st1.evals →
          ∃ l r, s.evals = l ++ r :: st0.evals ∧
          r.arg = nudge E.lb E.ub x0 ∧ ∀ q ∈ l, TrialArg E x0 startId hess0 st0 q.arg := by
        intro s step q htr hq hs
        refine ⟨q :: l, r, by rw [hs, h1]; rfl, h2, ?_⟩
        intro q' hq'
        rcases List.mem_cons.mp hq' with rfl | hq'
        · exact ⟨k, st1, cur1, step, hh, htr, hq⟩
        · exact h3 q' hq'
      rcases h with ⟨_, rfl, _⟩ | h
      · exact hsame _ rfl
      · have hpost : ∀ step new, (postCheck E { st1 with ticks := st1.ticks + 1 } step new).evals =
            { arg := trialPoint { st1 with ticks := st1.ticks + 1 } step, out := .ok new } :: st1.evals := by
          intro step new
          obtain ⟨r, d, i, m, ef, c, mx, mxi, mf, mg, hpf⟩ := postCheck_frame E { st1 with ticks := st1.ticks + 1 } step new
          rw [hpf]; rfl
        rcases iterate_error E _ st' cur1 e h with ⟨_, _, rfl⟩ | ⟨_, ⟨_, rfl⟩ | ⟨step, htr, ⟨_, rfl⟩ | ⟨new, _, _, _, ⟨_, _, _, rfl⟩ |
            ⟨_, ⟨_, h⟩ | ⟨_, h, _⟩ | ⟨_, rfl, _⟩⟩⟩⟩⟩
        · exact hsame _ rfl
        · exact hsame _ rfl
        · exact hone _ step { arg := trialPoint { st1 with ticks := st1.ticks + 1 } step, out := .error e } htr rfl rfl
        · exact hone _ step { arg := trialPoint { st1 with ticks := st1.ticks + 1 } step, out := .ok new } htr rfl rfl
        · rcases update_error E step new cur1 _ st' e h with ⟨rfl, _⟩ | ⟨_, _, happ, hess, rfl⟩
          · exact hone _ step _ htr rfl (hpost step new)
          · exact hone _ step _ htr rfl (hpost step new)
        · obtain ⟨_, happ, hess, _, rfl⟩ := update_ok E step new cur1 _ st' h
          exact hone _ step _ htr rfl (hpost step new)
        · exact hone _ step _ htr rfl (hpost step new)
    · right
      obtain ⟨hin, l, r, h1, h2, h3⟩ := loopHead_evals E x0 startId hess0 st0 k st1 cur hh
      have h2' : st2.evals = st1.evals := by
        rcases checkContinue_false E st1 st2 hc with ⟨_, rfl⟩ | ⟨_, _, rfl⟩ | ⟨_, _, _, rfl⟩ | ⟨_, _, _, rfl⟩ <;> rfl
      have h3' : st' = st2 := by
        unfold writeHistory at h
        split at h
        · split at h
          · cases h; rfl
          · cases h
        · cases h
      exact ⟨hin, l, r, by show st'.evals = _; rw [h3', h2', h1], h2, h3⟩

end Fides
