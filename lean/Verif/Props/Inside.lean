import Verif.Lemmas.Affine
import Verif.Props.Start
import Verif.Props.Flags

/-!
# The objective is never evaluated outside the bounds

Exact arithmetic with IEEE special values.  The eigenvalue, least-squares, root-finding and refinement routines
are arbitrary functions: they may return wrong, infinite or NaN results, or raise.
-/

set_option linter.unusedSectionVars false

namespace Fides
open Spec Num
variable {n : ℕ}

section
variable (E : Env Num n) (x0 : Vec Num n) (startId : String) (hess0 : Hess0 Num) (st0 : St Num n)

/-- the problem handed to the step computation at a loop head -/
theorem trInput_real (tm : ℝ) (htm : E.opts.thetaMax = fin tm) (h0 : 0 < tm) (h1 : tm ≤ 1)
    (k : ℕ) (prev : St Num n) (cur : Funout Num n) (h : LoopHead E x0 startId hess0 st0 k prev cur) (ps : St Num n)
    (hpx : ps.x = prev.x) (hpg : ps.grad = prev.grad) :
    ∃ (x d : Fin n → ℝ) (th : ℝ), ps.x = ofV x ∧ InBox E.lb E.ub x ∧
      (trInput E ps).prob.scaling = ofV d ∧ (trInput E ps).prob.theta = fin th ∧ 0 < th ∧ th ≤ 1 := by
  obtain ⟨x, hx, hbox⟩ := C01_current E x0 startId hess0 st0 k prev cur h
  have hfin := (C15_finite E x0 startId hess0 st0 k prev cur h).2.2
  obtain ⟨g, hg⟩ := (vfinite_iff prev.grad).mp (by simpa [vfinite] using hfin)
  obtain ⟨v, hv, _⟩ := affineV_real E.lb E.ub x g hbox
  obtain ⟨t, ht, ht1, ht2⟩ := thetaOf_range tm h0 h1 v g
  refine ⟨x, fun i => Real.sqrt |v i|, t, hpx.trans hx, hbox, ?_, ?_, lt_of_lt_of_le h0 ht1, ht2⟩
  · show (fun i => FloatOps.sqrt (FloatOps.abs (affineV E.lb E.ub ps.x ps.grad i))) = _
    rw [hpx, hpg, hx, hg, hv, scaling_real]
  · show thetaOf E.opts.thetaMax (affineV E.lb E.ub ps.x ps.grad) ps.grad = _
    rw [hpx, hpg, hx, hg, hv, htm, ht]

/-- C04: whatever the objective, the clock and the external routines do, every argument passed to the objective during a run
has each coordinate NaN or within its bounds (`theta_max` in (0, 1]; all solvers, all step-back strategies). -/
theorem C04_inside (hU : UsesTrustRegion E) (tm : ℝ) (htm : E.opts.thetaMax = fin tm) (h0 : 0 < tm) (h1 : tm ≤ 1) (fuel : ℕ) :
    ∃ l, (finalState (minimize E fuel x0 startId hess0 st0)).evals = l ++ st0.evals ∧
      ∀ q ∈ l, NanOrInBox E.lb E.ub q.arg := by
  rcases final_evals E x0 startId hess0 st0 fuel with ⟨h, _⟩ | ⟨hin, l, r, h2, h3, h4⟩
  · exact ⟨[], h, by simp⟩
  · refine ⟨l ++ [r], by simp [h2], ?_⟩
    intro q hq
    rcases List.mem_append.mp hq with hq | hq
    · obtain ⟨k, prev, cur, step, hh, htr, harg⟩ := h4 q hq
      obtain ⟨O, fuel', hO⟩ := hU
      rw [hO] at htr
      obtain ⟨x, d, th, hx, hbox, hd, hth, ht0, ht1⟩ := trInput_real E x0 startId hess0 st0 tm htm h0 h1 k prev cur hh
        { prev with iteration := prev.iteration + 1, deltaIter := prev.delta, ticks := prev.ticks + 1 } rfl rfl
      have hc := trustRegion_cand _ _ _ _ _ _ htr
      have hf := cand_feas (P := (trInput E { prev with iteration := prev.iteration + 1, deltaIter := prev.delta, ticks := prev.ticks + 1 }).prob)
        hx hth ht0 ht1 hbox _ _ _ step hc
      rw [harg]
      exact fun i => hf.trial i
    · simp only [List.mem_singleton] at hq
      subst hq
      obtain ⟨x, hx, hbox⟩ := inBounds_real_of _ _ _ hin
      intro i
      rw [h3, hx]
      exact Or.inr ⟨x i, rfl, hbox i⟩

/-- the hypotheses are met by the default options and the real step computation -/
example : UsesTrustRegion (demoEnv (1 / 100000000) (fin 0) (fin 0)) ∧
    (demoEnv (1 / 100000000) (fin 0) (fin 0)).opts.thetaMax = fin (19 / 20) := by
  refine ⟨⟨fun _ => zeroOracles, 10, fun k I => ?_⟩, ?_⟩
  · rw [demo_default, demo_opts]; rfl
  · rw [demo_default, demo_opts]

/-- an accepted step has a finite negative predicted value -/
theorem accepted_qpval (st : St Num n) (step : Step Num n) (new : Funout Num n) (h : (radiusStep E st step new).1 = true) :
    ∃ q, q < 0 ∧ step.qpval = fin q := by
  have key : ∀ r fv (dv : Vec Num n), r = ratioOf fv new step dv → lt (Fides.lit 0) r = true → ∃ q, q < 0 ∧ step.qpval = fin q := by
    intro r fv dv hr hlt
    unfold ratioOf at hr
    split at hr
    · rw [hr] at hlt; simp at hlt
    · rename_i hp
      generalize (fv - new.fval - Fides.lit (1 / 2) * dot (vadd step.ss step.ss0)
        (fun i => dv i * FloatOps.abs (new.grad i) * vadd step.ss step.ss0 i) : Num) = A at hr
      cases hq : step.qpval with
      | nan => rw [hq] at hr; simp at hr; rw [hr] at hlt; simp at hlt
      | pinf => rw [hq] at hp; simp at hp
      | ninf =>
        rw [hq] at hr
        rw [hr] at hlt
        cases A <;> simp at hlt
      | fin q =>
        rw [hq] at hp
        exact ⟨q, by simpa using hp, rfl⟩
  rcases updateTrRadius_cases E new step (trInput E (preIter st)).dv (afterEval st step (.ok new)) with
    ⟨_, h'⟩ | ⟨hf, r, hr, ⟨_, _, h'⟩ | ⟨_, _, h'⟩ | ⟨_, _, m, h'⟩⟩
  all_goals
    unfold radiusStep at h
    rw [h'] at h
    simp only at h
  · cases h
  · exact key r _ _ hr h
  · exact key r _ _ hr h
  · exact key r _ _ hr h

/-- the exit flag at a loop head -/
theorem loopHead_exitflag (k : ℕ) (st : St Num n) (cur : Funout Num n) (h : LoopHead E x0 startId hess0 st0 k st cur) :
    st.exitflag = st0.exitflag ∨ st.exitflag = .ftol ∨ st.exitflag = .xtol ∨ st.exitflag = .gtol := by
  induction k generalizing st cur with
  | zero =>
    cases h with
    | start st1 _ _ hb hs =>
      obtain ⟨rfl, hin⟩ := checkInBounds_ok _ _ _ _ hb
      obtain ⟨raw, happ, _, _, _, _, _, _, _, rfl⟩ := setup_ok E hess0 _ st cur hs
      obtain ⟨x, i, f, g, hf⟩ := setupState_frame (startState E x0 startId st0) cur happ
      left
      rw [hf]; rfl
  | succ k ih =>
    obtain ⟨prev, cur0, step, new, hhp, hpass⟩ := loopHead_pass E x0 startId hess0 st0 k st cur h
    have hp := pass_facts E _ _ _ _ _ _ hpass
    have hfr := radius_frame E prev step new
    have hcc := checkConvergence_cases E step new (radiusStep E prev step new).2
    have hef := hp.exitflag
    rcases hcc with ⟨h1, h2, h3⟩ | ⟨h1, h2, h3⟩ | ⟨h1, h3⟩ | h3
    all_goals rw [h3] at hef
    · exact Or.inr (Or.inl hef)
    · exact Or.inr (Or.inr (Or.inl hef))
    · exact Or.inr (Or.inr (Or.inr hef))
    · rw [hef]
      show (radiusStep E prev step new).2.exitflag = _ ∨ (radiusStep E prev step new).2.exitflag = _ ∨ (radiusStep E prev step new).2.exitflag = _ ∨ (radiusStep E prev step new).2.exitflag = _
      rw [hfr.2.2]
      exact ih prev cur0 hhp

/-- C04: EXCEEDED_BOUNDARY only ever reports a starting point that was refused before the first call of the objective:
an accepted trial point always passes the bounds check. -/
theorem C04_exceeded (hU : UsesTrustRegion E) (tm : ℝ) (htm : E.opts.thetaMax = fin tm) (h0 : 0 < tm) (h1 : tm ≤ 1) (fuel : ℕ)
    (hfresh : st0.exitflag ≠ .exceededBoundary)
    (hex : (finalState (minimize E fuel x0 startId hess0 st0)).exitflag = .exceededBoundary) :
    (finalState (minimize E fuel x0 startId hess0 st0)).evals = st0.evals ∧
      ∃ st', minimize E fuel x0 startId hess0 st0 = .error (.runtimeError, st') := by
  cases h : minimize E fuel x0 startId hess0 st0 with
  | ok st' =>
    rw [h] at hex
    have := C10_flag E x0 startId hess0 st0 fuel st' h
    have hex' : st'.exitflag = .exceededBoundary := hex
    rw [hex'] at this
    exact this.elim
  | error p =>
    obtain ⟨e, st'⟩ := p
    rw [h] at hex
    have hex' : st'.exitflag = .exceededBoundary := hex
    have hno : ∀ k st cur, LoopHead E x0 startId hess0 st0 k st cur → st.exitflag ≠ .exceededBoundary := by
      intro k st cur hh hc
      rcases loopHead_exitflag E x0 startId hess0 st0 k st cur hh with h | h | h | h <;> rw [h] at hc
      · exact hfresh hc
      all_goals cases hc
    rcases minimize_error E x0 startId hess0 st0 fuel st' e h with ⟨hn, he, _⟩ | h | ⟨st1, hb, h⟩ |
      ⟨k, st1, cur1, st2, hh, hc, h⟩ | ⟨k, st1, cur, st2, hh, hc, h⟩
    · exfalso
      subst hn
      have : st'.exitflag = st0.exitflag := by
        unfold minimize at h
        simp only [if_true] at h
        cases h; rfl
      rw [this] at hex'
      exact hfresh hex'
    · obtain ⟨hb, rfl, rfl⟩ := checkInBounds_error _ _ _ _ _ h
      exact ⟨rfl, _, rfl⟩
    · exfalso
      obtain ⟨rfl, hin⟩ := checkInBounds_ok _ _ _ _ hb
      rcases setup_error E hess0 _ st' e h with ⟨rfl, _⟩ | ⟨raw, happ, fo, _, _, _, _, rfl⟩
      · exact hfresh hex'
      · cases hex'
    · exfalso
      have hst1 := hno k st1 cur1 hh
      obtain ⟨rfl, -⟩ := checkContinue_true E st1 st2 hc
      rcases h with ⟨_, rfl, _⟩ | h
      · exact hst1 hex'
      · have hpost : ∀ step new, (postCheck E { st1 with ticks := st1.ticks + 1 } step new).exitflag ≠ .exceededBoundary := by
          intro step new hcon
          have hpe : (postCheck E { st1 with ticks := st1.ticks + 1 } step new).exitflag =
              (checkConvergence E step new (radiusStep E { st1 with ticks := st1.ticks + 1 } step new).2).exitflag := by
            unfold postCheck
            obtain ⟨a, b, c, d, hf⟩ := trackMinimum_frame new (checkConvergence E step new (radiusStep E { st1 with ticks := st1.ticks + 1 } step new).2)
            rw [hf]
          rw [hpe] at hcon
          rcases checkConvergence_cases E step new (radiusStep E { st1 with ticks := st1.ticks + 1 } step new).2 with
            ⟨_, _, h3⟩ | ⟨_, _, h3⟩ | ⟨_, h3⟩ | h3
          all_goals rw [h3] at hcon
          · cases hcon
          · cases hcon
          · cases hcon
          · have : (radiusStep E { st1 with ticks := st1.ticks + 1 } step new).2.exitflag = .exceededBoundary := hcon
            rw [(radius_frame E _ step new).2.2] at this
            exact hst1 this
        rcases iterate_error E _ st' cur1 e h with ⟨_, _, rfl⟩ | ⟨_, ⟨_, rfl⟩ | ⟨step, htr, ⟨_, rfl⟩ | ⟨new, _, hnx, _, ⟨_, _, _, rfl⟩ |
            ⟨_, ⟨hacc, h⟩ | ⟨_, h, _⟩ | ⟨_, rfl, _⟩⟩⟩⟩⟩
        · cases hex'
        · exact hst1 hex'
        · exact hst1 hex'
        · cases hex'
        · rcases update_error E step new cur1 _ st' e h with ⟨rfl, _⟩ | ⟨hb, _, happ, hess, rfl⟩
          · exact hpost _ _ hex'
          · obtain ⟨q, _, hq⟩ := accepted_qpval E _ step new hacc
            obtain ⟨O, fuel', hO⟩ := hU
            rw [hO] at htr
            obtain ⟨x, d, th, hx, hbox, hd, hth, ht0, ht1⟩ := trInput_real E x0 startId hess0 st0 tm htm h0 h1 k st1 cur1 hh
              (preIter { st1 with ticks := st1.ticks + 1 }) rfl rfl
            have hc := trustRegion_cand _ _ _ _ _ _ htr
            have hf := cand_feas (P := (trInput E (preIter { st1 with ticks := st1.ticks + 1 })).prob) hx hth ht0 ht1 hbox _ _ _ step hc
            obtain ⟨a, b, _, _, ha, hb', _, _⟩ := cand_finite d hd _ _ _ step hc q hq
            have hnew : new.x = ofV (x + a + b) := by
              rw [hnx]
              show vadd (vadd (preIter { st1 with ticks := st1.ticks + 1 }).x step.s) step.s0 = _
              rw [hx, ha, hb']; simp
            have : inBounds E.lb E.ub new.x = true := by
              rw [hnew]
              refine inBounds_real _ _ _ ?_
              intro i
              rcases hf.trial i with ht | ⟨r, hr, ht⟩
              · have h3 : (preIter { st1 with ticks := st1.ticks + 1 }).x i + step.s i + step.s0 i = nan := ht
                rw [hx, ha, hb'] at h3
                simp at h3
              · have h3 : (preIter { st1 with ticks := st1.ticks + 1 }).x i + step.s i + step.s0 i = fin r := hr
                rw [hx, ha, hb'] at h3
                simp at h3
                rw [← h3] at ht
                exact ht
            rw [this] at hb; cases hb
        · obtain ⟨_, happ, hess, _, rfl⟩ := update_ok E step new cur1 _ st' h
          exact hpost _ _ hex'
        · exact hpost _ _ hex'
    · exfalso
      have hst1 := hno k st1 cur hh
      have h3' : st' = st2 := by
        unfold writeHistory at h
        split at h
        · split at h
          · cases h; rfl
          · cases h
        · cases h
      rw [h3'] at hex'
      rcases checkContinue_false E st1 st2 hc with ⟨_, rfl⟩ | ⟨_, _, rfl⟩ | ⟨_, _, _, rfl⟩ | ⟨_, _, _, rfl⟩
      · exact hst1 hex'
      all_goals cases hex'

/-- the conclusion occurs: `x0 = 1` with bounds `[2, 3]` -/
example : ∃ st', minimize ({ demoEnv (1 / 100000000) (fin 0) (fin 0) with lb := fun _ => fin 2, ub := fun _ => fin 3 } : Env Num 1)
    1 (v1 1) "run" .hessStr demoSt0 = .error (.runtimeError, st') ∧ st'.exitflag = .exceededBoundary := by
  obtain ⟨st', h1, h2, _⟩ := C03_refused ({ demoEnv (1 / 100000000) (fin 0) (fin 0) with lb := fun _ => fin 2, ub := fun _ => fin 3 } : Env Num 1)
    (v1 1) "run" .hessStr demoSt0 1 0 (Or.inr ⟨1, rfl, Or.inr (by simp [margin]; norm_num)⟩)
  exact ⟨st', h1, h2⟩

end
end Fides
