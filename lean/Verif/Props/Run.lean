import Verif.Lemmas.Pass
import Verif.Lemmas.Demo

/-!
# Properties of whole runs, for any arithmetic satisfying `LawfulFloat`

`E` is everything outside the optimizer (bounds, options, objective, clock, step proposals); the objective, the clock
and the proposals may depend on the call number and are otherwise arbitrary.  `st0` is the optimizer before the call.
-/

namespace Fides
open Spec
variable {F : Type} [FloatOps F] [LawfulFloat F] {n : ℕ}
variable (E : Env F n) (x0 : Vec F n) (startId : String) (hess0 : Hess0 F) (st0 : St F n)

/-- C01: at every loop head, the evaluation adopted as current was made at a finite feasible point; the current
point is that point, possibly moved by the degeneracy nudge, and the current value and gradient are its. -/
theorem C01_adopted (k : ℕ) (st : St F n) (cur : Funout F n) (h : LoopHead E x0 startId hess0 st0 k st cur) :
    (∀ i, le (E.lb i) (cur.x i) = true ∧ le (cur.x i) (E.ub i) = true ∧ isFinite (cur.x i) = true) ∧
      (st.x = cur.x ∨ st.x = nudge E.lb E.ub cur.x) ∧ st.fval = cur.fval ∧ st.grad = cur.grad := by
  have hi := headInv E x0 startId hess0 st0 k st cur h
  refine ⟨inBounds_spec _ _ _ hi.bounds, ?_, hi.fval, hi.grad⟩
  rcases hi.x with h | h | h
  · exact Or.inl h.2
  · exact Or.inl h
  · exact Or.inr h

/-- the hypothesis is met -/
example : ∃ st cur, LoopHead (demoEnv (1 / 100000000) (Num.fin 0) (Num.fin 0)) (v1 1) "run" .hessStr demoSt0 0 st cur := demo_head _ _ _

/-- how a normal return ends, in terms of loop heads -/
theorem run_end (fuel : ℕ) (st' : St F n) (h : minimize E fuel x0 startId hess0 st0 = .ok st') :
    ∃ k st1 cur st2 f, k ≤ fuel ∧ LoopHead E x0 startId hess0 st0 k st1 cur ∧ checkContinue E st1 = (false, st2) ∧
      st' = { st2 with file := f } := by
  obtain ⟨_, k, st1, cur, st2, hk, hh, hc, hw⟩ := minimize_ok E x0 startId hess0 st0 fuel st' h
  obtain ⟨f, hf⟩ := writeHistory_ok E st2 st' hw
  exact ⟨k, st1, cur, st2, f, hk, hh, hc, hf⟩

/-- at a normal return only exit flag, clock and file differ from the last loop head -/
theorem run_end_fields (fuel : ℕ) (st' : St F n) (h : minimize E fuel x0 startId hess0 st0 = .ok st') :
    ∃ k st1 cur ef t f, k ≤ fuel ∧ LoopHead E x0 startId hess0 st0 k st1 cur ∧
      st' = { st1 with exitflag := ef, ticks := t, file := f } := by
  obtain ⟨k, st1, cur, st2, f, hk, hh, hc, rfl⟩ := run_end E x0 startId hess0 st0 fuel st' h
  rcases checkContinue_false E st1 st2 hc with ⟨_, rfl⟩ | ⟨_, _, rfl⟩ | ⟨_, _, _, rfl⟩ | ⟨_, _, _, rfl⟩
  · exact ⟨k, st2, cur, st2.exitflag, st2.ticks, f, hk, hh, rfl⟩
  · exact ⟨k, st1, cur, _, st1.ticks, f, hk, hh, rfl⟩
  · exact ⟨k, st1, cur, _, _, f, hk, hh, rfl⟩
  · exact ⟨k, st1, cur, _, _, f, hk, hh, rfl⟩

/-- C05: after a normal return `fval_min`/`grad_min` are value and gradient of the first evaluation of this run with
the least finite value; no finite value seen in the run is below `fval_min`, the returned value included. -/
theorem C05_best (fuel : ℕ) (st' : St F n) (h : minimize E fuel x0 startId hess0 st0 = .ok st') :
    ∃ l b, st'.evals = l ++ st0.evals ∧ FirstBest l b ∧ st'.fvalMin = b.fval ∧ st'.gradMin = b.grad ∧
      (∀ r ∈ l, ∀ fo, r.out = .ok fo → isFinite fo.fval = true → le st'.fvalMin fo.fval = true) ∧
      le st'.fvalMin st'.fval = true := by
  obtain ⟨k, st1, cur, ef, t, f, hk, hh, rfl⟩ := run_end_fields E x0 startId hess0 st0 fuel st' h
  have hi := headInv E x0 startId hess0 st0 k st1 cur hh
  obtain ⟨l, fo0, hl, hlen, hfo0, hfofin, hall, hmem, hlt0, b, hmin⟩ := hi.evals
  refine ⟨l ++ [{ arg := nudge E.lb E.ub x0, out := .ok fo0 }], b, by simp [hl], hmin.best, hmin.fval, hmin.grad, ?_, ?_⟩
  · intro r hr fo ho hf
    show le st1.fvalMin _ = true
    rw [hmin.fval]; exact firstBest_le _ _ hmin.best r hr fo ho hf
  · show le st1.fvalMin st1.fval = true
    rw [hmin.fval, hi.fval]
    exact firstBest_le _ _ hmin.best _ hmem cur rfl ((allFinite_iff _ _ _).mp hi.finite).1

/-- the hypothesis is met by a converged run that accepted a step -/
example : ∃ st', minimize (demoEnv (1 / 100000000) (Num.fin 0) (Num.fin 0)) 1 (v1 1) "run" .hessStr demoSt0 = .ok st' := ⟨_, demo_ok.choose_spec.1⟩

/-- C06: `x_min` is the argument of the evaluation that produced `fval_min` and `grad_min`, or (for a feasible argument) that
argument moved by the degeneracy nudge. -/
theorem C06_xmin (fuel : ℕ) (st' : St F n) (h : minimize E fuel x0 startId hess0 st0 = .ok st') :
    ∃ l b, st'.evals = l ++ st0.evals ∧ FirstBest l b ∧ st'.fvalMin = b.fval ∧ st'.gradMin = b.grad ∧
      (st'.xMin = b.x ∨ (inBounds E.lb E.ub b.x = true ∧ st'.xMin = nudge E.lb E.ub b.x)) := by
  obtain ⟨k, st1, cur, ef, t, f, hk, hh, rfl⟩ := run_end_fields E x0 startId hess0 st0 fuel st' h
  have hi := headInv E x0 startId hess0 st0 k st1 cur hh
  obtain ⟨l, fo0, hl, hlen, hfo0, hfofin, hall, hmem, hlt0, b, hmin⟩ := hi.evals
  exact ⟨l ++ [{ arg := nudge E.lb E.ub x0, out := .ok fo0 }], b, by simp [hl], hmin.best, hmin.fval, hmin.grad, hmin.x⟩

/-- the hypothesis is met by a converged run that accepted a step -/
example : ∃ st', minimize (demoEnv (1 / 100000000) (Num.fin 0) (Num.fin 0)) 1 (v1 1) "run" .hessStr demoSt0 = .ok st' := ⟨_, demo_ok.choose_spec.1⟩

/-- C07: in each completed pass either the step is accepted, and then the new current value is finite, is the value at the
trial point and is strictly below the previous one, or it is rejected, and then point, value, gradient, Hessian and
approximation are unchanged. -/
theorem C07_decrease (prev next : St F n) (cur cur' new : Funout F n) (step : Step F n)
    (h : Pass E prev cur step new next cur') :
    (cur' = new ∧ next.fval = new.fval ∧ next.grad = new.grad ∧ isFinite next.fval = true ∧ lt next.fval prev.fval = true) ∨
    (cur' = cur ∧ next.x = prev.x ∧ next.fval = prev.fval ∧ next.grad = prev.grad ∧ next.hess = prev.hess ∧
      next.happ = prev.happ) := by
  have hp := pass_facts E prev cur step new next cur' h
  rcases hp.cases with ⟨hacc, h1, _, _, h2, h3⟩ | ⟨_, h1, h2, h3, h4, h5, h6⟩
  · left
    obtain ⟨hlt, hf, _⟩ := accepted_lt E prev step new hacc hp.finite1
    rw [h2]
    exact ⟨h1, rfl, h3, ((allFinite_iff _ _ _).mp hf).1, hlt⟩
  · exact Or.inr ⟨h1, h2, h3, h4, h5, h6⟩

/-- the hypothesis is met by a pass with an accepted step and by one with a rejected step -/
example : (∃ prev cur step new next cur', Pass (demoEnv (1 / 100000000) (Num.fin 0) (Num.fin 0)) prev cur step new next cur' ∧
      prev.x = v1 1 ∧ next.x = v1 0) ∧
    ∃ prev cur step new next cur', Pass (demoEnv (1 / 100000000) (Num.fin 5) (Num.fin 0)) prev cur step new next cur' ∧
      prev.x = v1 1 ∧ next.x = v1 1 := by
  obtain ⟨p, c, s, w, q, c', h1, -, h3, h4⟩ := demo_pass 0 (by norm_num [abs_of_neg])
  obtain ⟨p', c2, s', w', q', c3, h1', -, h3', h4'⟩ := demo_pass 5 (by norm_num [abs_of_pos])
  norm_num at h4 h4'
  exact ⟨⟨p, c, s, w, q, c', h1, h3, h4⟩, ⟨p', c2, s', w', q', c3, h1', h3', h4'⟩⟩

/-- C07: the returned value is that of the first evaluation, or strictly below it (when a step was accepted). -/
theorem C07_returned (fuel : ℕ) (st' : St F n) (h : minimize E fuel x0 startId hess0 st0 = .ok st') :
    ∃ l first fo, st'.evals = l ++ first :: st0.evals ∧ first.out = .ok fo ∧
      ((st'.fval = fo.fval ∧ st'.grad = fo.grad) ∨ lt st'.fval fo.fval = true) := by
  obtain ⟨k, st1, cur, ef, t, f, hk, hh, rfl⟩ := run_end_fields E x0 startId hess0 st0 fuel st' h
  have hi := headInv E x0 startId hess0 st0 k st1 cur hh
  obtain ⟨l, fo0, hl, hlen, hfo0, hfofin, hall, hmem, hlt0, b, hmin⟩ := hi.evals
  refine ⟨l, _, fo0, hl, rfl, ?_⟩
  rcases hlt0 with rfl | h
  · exact Or.inl ⟨hi.fval, hi.grad⟩
  · right
    show lt st1.fval _ = true
    rw [hi.fval]; exact h

/-- the hypothesis is met by a converged run that accepted a step -/
example : ∃ st', minimize (demoEnv (1 / 100000000) (Num.fin 0) (Num.fin 0)) 1 (v1 1) "run" .hessStr demoSt0 = .ok st' := ⟨_, demo_ok.choose_spec.1⟩

/-- C08: the returned value and gradient were returned by the objective in one single call, at a finite feasible
argument; the returned point is that argument, possibly moved by the degeneracy nudge; without Hessian approximation
the returned Hessian comes from the same call, with one it is the approximation. -/
theorem C08_one_call (fuel : ℕ) (st' : St F n) (h : minimize E fuel x0 startId hess0 st0 = .ok st') :
    ∃ l r fo, st'.evals = l ++ st0.evals ∧ r ∈ l ∧ r.out = .ok fo ∧ fo.x = r.arg ∧
      st'.fval = fo.fval ∧ st'.grad = fo.grad ∧ (st'.x = r.arg ∨ st'.x = nudge E.lb E.ub r.arg) ∧
      (∀ i, le (E.lb i) (r.arg i) = true ∧ le (r.arg i) (E.ub i) = true ∧ isFinite (r.arg i) = true) ∧
      (st0.happ = none → fo.hess = some st'.hess) ∧ (∀ g, st'.happ = some g → st'.hess = g.getMat) := by
  obtain ⟨k, st1, cur, ef, t, f, hk, hh, rfl⟩ := run_end_fields E x0 startId hess0 st0 fuel st' h
  have hi := headInv E x0 startId hess0 st0 k st1 cur hh
  have ha := C01_adopted E x0 startId hess0 st0 k st1 cur hh
  obtain ⟨l, fo0, hl, hlen, hfo0, hfofin, hall, hmem, hlt0, b, hmin⟩ := hi.evals
  exact ⟨l ++ [{ arg := nudge E.lb E.ub x0, out := .ok fo0 }], _, cur, by simp [hl], hmem, rfl, rfl, hi.fval, hi.grad,
    ha.2.1, ha.1, fun hn => hi.hess (hi.happ.mpr hn), hi.hessApp⟩

/-- the hypothesis is met by a converged run that accepted a step -/
example : ∃ st', minimize (demoEnv (1 / 100000000) (Num.fin 0) (Num.fin 0)) 1 (v1 1) "run" .hessStr demoSt0 = .ok st' := ⟨_, demo_ok.choose_spec.1⟩

/-- C09: a normal return made exactly one call of the objective per iteration plus one at the start, and at most
`max 0 maxiter` iterations. -/
theorem C09_budget (fuel : ℕ) (st' : St F n) (h : minimize E fuel x0 startId hess0 st0 = .ok st') :
    ∃ l, st'.evals = l ++ st0.evals ∧ l.length = st'.iteration + 1 ∧ (st'.iteration : Int) ≤ max 0 E.opts.maxiter := by
  obtain ⟨k, st1, cur, ef, t, f, hk, hh, rfl⟩ := run_end_fields E x0 startId hess0 st0 fuel st' h
  have hi := headInv E x0 startId hess0 st0 k st1 cur hh
  obtain ⟨l, fo0, hl, hlen, -⟩ := hi.evals
  refine ⟨l ++ [{ arg := nudge E.lb E.ub x0, out := .ok fo0 }], by simp [hl], by simp [hlen, hi.iteration], ?_⟩
  show (st1.iteration : Int) ≤ _
  cases k with
  | zero => rw [hi.iteration]; simp
  | succ k =>
    obtain ⟨prev, cur0, step, new, hhp, hpass⟩ := loopHead_pass E x0 startId hess0 st0 k st1 cur hh
    have h1 := (checkContinue_true E prev _ hpass.continues).2.2.1
    have h2 := (pass_facts E _ _ _ _ _ _ hpass).iteration
    have : (st1.iteration : Int) ≤ E.opts.maxiter := by rw [h2]; push_cast; omega
    exact this.trans (le_max_right _ _)

/-- the hypothesis is met by a converged run that accepted a step -/
example : ∃ st', minimize (demoEnv (1 / 100000000) (Num.fin 0) (Num.fin 0)) 1 (v1 1) "run" .hessStr demoSt0 = .ok st' := ⟨_, demo_ok.choose_spec.1⟩

/-- loop heads exist only up to `maxiter` -/
theorem loopHead_le (k : ℕ) (st : St F n) (cur : Funout F n) (h : LoopHead E x0 startId hess0 st0 k st cur) :
    (k : Int) ≤ max 0 E.opts.maxiter := by
  cases k with
  | zero => simp
  | succ k =>
    obtain ⟨prev, cur0, step, new, hhp, hpass⟩ := loopHead_pass E x0 startId hess0 st0 k st cur h
    have h1 := (checkContinue_true E prev _ hpass.continues).2.2.1
    have h2 := (headInv E x0 startId hess0 st0 k prev cur0 hhp).iteration
    rw [h2] at h1
    have : ((k + 1 : ℕ) : Int) ≤ E.opts.maxiter := by push_cast; omega
    exact this.trans (le_max_right _ _)

omit [LawfulFloat F] in
theorem checkContinue_max (st st1 : St F n) (h : checkContinue E st = (true, st1)) :
    (st.iteration : Int) < E.opts.maxiter := (checkContinue_true E st st1 h).2.2.1

/-- the evaluations of a raising run -/
theorem error_evals (fuel : ℕ) (st' : St F n) (e : PyErr) (h : minimize E fuel x0 startId hess0 st0 = .error (e, st')) :
    ∃ l, st'.evals = l ++ st0.evals ∧ (l.length : Int) ≤ max 0 E.opts.maxiter + 1 := by
  have hM : (0 : Int) ≤ max 0 E.opts.maxiter := le_max_left _ _
  rcases minimize_error E x0 startId hess0 st0 fuel st' e h with ⟨_, h, _⟩ | h | ⟨st1, hb, h⟩ | ⟨k, st1, cur1, st2, hh, hc, h⟩ |
    ⟨k, st1, cur, st2, hh, hc, h⟩
  · exact ⟨[], by simp [h], by simp; omega⟩
  · obtain ⟨_, _, rfl⟩ := checkInBounds_error _ _ _ _ _ h
    exact ⟨[], rfl, by simp; omega⟩
  · obtain ⟨rfl, _⟩ := checkInBounds_ok _ _ _ _ hb
    rcases setup_error E hess0 _ st' e h with ⟨rfl, _⟩ | ⟨raw, happ, fo, _, _, _, _, rfl⟩
    · exact ⟨[_], rfl, by simp⟩
    · obtain ⟨x, i, f, g, hs⟩ := setupState_frame (startState E x0 startId st0) fo happ
      exact ⟨[_], by rw [hs]; rfl, by simp⟩
  · have hi := headInv E x0 startId hess0 st0 k st1 cur1 hh
    obtain ⟨l, fo0, hl, hlen, -⟩ := hi.evals
    have hle := loopHead_le E x0 startId hess0 st0 k st1 cur1 hh
    have hmax := checkContinue_max E st1 st2 hc
    rw [hi.iteration] at hmax
    have hmax' : (k : Int) < max 0 E.opts.maxiter := lt_of_lt_of_le hmax (le_max_right _ _)
    obtain ⟨rfl, -⟩ := checkContinue_true E st1 st2 hc
    have h0 : ∀ s : St F n, s.evals = st1.evals → ∃ l, s.evals = l ++ st0.evals ∧ (l.length : Int) ≤ max 0 E.opts.maxiter + 1 := by
      intro s hs
      exact ⟨l ++ [{ arg := nudge E.lb E.ub x0, out := .ok fo0 }], by rw [hs]; simp [hl], by simp [hlen]; omega⟩
    have h1 : ∀ (s : St F n) r, s.evals = r :: st1.evals → ∃ l, s.evals = l ++ st0.evals ∧ (l.length : Int) ≤ max 0 E.opts.maxiter + 1 := by
      intro s r hs
      exact ⟨r :: l ++ [{ arg := nudge E.lb E.ub x0, out := .ok fo0 }], by rw [hs]; simp [hl], by simp [hlen]; omega⟩
    rcases h with ⟨_, rfl, _⟩ | h
    · exact h0 _ rfl
    · have hpost : ∀ step new, (postCheck E { st1 with ticks := st1.ticks + 1 } step new).evals =
          { arg := trialPoint { st1 with ticks := st1.ticks + 1 } step, out := .ok new } :: st1.evals := by
        intro step new
        obtain ⟨r, d, i, m, ef, c, mx, mxi, mf, mg, hpf⟩ := postCheck_frame E { st1 with ticks := st1.ticks + 1 } step new
        rw [hpf]; rfl
      rcases iterate_error E _ st' cur1 e h with ⟨_, _, rfl⟩ | ⟨_, ⟨_, rfl⟩ | ⟨step, _, ⟨_, rfl⟩ | ⟨new, _, _, _, ⟨_, _, _, rfl⟩ |
          ⟨_, ⟨_, h⟩ | ⟨_, h, _⟩ | ⟨_, rfl, _⟩⟩⟩⟩⟩
      · exact h0 _ rfl
      · exact h0 _ rfl
      · exact h1 _ _ rfl
      · exact h1 _ _ rfl
      · rcases update_error E step new cur1 _ st' e h with ⟨rfl, _⟩ | ⟨_, _, happ, hess, rfl⟩
        · exact h1 _ _ (hpost step new)
        · exact h1 _ _ (hpost step new)
      · obtain ⟨_, happ, hess, _, rfl⟩ := update_ok E step new cur1 _ st' h
        exact h1 _ _ (hpost step new)
      · exact h1 _ _ (hpost step new)
  · have hi := headInv E x0 startId hess0 st0 k st1 cur hh
    obtain ⟨l, fo0, hl, hlen, -⟩ := hi.evals
    have hle := loopHead_le E x0 startId hess0 st0 k st1 cur hh
    refine ⟨l ++ [{ arg := nudge E.lb E.ub x0, out := .ok fo0 }], ?_, by simp [hlen]; omega⟩
    have h2 : st2.evals = st1.evals := by
      rcases checkContinue_false E st1 st2 hc with ⟨_, rfl⟩ | ⟨_, _, rfl⟩ | ⟨_, _, _, rfl⟩ | ⟨_, _, _, rfl⟩ <;> rfl
    have h3 : st' = st2 := by
      unfold writeHistory at h
      split at h
      · split at h
        · cases h; rfl
        · cases h
      · cases h
    rw [h3, h2]; simp [hl]

/-- C09: also a run that raises has called the objective at most `max 0 maxiter + 1` times. -/
theorem C09_calls (fuel : ℕ) : ∃ l, (finalState (minimize E fuel x0 startId hess0 st0)).evals = l ++ st0.evals ∧
    (l.length : Int) ≤ max 0 E.opts.maxiter + 1 := by
  cases h : minimize E fuel x0 startId hess0 st0 with
  | ok st' =>
    obtain ⟨l, h1, h2, h3⟩ := C09_budget E x0 startId hess0 st0 fuel st' h
    exact ⟨l, h1, by rw [h2]; push_cast; omega⟩
  | error e => exact error_evals E x0 startId hess0 st0 fuel e.2 e.1 h

omit [LawfulFloat F] in
theorem historyRow_ne (x : PyErr) (hevs : ∀ m, E.evs m ≠ .error x) (hcond : ∀ m, E.cond m ≠ .error x)
    (acc : Bool) (step : Step F n) (fo : Funout F n) (th : F) (sh : Mat F n n) (st : St F n) :
    historyRow E acc step fo th sh st ≠ .error x := by
  intro h
  unfold historyRow at h
  split at h
  · rename_i he; cases h; exact hevs _ he
  · simp only at h
    split at h
    · rename_i he
      cases h
      split at he
      · cases he
      · split at he
        · exact hevs _ he
        · cases he
    · split at h
      · rename_i he
        cases h
        split at he
        · split at he
          · exact hevs _ he
          · cases he
        · split at he
          · exact hevs _ he
          · cases he
        · split at he
          · exact hevs _ he
          · cases he
        · cases he
      · split at h
        · rename_i he; cases h; exact hcond _ he
        · split at h
          · rename_i he; cases h; exact hcond _ he
          · cases h

/-- if the number of passes is bounded, the model of the loop does not run out of them -/
theorem terminates_of (fuel : ℕ)
    (hfuel : ∀ k st1 cur1 st2, LoopHead E x0 startId hess0 st0 k st1 cur1 → checkContinue E st1 = (true, st2) → k < fuel) (htr : ∀ k I, E.tr k I ≠ .error .diverges)
    (hevs : ∀ m, E.evs m ≠ .error .diverges) (hcond : ∀ m, E.cond m ≠ .error .diverges) (st' : St F n) :
    minimize E fuel x0 startId hess0 st0 ≠ .error (.diverges, st') := by
  intro h
  rcases minimize_error E x0 startId hess0 st0 fuel st' _ h with ⟨hn, _, _⟩ | h | ⟨st1, hb, h⟩ | ⟨k, st1, cur1, st2, hh, hc, h⟩ |
    ⟨k, st1, cur, st2, hh, hc, h⟩
  · simp [minimize, hn] at h
  · have := (checkInBounds_error _ _ _ _ _ h).2.1
    cases this
  · rcases setup_error E hess0 _ st' _ h with ⟨_, h⟩ | ⟨raw, happ, fo, _, _, _, h, _⟩
    · exact h.1 rfl
    · cases h
  · rcases h with ⟨_, _, hk⟩ | h
    · have := hfuel k st1 cur1 st2 hh hc
      omega
    · rcases iterate_error E _ st' cur1 _ h with ⟨_, h, _⟩ | ⟨_, ⟨h, _⟩ | ⟨step, _, ⟨h, _⟩ | ⟨new, _, _, _, ⟨_, _, h, _⟩ |
          ⟨_, ⟨_, h⟩ | ⟨_, _, h⟩ | ⟨_, _, h⟩⟩⟩⟩⟩
      · cases h
      · exact htr _ _ h
      · simp only [trialOut, evaluate] at h
        split at h
        · rename_i e he
          cases h
          exact funEval_ne _ _ _ _ he |>.1 rfl
        · split at h
          · cases h
          · cases h
      · cases h
      · rcases update_error E step new cur1 _ st' _ h with ⟨_, h⟩ | ⟨_, h, _⟩
        · exact h.1 rfl
        · cases h
      · exact historyRow_ne E _ hevs hcond _ _ _ _ _ _ h
      · exact historyRow_ne E _ hevs hcond _ _ _ _ _ _ h
  · unfold writeHistory at h
    split at h
    · split at h
      · cases h
      · cases h
    · cases h

/-- C09: minimize terminates.  If computing a proposal and the eigenvalues for the history always terminate, then
`max 0 maxiter` passes of the loop are enough: the model never runs out of them. -/
theorem C09_terminates (fuel : ℕ) (hfuel : E.opts.maxiter ≤ fuel) (htr : ∀ k I, E.tr k I ≠ .error .diverges)
    (hevs : ∀ m, E.evs m ≠ .error .diverges) (hcond : ∀ m, E.cond m ≠ .error .diverges) (st' : St F n) :
    minimize E fuel x0 startId hess0 st0 ≠ .error (.diverges, st') :=
  terminates_of E x0 startId hess0 st0 fuel (fun k st1 cur1 st2 hh hc => by
    have hmax := checkContinue_max E st1 st2 hc
    rw [(headInv E x0 startId hess0 st0 k st1 cur1 hh).iteration] at hmax
    omega) htr hevs hcond st'

/-- proposals that never diverge exist, with `maxiter` passes as fuel -/
example : (demoEnv (1 / 100000000) (Num.fin 0) (Num.fin 0)).opts.maxiter ≤ (1000 : ℕ) ∧
    ∀ k I, ({ demoEnv (1 / 100000000) (Num.fin 0) (Num.fin 0) with tr := fun _ I => .ok (Step.init I.prob .twoD [I.prob.sg]) } :
      Env Num 1).tr k I ≠ .error .diverges := by
  refine ⟨?_, fun k I => nofun⟩
  rw [demo_default, demo_opts]; rfl

end Fides
