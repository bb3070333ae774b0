import Verif.Lemmas.MemoryRun
import Verif.Lemmas.Shift
import Verif.Lemmas.Hessian
import Verif.Lemmas.B64InDemo
import Verif.Props.Run
import Verif.Lemmas.Converge

/-!
# Array objects shared with the objective (C76)
-/

open Classical

set_option linter.unusedSectionVars false

namespace Fides
open Spec
section
variable {F : Type} [FloatOps F] [LawfulFloat F] {n : ℕ}

/-- an objective that returns new arrays in every call and leaves its argument alone -/
structure FreshArrays (M : Memory F n) : Prop where
  grad : ∀ i j, M.grad i = M.grad j → i = j
  res : ∀ i j, M.res i = M.res j → i = j
  sres : ∀ i j, M.sres i = M.sres j → i = j
  arg : ∀ k x, M.arg k x = x

theorem writeGrads_fresh (E : Env F n) (M : Memory F n) (hM : FreshArrays M) (k : ℕ) (new : Funout F n) (h : Held) (st : St F n)
    (h1 : h.current < k) (h2 : h.best < k) : writeGrads E M k new h st = st := by
  unfold writeGrads
  rw [if_neg (fun e => absurd (hM.grad _ _ e) (by omega)), if_neg (fun e => absurd (hM.grad _ _ e) (by omega))]
  split <;> rfl

theorem writeRes_fresh (M : Memory F n) (hM : FreshArrays M) (k : ℕ) (new old : Funout F n) (h : Held)
    (h1 : h.current < k) : writeRes M k new h old = old := by
  have e1 : ¬ M.res k = M.res h.current := fun e => absurd (hM.res _ _ e) (by omega)
  have e2 : ¬ M.sres k = M.sres h.current := fun e => absurd (hM.sres _ _ e) (by omega)
  unfold writeRes
  cases ho : old.res with
  | none => rfl
  | some ro =>
    cases hn : new.res with
    | none => rfl
    | some rn =>
      simp only [if_neg e1, if_neg e2]
      split
      · rfl
      · cases old; simp_all

theorem memPost_evals (E : Env F n) (M : Memory F n) (st : St F n) (h : Held) (step : Step F n) (new : Funout F n) :
    (memPost E M st h step new).evals.length = st.evals.length + 1 := by
  obtain ⟨r, d, i, m, h1⟩ := updateTrRadius_frame E (memNew M st step new) step (trInput E (preIter st)).dv (memAfter E M st h step new)
  obtain ⟨ef, c, h2⟩ := checkConvergence_frame E step (memNew M st step new) (memRadius E M st h step new).2
  obtain ⟨x, xi, f, g, h3⟩ := trackMinimum_frame (memNew M st step new) (checkConvergence E step (memNew M st step new) (memRadius E M st h step new).2)
  unfold memPost
  rw [h3, h2]
  unfold memRadius
  rw [h1]
  show (memAfter E M st h step new).evals.length = _
  unfold memAfter writeGrads
  split <;> rfl

theorem update_evals (E : Env F n) (step : Step F n) (new old : Funout F n) (st st' : St F n) (h : update E step new old st = .ok st') :
    st'.evals = st.evals := by
  obtain ⟨-, happ, hess, -, rfl⟩ := update_ok _ _ _ _ _ _ h
  rfl

/-- the pass with the array objects does the same as the pass on values -/
theorem iterateMem_fresh (E : Env F n) (M : Memory F n) (hM : FreshArrays M) (st : St F n) (old : Funout F n) (h : Held)
    (h1 : h.current < st.evals.length) (h2 : h.best < st.evals.length) :
    (∃ e, iterate E st old = .error e ∧ iterateMem E M st old h = .error e) ∨
    ∃ st' old' h', iterate E st old = .ok (st', old') ∧ iterateMem E M st old h = .ok (st', old', h') ∧
      h'.current < st'.evals.length ∧ h'.best < st'.evals.length := by
  rw [iterate_eq, iterateMem_eq]
  split
  swap
  · exact Or.inl ⟨_, rfl, rfl⟩
  cases E.tr st.proposals (trInput E (preIter st)) with
  | error e => exact Or.inl ⟨_, rfl, rfl⟩
  | ok step =>
    simp only
    cases ht : trialOut E st step with
    | error e => exact Or.inl ⟨_, rfl, rfl⟩
    | ok new =>
      simp only
      have ha : memAfter E M st h step new = afterEval st step (.ok new) := writeGrads_fresh _ _ hM _ _ _ _ h1 h2
      have hn : memNew M st step new = new := by
        unfold memNew
        rw [hM.arg, ← (evaluate_x _ _ _ _ _ ht).1]
      split
      · rw [ha]; exact Or.inl ⟨_, rfl, rfl⟩
      have hr : memRadius E M st h step new = radiusStep E st step new := by unfold memRadius; rw [hn, ha]; rfl
      have hp : memPost E M st h step new = postCheck E st step new := by unfold memPost; rw [hn, hr]; rfl
      have hl := memPost_evals E M st h step new
      have hh : (memHeld E M st h step new).current < st.evals.length + 1 ∧ (memHeld E M st h step new).best < st.evals.length + 1 := by
        unfold memHeld
        constructor
        · show (if _ then _ else _) < _
          split <;> omega
        · show (if _ then _ else _) < _
          split <;> omega
      unfold memFinish finish
      simp only
      rw [writeRes_fresh M hM _ _ _ _ h1, hn, hr, hp]
      rw [hp] at hl
      have hs : ∀ s, (if (radiusStep E st step new).1 = true then update E step new old (postCheck E st step new)
          else .ok (postCheck E st step new)) = .ok s → s.evals.length = st.evals.length + 1 := by
        intro s hs
        split at hs
        · rw [update_evals _ _ _ _ _ _ hs, hl]
        · cases hs; exact hl
      cases hu : (if (radiusStep E st step new).1 = true then update E step new old (postCheck E st step new)
          else .ok (postCheck E st step new)) with
      | error e => exact Or.inl ⟨_, rfl, rfl⟩
      | ok s =>
        have := hs s hu
        simp only
        split
        · cases historyRow E (radiusStep E st step new).1 step new (trInput E (preIter st)).theta (trInput E (preIter st)).prob.shess s with
          | error e => exact Or.inl ⟨_, rfl, rfl⟩
          | ok row =>
            refine Or.inr ⟨_, _, _, rfl, rfl, ?_, ?_⟩
            · show _ < s.evals.length; omega
            · show _ < s.evals.length; omega
        · refine Or.inr ⟨_, _, _, rfl, rfl, ?_, ?_⟩
          · omega
          · omega

theorem checkContinue_evals' (E : Env F n) (st : St F n) : (checkContinue E st).2.evals = st.evals := by
  unfold checkContinue
  simp only
  repeat' split
  all_goals rfl

theorem loopMem_fresh (E : Env F n) (M : Memory F n) (hM : FreshArrays M) (fuel : ℕ) (st : St F n) (old : Funout F n) (h : Held)
    (h1 : h.current < st.evals.length) (h2 : h.best < st.evals.length) : loopMem E M fuel st old h = loop E fuel st old := by
  induction fuel generalizing st old h with
  | zero => unfold loopMem loop; rfl
  | succ fuel ih =>
    unfold loopMem loop
    have hev := checkContinue_evals' E st
    generalize checkContinue E st = c at hev
    obtain ⟨b, st1⟩ := c
    cases b with
    | false => rfl
    | true =>
      simp only at hev ⊢
      rw [← hev] at h1 h2
      rcases iterateMem_fresh E M hM st1 old h h1 h2 with ⟨e, he, he'⟩ | ⟨st', old', h', he, he', h3, h4⟩
      · rw [he, he']
      · rw [he, he']
        exact ih _ _ _ h3 h4

theorem minimizeMem_eq (E : Env F n) (M : Memory F n) (fuel : ℕ) (x0 : Vec F n) (startId : String) (hess0 : Hess0 F) (st0 : St F n) :
    minimizeMem E M fuel x0 startId hess0 st0 =
      if n = 0 then .error (.valueError, { reset E startId st0 with x := x0, xId := (reset E startId st0).nextId, nextId := (reset E startId st0).nextId + 1 })
      else match checkInBounds E (startState E x0 startId st0).x (startState E x0 startId st0) with
        | .error e => .error e
        | .ok st => match setupMem E M hess0 st with
          | .error e => .error e
          | .ok (st, fo, h) => match loopMem E M fuel st fo h with
            | .error e => .error e
            | .ok st => writeHistory E st := rfl

theorem minimize_split (E : Env F n) (fuel : ℕ) (x0 : Vec F n) (startId : String) (hess0 : Hess0 F) (st0 : St F n) :
    minimize E fuel x0 startId hess0 st0 =
      if n = 0 then .error (.valueError, { reset E startId st0 with x := x0, xId := (reset E startId st0).nextId, nextId := (reset E startId st0).nextId + 1 })
      else match checkInBounds E (startState E x0 startId st0).x (startState E x0 startId st0) with
        | .error e => .error e
        | .ok st => match setup E hess0 st with
          | .error e => .error e
          | .ok (st, fo) => match loop E fuel st fo with
            | .error e => .error e
            | .ok st => writeHistory E st := rfl

theorem trackMinimum_x (fo : Funout F n) (s : St F n) :
    (trackMinimum fo s).xMin = fo.x ∨ ((trackMinimum fo s).xMin = s.xMin ∧ (trackMinimum fo s).xMinId = s.xMinId) := by
  unfold trackMinimum
  split
  · exact Or.inl rfl
  · exact Or.inr ⟨rfl, rfl⟩

theorem setupState_x (st : St F n) (fo : Funout F n) (happ : Option (Happ F n)) :
    (setupState st fo happ).xMin = fo.x ∨ ((setupState st fo happ).xMin = st.xMin ∧ (setupState st fo happ).xMinId = st.xMinId) :=
  trackMinimum_x fo { logStart st (.ok fo) with
          fval := fo.fval, grad := fo.grad, happ := happ,
          hess := match happ with | some h => h.getMat | none => fo.hess.getD mzero }

theorem setupMem_plain (E : Env F n) (M : Memory F n) (hM : ∀ k x, M.arg k x = x) (hess0 : Hess0 F) (st1 : St F n)
    (hid : st1.xMinId = st1.xId → st1.xMin = st1.x) (st : St F n) (fo : Funout F n) (hs : setup E hess0 st1 = .ok (st, fo)) :
    setupMem E M hess0 st1 = .ok (st, fo, { current := st1.evals.length, best := st1.evals.length }) ∧
      st.evals.length = st1.evals.length + 1 := by
  unfold setupMem
  rw [hs]
  obtain ⟨raw, happ, -, -, -, -, hx, -, -, rfl⟩ := setup_ok _ _ _ _ _ hs
  obtain ⟨a, b, c, d, hfr⟩ := setupState_frame st1 fo happ
  constructor
  swap
  · rw [hfr]; rfl
  simp only [hM]
  have hX : (setupState st1 fo happ).x = st1.x := by rw [hfr]; rfl
  have hI : (setupState st1 fo happ).xId = st1.xId := by rw [hfr]; rfl
  have hxm : (setupState st1 fo happ).xMinId = (setupState st1 fo happ).xId → (setupState st1 fo happ).xMin = (setupState st1 fo happ).x := by
    rw [hX, hI]
    rcases setupState_x st1 fo happ with h | ⟨h, h'⟩
    · exact fun _ => h.trans hx
    · intro hi
      exact h.trans (hid (h'.symm.trans hi))
  have hm : (if (setupState st1 fo happ).xMinId = (setupState st1 fo happ).xId then (setupState st1 fo happ).x else (setupState st1 fo happ).xMin) =
      (setupState st1 fo happ).xMin := by
    split
    · rename_i h; exact (hxm h).symm
    · rfl
  rw [hm, hX, ← hx]

/-- **C76**: if the objective returns new arrays in every call and does not modify its argument, then arrays behave like values: `minimize` does
exactly what the value model says. -/
theorem C76_fresh (E : Env F n) (M : Memory F n) (hM : FreshArrays M) (fuel : ℕ) (x0 : Vec F n) (startId : String) (hess0 : Hess0 F)
    (st0 : St F n) : minimizeMem E M fuel x0 startId hess0 st0 = minimize E fuel x0 startId hess0 st0 := by
  rw [minimizeMem_eq, minimize_split]
  split
  · rfl
  generalize hb : checkInBounds E (startState E x0 startId st0).x (startState E x0 startId st0) = cb
  cases cb with
  | error e => rfl
  | ok st1 =>
  simp only
  have hid : st1.xMinId = st1.xId → st1.xMin = st1.x := by
    obtain ⟨rfl, -⟩ := checkInBounds_ok _ _ _ _ hb
    intro h
    exact if_pos h
  cases hs : setup E hess0 st1 with
  | error e => simp only [setupMem, hs]
  | ok p =>
    obtain ⟨st, fo⟩ := p
    obtain ⟨h1, h2⟩ := setupMem_plain E M hM.arg hess0 st1 hid _ _ hs
    rw [h1]
    simp only
    rw [loopMem_fresh E M hM fuel st fo _ (by show st1.evals.length < _; omega) (by show st1.evals.length < _; omega)]

end

section
open Num Dbl InnDemo OutDemo
variable {R : Rounding} {O : Oracles (Dbl R)}

/-- a whole run in double precision with default options, one rejected step -/
theorem inn_mem (hO : Returning R O) (M : Memory (Dbl R) 1) (harg : ∀ k x, M.arg k x = x) (fuel : ℕ) :
    ∃ st, minimizeMem (innEnv R O) M (fuel + 1) vzero "run" .hessStr (St.new (resolveOpts []) none) = .ok st ∧ st.x = vzero ∧ st.fval = lit 0 ∧
      st.exitflag = .gtol ∧ st.grad = if M.grad 1 = M.grad 0 then (fun _ => lit 0) else (fun _ => lit (-1)) := by
  obtain ⟨prev, cur, step, new, next, cur', ⟨hh, hp, hpx, -, -, -, hpg⟩, hnf, hng, hpf⟩ := inn_pass_full (O := O) hO (St.new (resolveOpts []) none) rfl
  obtain ⟨step', new', hist, hf, htr, hout, -, -, -, hdis⟩ := iterate_ok _ _ _ _ _ hp.body
  have hstep : step' = step := by
    have := htr.symm.trans hp.proposal
    cases this; rfl
  subst hstep
  have hnew : new' = new := by
    have hev := hp.evaluated
    rcases hdis with ⟨-, -, st4, hu, -, rfl⟩ | ⟨-, -, -, rfl⟩
    · have h1 : st4.evals = _ := update_evals _ _ _ _ _ _ hu
      obtain ⟨r', d', i', m', ef, c, mx, mxi, mf, mg, hpf⟩ := postCheck_frame (innEnv R O) { prev with ticks := prev.ticks + 1 } step' new'
      rw [hpf] at h1
      have h2 := h1.symm.trans hev
      have h3 := (List.cons.inj h2).1
      injection h3 with _ h4
      injection h4
    · obtain ⟨r', d', i', m', ef, c, mx, mxi, mf, mg, hpf⟩ := postCheck_frame (innEnv R O) { prev with ticks := prev.ticks + 1 } step' new'
      rw [hpf] at hev
      have h3 := (List.cons.inj hev).1
      injection h3 with _ h4
      injection h4
  subst hnew
  have hopt : (innEnv R O).opts = _ := out_opts
  have hnan : isFinite (FloatOps.nan : Dbl R) = false := rfl
  have hinv := headInv _ _ _ _ _ _ _ _ hh
  have hlen : prev.evals.length = 1 := by
    obtain ⟨l, fo0, h1, h2, -⟩ := hinv.evals
    rw [h1, List.length_append, h2]; rfl
  have hcont := hp.continues
  have hbody : ∀ h : Held, iterateMem (innEnv R O) M { prev with ticks := prev.ticks + 1 } cur h =
      .ok (memPost (innEnv R O) M { prev with ticks := prev.ticks + 1 } h step' new',
        writeRes M prev.evals.length new' h cur, memHeld (innEnv R O) M { prev with ticks := prev.ticks + 1 } h step' new') := by
    intro h
    have hr : (memRadius (innEnv R O) M { prev with ticks := prev.ticks + 1 } h step' new').1 = false := by
      unfold memRadius updateTrRadius
      simp [memNew, hnf, hnan]
    rw [iterateMem_eq, if_pos hf, htr]
    simp only [hout, hnf, hnan, Bool.false_and, Bool.false_eq_true, if_false, memFinish, hr]
    rw [if_neg (by rw [hopt]; simp)]
  have hpost : ∀ h : Held, M.grad h.current = M.grad 0 → (memPost (innEnv R O) M { prev with ticks := prev.ticks + 1 } h step' new').x = vzero ∧
      (memPost (innEnv R O) M { prev with ticks := prev.ticks + 1 } h step' new').fval = lit 0 ∧
      (memPost (innEnv R O) M { prev with ticks := prev.ticks + 1 } h step' new').exitflag = .gtol ∧
      (memPost (innEnv R O) M { prev with ticks := prev.ticks + 1 } h step' new').converged = true ∧
      (memPost (innEnv R O) M { prev with ticks := prev.ticks + 1 } h step' new').grad =
        if M.grad 1 = M.grad 0 then (fun _ => lit 0) else (fun _ => lit (-1)) := by
    intro h hc
    set P := ({ prev with ticks := prev.ticks + 1 } : St (Dbl R) 1) with hP
    have ha : ∃ g gm, memAfter (innEnv R O) M P h step' new' = { afterEval P step' (.ok new') with grad := g, gradMin := gm } ∧
        g = if M.grad 1 = M.grad 0 then (fun _ => lit 0) else (fun _ => lit (-1)) := by
      refine ⟨_, _, rfl, ?_⟩
      show (if M.grad prev.evals.length = M.grad h.current then new'.grad else prev.grad) = _
      rw [hlen, hc, hng, hpg]
    obtain ⟨g, gm, ha, hg⟩ := ha
    have hrad : memRadius (innEnv R O) M P h step' new' = (false, { memAfter (innEnv R O) M P h step' new' with
        trRatio := lit 0, delta := nanMin2 ((memAfter (innEnv R O) M P h step' new').delta * (innEnv R O).opts.gamma1)
          (norm (vadd step'.ss step'.ss0) / lit 4), iterSinceTr := 0 }) := by
      unfold memRadius updateTrRadius
      simp [memNew, hnf, hnan]
    have hg0 : (norm (memNew M P step' new').grad).val = .fin 0 := by
      show (norm new'.grad).val = _
      rw [hng, norm_one]
      have h1 := v_mul (R := R) v0 v0 (by rw [mul_zero]; exact isB64_zero)
      rw [mul_zero] at h1
      rw [v_sqrt h1 le_rfl (by rw [Real.sqrt_zero]; exact isB64_zero), Real.sqrt_zero]
    have hq : ∃ r : ℝ, (lit (1 / 1000000) : Dbl R).val = .fin r ∧ 0 ≤ r := by
      refine ⟨R.near ((1 / 1000000 : ℚ) : ℝ), ?_, ?_⟩
      · rw [val_lit, v_rd (lt_trans (show |((1 / 1000000 : ℚ) : ℝ)| < 1 by rw [abs_of_pos] <;> norm_num) overflow_big)]
      · have := R.near_mono (show (0 : ℝ) ≤ ((1 / 1000000 : ℚ) : ℝ) by norm_num)
        rwa [R.near_self isB64_zero] at this
    obtain ⟨q, hq, hq0⟩ := hq
    have hmu : lt (lit (1 / 4) : Dbl R) (lit 0) = false := by rw [lt_iff vU4 v0]; norm_num
    have hit : prev.iteration = 0 := hinv.iteration
    have hcv : checkConvergence (innEnv R O) step' (memNew M P step' new') (memRadius (innEnv R O) M P h step' new').2 =
        { (memRadius (innEnv R O) M P h step' new').2 with exitflag := .gtol, converged := true } := by
      unfold checkConvergence
      have h1 : (memRadius (innEnv R O) M P h step' new').2.trRatio = lit 0 := by rw [hrad]
      have h2 : (memRadius (innEnv R O) M P h step' new').2.iteration = 1 := by
        rw [hrad, ha]; show prev.iteration + 1 = 1; rw [hit]
      simp only [h1, h2, hopt, hmu]
      rw [if_neg (by simp), if_neg (by simp), if_pos (by rw [le_iff hg0 hq]; simpa using hq0)]
    have htm : trackMinimum (memNew M P step' new') (checkConvergence (innEnv R O) step' (memNew M P step' new') (memRadius (innEnv R O) M P h step' new').2) =
        checkConvergence (innEnv R O) step' (memNew M P step' new') (memRadius (innEnv R O) M P h step' new').2 := by
      unfold trackMinimum
      rw [if_neg (by simp [memNew, hnf, hnan])]
    unfold memPost
    rw [htm, hcv, hrad, ha]
    exact ⟨hpx, hpf, rfl, rfl, hg⟩
  cases hh with
  | start st1 _ _ hb hs =>
  have hid : st1.xMinId = st1.xId → st1.xMin = st1.x := by
    obtain ⟨rfl, -⟩ := checkInBounds_ok _ _ _ _ hb
    intro h
    exact if_pos h
  obtain ⟨h1, h2⟩ := setupMem_plain _ M harg _ st1 hid _ _ hs
  have hl1 : st1.evals.length = 0 := by omega
  obtain ⟨p1, p2, p3, p4, p5⟩ := hpost { current := st1.evals.length, best := st1.evals.length } (by show M.grad st1.evals.length = _; rw [hl1])
  refine ⟨_, ?_, p1, p2, p3, p5⟩
  rw [minimizeMem_eq, if_neg one_ne_zero, hb]
  simp only [h1]
  unfold loopMem
  rw [hcont]
  simp only [hbody]
  unfold loopMem
  have : ∀ s : St (Dbl R) 1, s.converged = true → checkContinue (innEnv R O) s = (false, s) := by
    intro s hs; unfold checkContinue; rw [if_pos hs]
  rw [this _ p4]
  simp only [writeHistory]
  rw [if_neg (by rw [hopt]; simp)]


/-- an objective that keeps one array for the gradient -/
def OneGradient {F : Type} {n : ℕ} (M : Memory F n) : Prop := (∀ i j, M.grad i = M.grad j) ∧ ∀ k x, M.arg k x = x

/-- **C76 is false for objectives that reuse the gradient array**: in double precision, with default options and any linear algebra that returns,
there is a problem on which `minimize` returns the correct gradient -1 at the starting point if every call returns a new array, and the gradient 0
at the same point, with the same value and the exit flag GTOL, if the same array is filled again in every call. -/
theorem C76_counterexample (R : Rounding) (O : Oracles (Dbl R)) (hO : Returning R O) (M : Memory (Dbl R) 1) (hM : OneGradient M) (fuel : ℕ) :
    ∃ st st', minimize (innEnv R O) (fuel + 1) vzero "run" .hessStr (St.new (resolveOpts []) none) = .ok st ∧
      minimizeMem (innEnv R O) M (fuel + 1) vzero "run" .hessStr (St.new (resolveOpts []) none) = .ok st' ∧
      st.x = vzero ∧ st'.x = vzero ∧ st.fval = lit 0 ∧ st'.fval = lit 0 ∧ st.exitflag = .gtol ∧ st'.exitflag = .gtol ∧
      (∀ k, (innEnv R O).obj k vzero = .tuple [.scalar (lit 0), .arr [1] [lit (-1)], .arr [1, 1] [lit 0]]) ∧
      (∀ i, (st.grad i).val = .fin (-1)) ∧ ∀ i, (st'.grad i).val = .fin 0 := by
  obtain ⟨st, h1, h2, h3, h4, h5⟩ := inn_mem hO { grad := id, res := id, sres := id, arg := fun _ x => x } (fun _ _ => rfl) fuel
  obtain ⟨st', g1, g2, g3, g4, g5⟩ := inn_mem hO M hM.2 fuel
  rw [C76_fresh _ _ ⟨fun _ _ h => h, fun _ _ h => h, fun _ _ h => h, fun _ _ => rfl⟩] at h1
  refine ⟨st, st', h1, g1, h2, g2, h3, g3, h4, g4, ?_, ?_, ?_⟩
  · intro k
    have : lt (lit 0 : Dbl R) ((vzero : Vec (Dbl R) 1) 0) = false := by
      rw [lt_iff v0 (show ((vzero : Vec (Dbl R) 1) 0).val = _ from v0)]; norm_num
    show (if lt (lit 0) ((vzero : Vec (Dbl R) 1) 0) = true then _ else _) = _
    rw [this, if_neg (by simp)]
  · intro i; rw [h5, if_neg (by simp)]; exact vm1
  · intro i; rw [g5, if_pos (hM.1 _ _)]; exact v0

/-- there are such objectives -/
example : OneGradient ({ grad := fun _ => 0, res := fun _ => 0, sres := fun _ => 0, arg := fun _ x => x } : Memory (Dbl evenRounding) 1) :=
  ⟨fun _ _ => rfl, fun _ _ => rfl⟩

end

section
open Num
variable {F : Type} [FloatOps F] [LawfulFloat F] {n : ℕ}

/-- the matrix an approximation starts from, given the `hess0` argument: the identity for `None`, otherwise the array itself -/
def StartMatrix (v : PyVal F) (H : Mat F n n) : Prop := (v = .none ∧ H = meye) ∨ (v ≠ .none ∧ v.toMat? n n = some H)

theorem memPost_frame (E : Env F n) (M : Memory F n) (st : St F n) (h : Held) (step : Step F n) (new : Funout F n) :
    ∃ r d i m ef c x xi f g, memPost E M st h step new =
      { memAfter E M st h step new with
        trRatio := r, delta := d, iterSinceTr := i, nIntermediate := m, exitflag := ef, converged := c,
        xMin := x, xMinId := xi, fvalMin := f, gradMin := g } := by
  obtain ⟨r, d, i, m, h1⟩ := updateTrRadius_frame E (memNew M st step new) step (trInput E (preIter st)).dv (memAfter E M st h step new)
  obtain ⟨ef, c, h2⟩ := checkConvergence_frame E step (memNew M st step new) (memRadius E M st h step new).2
  obtain ⟨x, xi, f, g, h3⟩ := trackMinimum_frame (memNew M st step new) (checkConvergence E step (memNew M st step new) (memRadius E M st h step new).2)
  refine ⟨r, d, i, m, ef, c, x, xi, f, g, ?_⟩
  unfold memPost
  rw [h3, h2]
  unfold memRadius
  rw [h1]

theorem memAfter_happ (E : Env F n) (M : Memory F n) (st : St F n) (h : Held) (step : Step F n) (new : Funout F n) :
    (memAfter E M st h step new).happ = st.happ ∧ (memAfter E M st h step new).hess = st.hess := by
  unfold memAfter writeGrads
  split <;> exact ⟨rfl, rfl⟩

theorem checkContinue_keeps (E : Env F n) (st : St F n) : (checkContinue E st).2.happ = st.happ ∧ (checkContinue E st).2.hess = st.hess := by
  unfold checkContinue
  simp only
  repeat' split
  all_goals exact ⟨rfl, rfl⟩

theorem add_fin_zero (a : Num) : a + Num.fin 0 = a := by
  cases a with
  | fin r => rw [Num.fin_add, add_zero]
  | pinf => rfl
  | ninf => rfl
  | nan => rfl

/-- the state of a frozen Broyden-class approximation -/
def Frozen (phi : Num) (H : Mat Num n n) (st : St Num n) : Prop :=
  st.hess = H ∧ ∃ a : IterApprox Num n, st.happ = some (.iter a) ∧ a.scheme = .broyden phi true ∧ a.hess = H

theorem iterateMem_frozen (E : Env Num n) (hres : E.resfun = false) (M : Memory Num n) (hM : OneGradient M) (phi : Num) (H : Mat Num n n)
    (st : St Num n) (old : Funout Num n) (h : Held) (hst : Frozen phi H st) (st' : St Num n) (old' : Funout Num n) (h' : Held)
    (hit : iterateMem E M st old h = .ok (st', old', h')) : Frozen phi H st' := by
  obtain ⟨hH, a, ha, hs, hah⟩ := hst
  rw [iterateMem_eq] at hit
  split at hit
  swap
  · cases hit
  split at hit
  · cases hit
  rename_i step hstep
  split at hit
  · cases hit
  rename_i new hnew
  split at hit
  · cases hit
  rename_i hfin
  obtain ⟨r, d, i, m, ef, c, x, xi, f, g, hpf⟩ := memPost_frame E M st h step new
  obtain ⟨hk1, hk2⟩ := memAfter_happ E M st h step new
  have hPost : Frozen phi H (memPost E M st h step new) := by
    rw [hpf]
    exact ⟨hk2.trans hH, a, hk1.trans ha, hs, hah⟩
  have hg : (memPost E M st h step new).grad = new.grad := by
    rw [hpf]
    show (memAfter E M st h step new).grad = _
    unfold memAfter writeGrads
    rw [hres, if_neg (by simp), hM.1 st.evals.length h.current]
    exact if_pos rfl
  have hfin' : ∀ s, (if (memRadius E M st h step new).1 = true then
        update E step (memNew M st step new) (writeRes M st.evals.length new h old) (memPost E M st h step new)
      else .ok (memPost E M st h step new)) = .ok s → Frozen phi H s := by
    intro s hs'
    split at hs'
    swap
    · cases hs'; exact hPost
    rename_i hacc
    obtain ⟨hb, happ, hess, hc, rfl⟩ := update_ok _ _ _ _ _ _ hs'
    rcases hc with ⟨a0, a1, h1, h2, rfl, rfl⟩ | ⟨h1, -, -⟩
    swap
    · obtain ⟨-, a2, h2, -⟩ := hPost
      rw [h1] at h2; cases h2
    obtain ⟨-, a2, h3, h4, h5⟩ := hPost
    rw [h1] at h3
    cases h3
    simp only [updateHapp, Except.ok.injEq] at h2
    subst h2
    -- the gradient difference vanishes
    have hff : isFinite new.fval = true := by
      cases hb : isFinite new.fval
      · unfold memRadius updateTrRadius at hacc
        simp [memNew, hb] at hacc
      · rfl
    have hgf : ∀ i, ∃ q : ℝ, new.grad i = .fin q := by
      have : allFinite new.fval new.grad new.hess = true := by
        simpa [hff] using hfin
      intro i
      have := ((allFinite_iff _ _ _).mp this).2.1 i
      exact (Num.isFinite_iff _).mp this
    have hy : vsub (memNew M st step new).grad (memPost E M st h step new).grad = ofV (fun _ => 0) := by
      funext i
      obtain ⟨q, hq⟩ := hgf i
      show new.grad i - (memPost E M st h step new).grad i = _
      rw [hg, hq, Num.fin_sub, sub_self]; rfl
    have hsf : ∃ p : Fin n → ℝ, vadd step.s step.s0 = ofV p := by
      have hxx : (memNew M st step new).x = trialPoint st step := hM.2 _ _
      have : ∀ i, ∃ q : ℝ, vadd step.s step.s0 i = .fin q := by
        intro i
        obtain ⟨-, -, h6⟩ := inBounds_spec _ _ _ hb i
        obtain ⟨q, hq⟩ := (Num.isFinite_iff _).mp h6
        rw [hxx] at hq
        have hq' : st.x i + step.s i + step.s0 i = .fin q := hq
        show ∃ q, step.s i + step.s0 i = .fin q
        cases h7 : step.s0 i <;> cases h8 : step.s i <;> cases h9 : st.x i <;> rw [h7, h8, h9] at hq' <;> first | exact ⟨_, rfl⟩ | cases hq'
      choose p hp using this
      exact ⟨p, funext hp⟩
    obtain ⟨p, hp⟩ := hsf
    have hupd : (a2.update (vadd step.s step.s0) (vsub (memNew M st step new).grad (memPost E M st h step new).grad)).hess = H ∧
        (a2.update (vadd step.s step.s0) (vsub (memNew M st step new).grad (memPost E M st h step new).grad)).scheme = .broyden phi true := by
      rw [hy, hp]
      unfold IterApprox.update IterApprox.computeUpdate
      rw [h4]
      simp only
      rw [broyden_skip _ _ _ _ (by simp [rdot]), h5]
      refine ⟨?_, trivial⟩
      funext i j
      exact add_fin_zero _
    exact ⟨hupd.1, _, rfl, hupd.2, hupd.1⟩
  unfold memFinish at hit
  simp only at hit
  split at hit
  · cases hit
  rename_i s hu
  have := hfin' s hu
  split at hit
  · split at hit
    · cases hit
    · cases hit; exact this
  · cases hit; exact this

theorem loopMem_frozen (E : Env Num n) (hres : E.resfun = false) (M : Memory Num n) (hM : OneGradient M) (phi : Num) (H : Mat Num n n)
    (fuel : ℕ) (st : St Num n) (old : Funout Num n) (h : Held) (hst : Frozen phi H st) (st' : St Num n)
    (hl : loopMem E M fuel st old h = .ok st') : Frozen phi H st' := by
  induction fuel generalizing st old h with
  | zero =>
    unfold loopMem at hl
    obtain ⟨k1, k2⟩ := checkContinue_keeps E st
    generalize checkContinue E st = c at hl k1 k2
    obtain ⟨b, st1⟩ := c
    cases b with
    | false => cases hl; obtain ⟨h1, a, h2, h3⟩ := hst; exact ⟨k2.trans h1, a, k1.trans h2, h3⟩
    | true => cases hl
  | succ fuel ih =>
    unfold loopMem at hl
    obtain ⟨k1, k2⟩ := checkContinue_keeps E st
    generalize checkContinue E st = c at hl k1 k2
    obtain ⟨b, st1⟩ := c
    have h1 : Frozen phi H st1 := by obtain ⟨h1, a, h2, h3⟩ := hst; exact ⟨k2.trans h1, a, k1.trans h2, h3⟩
    cases b with
    | false => cases hl; exact h1
    | true =>
      simp only at hl
      split at hl
      · cases hl
      · rename_i st2 old2 h2 hit
        exact ih _ _ _ (iterateMem_frozen E hres M hM phi H st1 old h h1 _ _ _ hit) hl

/-- **C76, quasi-Newton methods**: with an objective that fills the same gradient array in every call, a Broyden-class approximation (BFGS, DFP)
with the curvature check never changes: the Hessian returned is the one the run started from. -/
theorem C76_frozen (E : Env Num n) (hres : E.resfun = false) (M : Memory Num n) (hM : OneGradient M) (phi : Num) (a0 : IterApprox Num n)
    (hs : a0.scheme = .broyden phi true) (st0 : St Num n) (hh : st0.happ = some (.iter a0)) (v : PyVal Num) (H : Mat Num n n) (hv : StartMatrix v H)
    (fuel : ℕ) (x0 : Vec Num n) (startId : String) (st : St Num n) (hrun : minimizeMem E M fuel x0 startId (.val v) st0 = .ok st) :
    st.hess = H := by
  rw [minimizeMem_eq] at hrun
  split at hrun
  · cases hrun
  generalize hb : checkInBounds E (startState E x0 startId st0).x (startState E x0 startId st0) = cb at hrun
  cases cb with
  | error e => cases hrun
  | ok st1 =>
  obtain ⟨rfl, -⟩ := checkInBounds_ok _ _ _ _ hb
  simp only at hrun
  split at hrun
  · cases hrun
  rename_i st2 fo h hset
  split at hrun
  · cases hrun
  rename_i st3 hl
  have hF : Frozen phi H st2 := by
    unfold setupMem at hset
    simp only at hset
    split at hset
    · cases hset
    rename_i st4 fo4 hset'
    obtain ⟨raw, happ, -, hi, -, -, -, -, -, rfl⟩ := setup_ok _ _ _ _ _ hset'
    obtain ⟨x, i, f, g, hfr⟩ := setupState_frame (startState E x0 startId st0) fo4 happ
    cases hset
    have hhs : (startState E x0 startId st0).happ = some (.iter a0) := hh
    rw [hhs] at hi
    simp only [initialHapp] at hi
    split at hi
    · cases hi
    rename_i a1 hi1
    cases hi
    have : a1 = .iter { a0 with hess := H, diff := mzero } := by
      unfold initHapp at hi1
      split at hi1
      · cases hi1
      rcases hv with ⟨rfl, rfl⟩ | ⟨hv1, hv2⟩
      · cases hi1; rfl
      · split at hi1
        · exact absurd rfl hv1
        · rw [hv2] at hi1
          cases hi1; rfl
    subst this
    rw [hfr]
    exact ⟨rfl, _, rfl, hs, rfl⟩
  have hF3 := loopMem_frozen E hres M hM phi H fuel st2 fo h hF st3 hl
  unfold writeHistory at hrun
  split at hrun
  · split at hrun
    · cases hrun
    · cases hrun; exact hF3.1
  · cases hrun; exact hF3.1


end

section
variable {F : Type} [FloatOps F] [LawfulFloat F] {n : ℕ}

theorem updateTrRadius_grads (E : Env F n) (fo : Funout F n) (step : Step F n) (dv : Vec F n) (st : St F n) (g gm : Vec F n) :
    updateTrRadius E fo step dv { st with grad := g, gradMin := gm } =
      ((updateTrRadius E fo step dv st).1, { (updateTrRadius E fo step dv st).2 with grad := g, gradMin := gm }) := by
  unfold updateTrRadius
  simp only
  cases isFinite fo.fval
  · rfl
  · generalize (if le (-step.qpval) (lit 0) = true then (lit 0 : F) else _) = r
    simp only [Bool.not_true, Bool.false_eq_true, if_false]
    cases (le E.opts.eta r && !lt (Fides.norm (vadd step.ss step.ss0)) (st.deltaIter * lit (9 / 10)))
    · cases le r E.opts.mu
      · cases (lt E.opts.mu r && lt r E.opts.eta) <;> rfl
      · rfl
    · rfl

theorem checkConvergence_grads (E : Env F n) (step : Step F n) (fo : Funout F n) (st : St F n) (g gm : Vec F n) :
    checkConvergence E step fo { st with grad := g, gradMin := gm } = { checkConvergence E step fo st with grad := g, gradMin := gm } := by
  unfold checkConvergence
  simp only
  split_ifs <;> rfl

theorem trackMinimum_grads (fo : Funout F n) (st : St F n) (g gm : Vec F n) :
    ∃ gm', trackMinimum fo { st with grad := g, gradMin := gm } = { trackMinimum fo st with grad := g, gradMin := gm' } := by
  unfold trackMinimum
  simp only
  split_ifs
  · exact ⟨_, rfl⟩
  · exact ⟨gm, rfl⟩

theorem writeGrads_form (E : Env F n) (M : Memory F n) (k : ℕ) (new : Funout F n) (h : Held) (st : St F n) :
    ∃ g gm, writeGrads E M k new h st = { st with grad := g, gradMin := gm } := by
  unfold writeGrads
  split
  · exact ⟨st.grad, st.gradMin, rfl⟩
  · exact ⟨_, _, rfl⟩

/-- up to the decision about the step the two passes differ in the gradients only -/
theorem mem_form (E : Env F n) (M : Memory F n) (harg : ∀ k x, M.arg k x = x) (st : St F n) (gm0 : Vec F n) (h : Held) (step : Step F n) (new : Funout F n)
    (ht : trialOut E st step = .ok new) :
    memNew M { st with gradMin := gm0 } step new = new ∧ (memRadius E M { st with gradMin := gm0 } h step new).1 = (radiusStep E st step new).1 ∧
      ∃ g gm, memPost E M { st with gradMin := gm0 } h step new = { postCheck E st step new with grad := g, gradMin := gm } := by
  have hn : memNew M { st with gradMin := gm0 } step new = new := by
    unfold memNew
    rw [harg]
    have := (evaluate_x _ _ _ _ _ ht).1
    show ({ new with x := trialPoint st step } : Funout F n) = new
    rw [← this]
  obtain ⟨g, gm, ha⟩ := writeGrads_form E M st.evals.length new h (afterEval { st with gradMin := gm0 } step (.ok new))
  have ha' : writeGrads E M st.evals.length new h (afterEval { st with gradMin := gm0 } step (.ok new)) =
    { afterEval st step (.ok new) with grad := g, gradMin := gm } := ha
  have hr : memRadius E M { st with gradMin := gm0 } h step new =
      ((radiusStep E st step new).1, { (radiusStep E st step new).2 with grad := g, gradMin := gm }) := by
    unfold memRadius memAfter
    rw [ha', hn, updateTrRadius_grads]
    rfl
  refine ⟨hn, by rw [hr], ?_⟩
  unfold memPost
  rw [hn, hr, checkConvergence_grads]
  obtain ⟨gm', h'⟩ := trackMinimum_grads new (checkConvergence E step new (radiusStep E st step new).2) g gm
  exact ⟨g, gm', h'⟩

/-- the passes agree when the step is accepted and the objective returns Hessians, up to the gradient at the best point -/
theorem update_grads (E : Env F n) (step : Step F n) (new old old' : Funout F n) (st : St F n) (hh : st.happ = none) (g gm : Vec F n) (st4 : St F n)
    (hu : update E step new old st = .ok st4) :
    update E step new old' { st with grad := g, gradMin := gm } = .ok { st4 with gradMin := gm } := by
  unfold update at hu ⊢
  simp only [hh] at hu ⊢
  cases hm : new.hess with
  | none => rw [hm] at hu; cases hu
  | some hm' =>
    rw [hm] at hu
    simp only [checkInBounds] at hu ⊢
    split at hu
    · cases hu
    · rename_i st2 hst2
      split at hst2
      · rename_i hb
        cases hst2
        cases hu
        rw [if_pos hb]
        rfl
      · cases hst2

theorem historyRow_gradMin (E : Env F n) (acc : Bool) (step : Step F n) (fo : Funout F n) (th : F) (sh : Mat F n n) (st : St F n) (gm : Vec F n) :
    historyRow E acc step fo th sh { st with gradMin := gm } = historyRow E acc step fo th sh st := rfl

theorem checkContinue_gradMin (E : Env F n) (st : St F n) (gm : Vec F n) :
    checkContinue E { st with gradMin := gm } = ((checkContinue E st).1, { (checkContinue E st).2 with gradMin := gm }) := by
  unfold checkContinue
  simp only
  split_ifs <;> rfl

theorem iterateMem_accepted (E : Env F n) (M : Memory F n) (harg : ∀ k x, M.arg k x = x) (st : St F n) (old : Funout F n) (hh : st.happ = none)
    (gm : Vec F n) (old' : Funout F n) (h : Held) (st' : St F n) (new : Funout F n) (hne : old.xId ≠ st.nextId)
    (hit : iterate E st old = .ok (st', new)) (hx : new.xId = st.nextId) :
    ∃ gm' old'' h', iterateMem E M { st with gradMin := gm } old' h = .ok ({ st' with gradMin := gm' }, old'', h') := by
  obtain ⟨step, new', hist, hf, htr, hout, hx', hid, hfn, hdis⟩ := iterate_ok _ _ _ _ _ hit
  rcases hdis with ⟨hacc, rfl, st4, hu, hhist, rfl⟩ | ⟨-, rfl, -⟩
  swap
  · exact absurd hx hne
  obtain ⟨hn, hr, g, gm1, hp⟩ := mem_form E M harg st gm h step new hout
  have hpc : (postCheck E st step new).happ = none := by
    obtain ⟨r', d', i', m', ef, c, mx, mxi, mf, mg, hpf⟩ := postCheck_frame E st step new
    rw [hpf]; exact hh
  have hu' := update_grads E step new old (writeRes M st.evals.length new h old') (postCheck E st step new) hpc g gm1 st4 hu
  rw [iterateMem_eq]
  have hf' : allFinite ({ st with gradMin := gm } : St F n).fval ({ st with gradMin := gm } : St F n).grad
    (some ({ st with gradMin := gm } : St F n).hess) = true := hf
  have htr' : E.tr ({ st with gradMin := gm } : St F n).proposals (trInput E (preIter { st with gradMin := gm })) = .ok step := htr
  have hout' : trialOut E { st with gradMin := gm } step = .ok new := hout
  rw [if_pos hf', htr']
  simp only [hout']
  rw [if_neg (by
    cases hb : isFinite new.fval
    · simp
    · simp [hfn hb])]
  unfold memFinish
  simp only [hn, hr, hacc, if_true, hp]
  have hu2 : update E step new (writeRes M ({ st with gradMin := gm } : St F n).evals.length new h old')
    { postCheck E st step new with grad := g, gradMin := gm1 } = .ok { st4 with gradMin := gm1 } := hu'
  rw [hu2]
  simp only
  rcases hhist with ⟨ho, rfl⟩ | ⟨ho, row, hrow, rfl⟩
  swap
  · rw [if_pos ho, historyRow_gradMin]
    have hrow' : historyRow E true step new (trInput E (preIter { st with gradMin := gm })).theta
      (trInput E (preIter { st with gradMin := gm })).prob.shess st4 = .ok row := hrow
    rw [hrow']
    exact ⟨_, _, _, rfl⟩
  · rw [if_neg (by simp [ho])]
    exact ⟨_, _, _, rfl⟩

theorem loopMem_accepted (E : Env F n) (M : Memory F n) (harg : ∀ k x, M.arg k x = x) (x0 : Vec F n) (startId : String) (hess0 : Hess0 F) (st0 : St F n)
    (hh : st0.happ = none)
    (hacc : ∀ k prev cur step new next cur', LoopHead E x0 startId hess0 st0 k prev cur → Pass E prev cur step new next cur' → cur' = new)
    (fuel k : ℕ) (st : St F n) (cur : Funout F n) (hhd : LoopHead E x0 startId hess0 st0 k st cur) (gm : Vec F n) (old : Funout F n) (h : Held)
    (stF : St F n) (hl : loop E fuel st cur = .ok stF) :
    ∃ gm', loopMem E M fuel { st with gradMin := gm } old h = .ok { stF with gradMin := gm' } := by
  induction fuel generalizing k st cur gm old h with
  | zero =>
    unfold loop at hl
    unfold loopMem
    rw [checkContinue_gradMin]
    generalize checkContinue E st = c at hl
    obtain ⟨b, st1⟩ := c
    cases b with
    | false => cases hl; exact ⟨_, rfl⟩
    | true => cases hl
  | succ fuel ih =>
    unfold loop at hl
    unfold loopMem
    rw [checkContinue_gradMin]
    generalize hc : checkContinue E st = c at hl
    obtain ⟨b, st1⟩ := c
    cases b with
    | false => cases hl; exact ⟨_, rfl⟩
    | true =>
      simp only at hl ⊢
      split at hl
      · cases hl
      rename_i st2 cur2 hit
      have hnext := LoopHead.next k st st1 st2 cur cur2 hhd hc hit
      obtain ⟨prev, cur0, step, new, h1, hp⟩ := loopHead_pass _ _ _ _ _ _ _ _ hnext
      obtain ⟨rfl, rfl⟩ := loopHead_unique _ _ _ _ _ _ _ _ _ _ hhd h1
      have hinv := headInv _ _ _ _ _ _ _ _ hhd
      have hfacts := pass_facts _ _ _ _ _ _ _ hp
      have hcur := hacc _ _ _ _ _ _ _ hhd hp
      subst hcur
      obtain ⟨rfl, -⟩ := checkContinue_true _ _ _ hc
      obtain ⟨gm', old'', h', hm⟩ := iterateMem_accepted E M harg { st with ticks := st.ticks + 1 } cur (hinv.happ.mpr hh) gm old h st2 cur2
        (by show cur.xId ≠ st.nextId; rw [← hinv.xId]; exact Nat.ne_of_lt hinv.idLt) hit hfacts.newId
      have hm' : iterateMem E M { ({ st with ticks := st.ticks + 1 } : St F n) with gradMin := gm } old h = _ := hm
      rw [hm']
      exact ih _ _ _ hnext _ _ _ hl

/-- **C76, what holds when arrays are reused**: if no Hessian approximation is used, the objective leaves its argument alone and every step of the run is
accepted, then it does not matter which arrays the objective returns: `minimize` ends in the same state, except perhaps for `grad_min`. -/
theorem C76_accepted_partial (E : Env F n) (M : Memory F n) (harg : ∀ k x, M.arg k x = x) (x0 : Vec F n) (startId : String) (hess0 : Hess0 F) (st0 : St F n)
    (hh : st0.happ = none)
    (hacc : ∀ k prev cur step new next cur', LoopHead E x0 startId hess0 st0 k prev cur → Pass E prev cur step new next cur' → cur' = new)
    (fuel : ℕ) (st : St F n) (hrun : minimize E fuel x0 startId hess0 st0 = .ok st) :
    ∃ gm, minimizeMem E M fuel x0 startId hess0 st0 = .ok { st with gradMin := gm } := by
  rw [minimizeMem_eq]
  rw [minimize_split] at hrun
  split at hrun
  · cases hrun
  rename_i hn
  rw [if_neg hn]
  generalize hb : checkInBounds E (startState E x0 startId st0).x (startState E x0 startId st0) = cb at hrun ⊢
  cases cb with
  | error e => cases hrun
  | ok st1 =>
  simp only at hrun ⊢
  have hid : st1.xMinId = st1.xId → st1.xMin = st1.x := by
    obtain ⟨rfl, -⟩ := checkInBounds_ok _ _ _ _ hb
    intro h
    exact if_pos h
  generalize hs : setup E hess0 st1 = sr at hrun
  cases sr with
  | error e => cases hrun
  | ok p =>
    obtain ⟨st2, fo⟩ := p
    obtain ⟨h1, -⟩ := setupMem_plain E M harg hess0 st1 hid _ _ hs
    simp only at hrun
    rw [h1]
    simp only
    split at hrun
    · cases hrun
    rename_i st3 hl
    obtain ⟨gm', hm⟩ := loopMem_accepted E M harg x0 startId hess0 st0 hh hacc fuel 0 st2 fo (.start st1 st2 fo hb hs) st2.gradMin fo
      { current := st1.evals.length, best := st1.evals.length } st3 hl
    have hm' : loopMem E M fuel st2 fo { current := st1.evals.length, best := st1.evals.length } = _ := hm
    rw [hm']
    simp only
    unfold writeHistory at hrun ⊢
    split at hrun
    · rename_i ho
      rw [if_pos ho]
      split at hrun
      · cases hrun
      · rename_i hf
        rw [if_neg hf]
        cases hrun
        exact ⟨gm', rfl⟩
    · rename_i ho
      rw [if_neg ho]
      cases hrun
      exact ⟨gm', rfl⟩

/-- **C76 for the argument**: an objective that modifies the array it is given changes the point that `minimize` returns: a run that stops before the first
step returns whatever the objective left in the array, together with the value and the gradient at the starting point. -/
theorem C76_argument (E : Env F n) (M : Memory F n) (x0 : Vec F n) (startId : String) (hess0 : Hess0 F) (st0 : St F n) (st : St F n)
    (hrun : minimize E 0 x0 startId hess0 st0 = .ok st) :
    ∃ st', minimizeMem E M 0 x0 startId hess0 st0 = .ok st' ∧ st'.x = M.arg st0.evals.length st.x ∧ st'.fval = st.fval ∧ st'.grad = st.grad := by
  rw [minimizeMem_eq]
  rw [minimize_split] at hrun
  split at hrun
  · cases hrun
  rename_i hn
  rw [if_neg hn]
  generalize hb : checkInBounds E (startState E x0 startId st0).x (startState E x0 startId st0) = cb at hrun ⊢
  cases cb with
  | error e => cases hrun
  | ok st1 =>
  simp only at hrun ⊢
  have hev : st1.evals = st0.evals := by
    obtain ⟨rfl, -⟩ := checkInBounds_ok _ _ _ _ hb
    rfl
  unfold setupMem
  generalize hs : setup E hess0 st1 = sr at hrun ⊢
  cases sr with
  | error e => cases hrun
  | ok p =>
    obtain ⟨st2, fo⟩ := p
    simp only at hrun ⊢
    unfold loop at hrun
    unfold loopMem
    have hcx : ∀ y z, checkContinue E { st2 with x := y, xMin := z } = ((checkContinue E st2).1, { (checkContinue E st2).2 with x := y, xMin := z }) := by
      intro y z
      unfold checkContinue
      simp only
      split_ifs <;> rfl
    have hkeep : (checkContinue E st2).2.x = st2.x := by
      unfold checkContinue
      simp only
      split_ifs <;> rfl
    rw [hcx]
    generalize checkContinue E st2 = c at hrun hkeep ⊢
    obtain ⟨b, st3⟩ := c
    cases b with
    | true => cases hrun
    | false =>
      simp only at hrun hkeep ⊢
      rw [← hev]
      unfold writeHistory at hrun ⊢
      split at hrun
      · rename_i ho
        rw [if_pos ho]
        split at hrun
        · cases hrun
        · rename_i hf
          rw [if_neg hf]
          cases hrun
          exact ⟨_, rfl, by rw [← hkeep], rfl, rfl⟩
      · rename_i ho
        rw [if_neg ho]
        cases hrun
        exact ⟨_, rfl, by rw [← hkeep], rfl, rfl⟩

end

end Fides
