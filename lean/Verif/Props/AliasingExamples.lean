import Verif.Props.Aliasing
import Verif.Props.Witnesses
import Verif.Lemmas.BfgsDemo

/-!
# Cases that meet the hypotheses of C76
-/

set_option linter.unusedSectionVars false

namespace Fides
open Spec Num

/-- C76_fresh: an objective with new arrays in every call -/
example : FreshArrays ({ grad := id, res := id, sres := id, arg := fun _ x => x } : Memory Num 2) :=
  ⟨fun _ _ h => h, fun _ _ h => h, fun _ _ h => h, fun _ _ => rfl⟩

/-- the pass of `pass_facts` is determined -/
theorem pass_unique {E : Env Num 1} {prev next next' : St Num 1} {cur cur' cur'' : Funout Num 1} {step step' : Step Num 1} {new new' : Funout Num 1}
    (h : Pass E prev cur step new next cur') (h' : Pass E prev cur step' new' next' cur'') : new' = new ∧ next' = next ∧ cur'' = cur' := by
  have h1 := h.body.symm.trans h'.body
  cases h1
  have h2 := h.evaluated.symm.trans h'.evaluated
  have h3 := (List.cons.inj h2).1
  injection h3 with _ h4
  injection h4 with h5
  exact ⟨h5.symm, rfl, rfl⟩

/-- C76_accepted_partial: a run that accepts its only step, to the minimum, and returns with GTOL -/
example : demoSt0.happ = none ∧
    (∀ k prev cur step new next cur', LoopHead (demoEnv (1 / 100000000) (fin 0) (fin 0)) (v1 1) "run" .hessStr demoSt0 k prev cur →
      Pass (demoEnv (1 / 100000000) (fin 0) (fin 0)) prev cur step new next cur' → cur' = new) ∧
    ∃ st, minimize (demoEnv (1 / 100000000) (fin 0) (fin 0)) 1 (v1 1) "run" .hessStr demoSt0 = .ok st ∧ st.x = v1 0 ∧ st.iteration = 1 := by
  obtain ⟨st', h1, -, h3, h4, h5, -, step, k, next, cur', hp, rfl⟩ := demo_run_gen (1 / 100000000) 0 0 .gtol
    (demo_gtol _ _ _ (by norm_num) (by norm_num [abs_of_neg])) demoSt0 rfl 0
  refine ⟨rfl, ?_, _, h1, (h5 (by norm_num)).1, h4⟩
  have hstart := demo_start (1 / 100000000) (fin 0) (fin 0) demoSt0 rfl
  intro j prev cur step1 new next1 cur1 hh hp1
  rcases j with _ | j
  · obtain ⟨rfl, rfl⟩ := loopHead_unique _ _ _ _ _ _ _ _ _ _ hh hstart
    obtain ⟨rfl, rfl, rfl⟩ := pass_unique hp hp1
    rcases (pass_facts _ _ _ _ _ _ _ hp).cases with ⟨-, h, -⟩ | ⟨-, -, h, -⟩
    · exact h
    · obtain ⟨-, -, -, hx, -⟩ := demo_frame (1 / 100000000) (fin 0) (fin 0) demoSt0
      rw [(h5 (by norm_num)).1] at h
      exact absurd (h.trans hx) v1_ne
  · exfalso
    obtain ⟨s1, c1, hh1⟩ := loopHead_prefix _ _ _ _ _ _ _ _ hh 1 (by omega)
    have hconv : s1.converged = true ∧ ∀ s2 c2, ¬ LoopHead (demoEnv (1 / 100000000) (fin 0) (fin 0)) (v1 1) "run" .hessStr demoSt0 2 s2 c2 := by
      obtain ⟨p, c0, stp, nw, hp0, hpp⟩ := loopHead_pass _ _ _ _ _ _ _ _ hh1
      obtain ⟨rfl, rfl⟩ := loopHead_unique _ _ _ _ _ _ _ _ _ _ hp0 hstart
      obtain ⟨rfl, rfl, rfl⟩ := pass_unique hp hpp
      refine ⟨h3, fun s2 c2 h2 => ?_⟩
      obtain ⟨p', c0', stp', nw', hp0', hpp'⟩ := loopHead_pass _ _ _ _ _ _ _ _ h2
      obtain ⟨rfl, rfl⟩ := loopHead_unique _ _ _ _ _ _ _ _ _ _ hp0' hh1
      have := (checkContinue_true _ _ _ hpp'.continues).2.1
      rw [h3] at this; cases this
    rcases j with _ | j
    · obtain ⟨rfl, rfl⟩ := loopHead_unique _ _ _ _ _ _ _ _ _ _ hh hh1
      have := (checkContinue_true _ _ _ hp1.continues).2.1
      rw [hconv.1] at this; cases this
    · obtain ⟨s2, c2, hh2⟩ := loopHead_prefix _ _ _ _ _ _ _ _ hh 2 (by omega)
      exact hconv.2 _ _ hh2

/-- C76_argument: a run that stops before the first step, and an objective that writes 7 to its argument -/
example : ∃ st, minimize fixEnv 0 (v1 1) "run" .hessStr demoSt0 = .ok st ∧ st.x = v1 1 ∧
    ∃ st', minimizeMem fixEnv { grad := id, res := id, sres := id, arg := fun _ _ => v1 7 } 0 (v1 1) "run" .hessStr demoSt0 = .ok st' ∧ st'.x = v1 7 := by
  have hbox : InBox fixEnv.lb fixEnv.ub (fun _ : Fin 1 => (1 : ℝ)) := fun i => by simp [InBox1, fixEnv]
  have hx : (startState fixEnv (v1 1) "run" demoSt0).x = v1 1 := by
    obtain ⟨r', h1, h2, _⟩ := nudge_spec _ _ _ hbox
    show nudge fixEnv.lb fixEnv.ub (ofV fun _ => 1) = _
    rw [h1]
    apply v1_eq
    rw [ofV_apply, inBox1_fixed (h2 0)]
  have hb : inBounds fixEnv.lb fixEnv.ub (v1 1) = true := inBounds_real _ _ _ hbox
  have hset := setup_forward fixEnv .hessStr (startState fixEnv (v1 1) "run" demoSt0)
    { fval := .scalar (fin (1 / 2)), grad := .arr [1] [fin 1], hess := .arr [1, 1] [fin 1], res := .none, sres := .none } none
    (demoFirst (startState fixEnv (v1 1) "run" demoSt0).xId)
    (by rw [hx]; simp [fixEnv, demoEnv, funEval]) rfl rfl (by rw [hx, typed_one]; rfl) (by simp [demoFirst, allFinite, vfinite, mfinite, v1])
  have hhead : LoopHead fixEnv (v1 1) "run" .hessStr demoSt0 0 _ _ := LoopHead.start (startState fixEnv (v1 1) "run" demoSt0) _ _
    (by rw [hx, checkInBounds, if_pos hb]) hset
  have hstop : ∃ s, checkContinue fixEnv { setupState (startState fixEnv (v1 1) "run" demoSt0) (demoFirst (startState fixEnv (v1 1) "run" demoSt0).xId) none with
      converged := false } = (false, s) ∧ s.x = v1 1 := by
    unfold checkContinue
    have : fixEnv.opts.maxiter = 0 := rfl
    obtain ⟨a, b, c, d, hfr⟩ := setupState_frame (startState fixEnv (v1 1) "run" demoSt0) (demoFirst (startState fixEnv (v1 1) "run" demoSt0).xId) none
    simp only [Bool.false_eq_true, if_false, this]
    rw [if_pos (by simp)]
    exact ⟨_, rfl, by rw [hfr]; exact hx⟩
  obtain ⟨s, hs, hsx⟩ := hstop
  have hm := minimize_of_head fixEnv (v1 1) "run" .hessStr demoSt0 _ _ _ 0 (by decide) hhead (loop_stop _ _ _ _ _ hs)
  have hrun : minimize fixEnv 0 (v1 1) "run" .hessStr demoSt0 = .ok s := by
    refine hm.trans ?_
    unfold writeHistory
    have : fixEnv.opts.history = false := by show (resolveOpts [] : Opts Num).history = _; rw [demo_opts]
    simp [this]
  obtain ⟨st', h1, h2, -⟩ := C76_argument fixEnv { grad := id, res := id, sres := id, arg := fun _ _ => v1 7 } _ _ _ _ _ hrun
  exact ⟨s, hrun, hsx, st', h1, h2⟩

/-- C76_frozen: with BFGS and one gradient array, a run that accepts a step returns the identity; with a new array for every gradient it
returns the Hessian 2 -/
example (M : Memory Num 1) (hM : OneGradient M) : bfgsEnv.resfun = false ∧ bfgsSt0.happ = some (.iter (IterApprox.new .bfgs)) ∧
    (IterApprox.new (F := Num) (n := 1) .bfgs).scheme = .broyden (fin 0) true ∧ StartMatrix (F := Num) (n := 1) .none meye ∧
    (∃ st, minimize bfgsEnv 1 (v1 1) "run" (.val .none) bfgsSt0 = .ok st ∧ st.x = v1 0 ∧ st.hess = fun _ _ => fin 2) ∧
    ∃ st, minimizeMem bfgsEnv M 1 (v1 1) "run" (.val .none) bfgsSt0 = .ok st ∧ st.x = v1 0 ∧ st.hess = fun _ _ => fin 1 := by
  have hsch : (IterApprox.new (F := Num) (n := 1) .bfgs).scheme = .broyden (fin 0) true := by
    simp [IterApprox.new, IterScheme.bfgs]
  refine ⟨rfl, rfl, hsch, Or.inl ⟨rfl, rfl⟩, ?_⟩
  obtain ⟨step, new, next, cur', ⟨hp, hf, hhs, hpf, hap, hnx, hng, hpg, hpx⟩, hconv⟩ := qn_pass_full (-1) .bfgs
  obtain ⟨step0, new0, next0, cur0, hp0, -, hh0, -⟩ := bfgs_pass
  obtain ⟨-, rfl, -⟩ := pass_unique hp hp0
  have hhist : bfgsEnv.opts.history = false := by show (resolveOpts [] : Opts Num).history = _; rw [demo_opts]
  have hstop : ∀ s : St Num 1, s.converged = true → checkContinue bfgsEnv s = (false, s) := by
    intro s hs; unfold checkContinue; rw [if_pos hs]
  have hnud : nudge bfgsEnv.lb bfgsEnv.ub (v1 0) = v1 0 := demo_nudge 1 (fin 0) (fin (-1)) 0
  have hstart := bfgs_start
  have hc := hp.continues
  have hb := hp.body
  constructor
  · refine ⟨next0, ?_, ?_, hh0⟩
    · rw [minimize_of_head bfgsEnv (v1 1) "run" _ bfgsSt0 _ next0 _ 1 one_ne_zero hstart ?_]
      · simp [writeHistory, hhist]
      · rw [loop.eq_def]
        have hc' : checkContinue bfgsEnv bfgsHead = (true, { bfgsHead with ticks := bfgsHead.ticks + 1 }) := hc
        have hb' : iterate bfgsEnv { bfgsHead with ticks := bfgsHead.ticks + 1 } bfgsFirst = .ok (next0, cur') := hb
        simp only [hc', hb']
        exact loop_stop _ _ _ _ _ (hstop _ hconv)
    · rcases (pass_facts _ _ _ _ _ _ _ hp).cases with ⟨-, -, -, h, -⟩ | ⟨-, -, -, h, -⟩
      · rw [h, hnx]; exact hnud
      · rw [hf, hpf] at h
        exact absurd (Num.fin.inj h) (by norm_num)
  · obtain ⟨step', new', hist, hfin, htr, hout, hx', hid, hfn, hdis⟩ := iterate_ok _ _ _ _ _ hb
    rcases hdis with ⟨hacc, rfl, st4, hu, hhst, hst⟩ | ⟨-, -, -, hst⟩
    swap
    · obtain ⟨r', d', i', m', ef, c, mx, mxi, mf, mg, hpc⟩ := postCheck_frame (qnEnv (-1)) { qnHead (-1) .bfgs with ticks := (qnHead (-1) .bfgs).ticks + 1 } step' new'
      rw [hpc] at hst
      rw [hst] at hf
      exact absurd (Num.fin.inj (hf.symm.trans hpf)) (by norm_num)
    obtain ⟨hinb, happ4, hess4, -, hst4⟩ := update_ok _ _ _ _ _ _ hu
    have hnx' : cur'.x = v1 0 := by
      have := hst
      have h1 : next0.x = nudge bfgsEnv.lb bfgsEnv.ub cur'.x := by
        rw [hst]; show st4.x = _; rw [hst4]; rfl
      rcases (pass_facts _ _ _ _ _ _ _ hp).cases with ⟨-, h, -⟩ | ⟨-, -, -, h, -⟩
      · rw [h]; exact hnx
      · rw [hf, hpf] at h
        exact absurd (Num.fin.inj h) (by norm_num)
    have hcv : (postCheck (qnEnv (-1)) { qnHead (-1) .bfgs with ticks := (qnHead (-1) .bfgs).ticks + 1 } step' cur').converged = true := by
      rw [hst] at hconv
      have h2 : st4.converged = true := hconv
      rw [hst4] at h2
      exact h2
    have hpa : (postCheck (qnEnv (-1)) { qnHead (-1) .bfgs with ticks := (qnHead (-1) .bfgs).ticks + 1 } step' cur').happ = some (qnInit .bfgs) := by
      obtain ⟨r', d', i', m', ef, c, mx, mxi, mf, mg, hpc⟩ := postCheck_frame (qnEnv (-1)) { qnHead (-1) .bfgs with ticks := (qnHead (-1) .bfgs).ticks + 1 } step' cur'
      rw [hpc]; exact hap
    have hmem : ∀ h : Held, ∃ s o h', iterateMem bfgsEnv M { bfgsHead with ticks := bfgsHead.ticks + 1 } bfgsFirst h = .ok (s, o, h') ∧ s.converged = true ∧
        s.x = v1 0 := by
      intro h
      obtain ⟨hn, hr, g, gm, hpo⟩ := mem_form (qnEnv (-1)) M hM.2 { qnHead (-1) .bfgs with ticks := (qnHead (-1) .bfgs).ticks + 1 } (qnHead (-1) .bfgs).gradMin h
        step' cur' hout
      have e1 : iterateMem bfgsEnv M { bfgsHead with ticks := bfgsHead.ticks + 1 } bfgsFirst h = iterateMem (qnEnv (-1)) M
          { ({ qnHead (-1) .bfgs with ticks := (qnHead (-1) .bfgs).ticks + 1 } : St Num 1) with gradMin := (qnHead (-1) .bfgs).gradMin } (qnFirst (-1) .bfgs) h := rfl
      rw [e1, iterateMem_eq]
      have hfin' : allFinite ({ ({ qnHead (-1) .bfgs with ticks := (qnHead (-1) .bfgs).ticks + 1 } : St Num 1) with gradMin := (qnHead (-1) .bfgs).gradMin } : St Num 1).fval
        ({ ({ qnHead (-1) .bfgs with ticks := (qnHead (-1) .bfgs).ticks + 1 } : St Num 1) with gradMin := (qnHead (-1) .bfgs).gradMin } : St Num 1).grad
        (some ({ ({ qnHead (-1) .bfgs with ticks := (qnHead (-1) .bfgs).ticks + 1 } : St Num 1) with gradMin := (qnHead (-1) .bfgs).gradMin } : St Num 1).hess) = true := hfin
      rw [if_pos hfin']
      have htr' : (qnEnv (-1)).tr ({ ({ qnHead (-1) .bfgs with ticks := (qnHead (-1) .bfgs).ticks + 1 } : St Num 1) with gradMin := (qnHead (-1) .bfgs).gradMin } : St Num 1).proposals
        (trInput (qnEnv (-1)) (preIter ({ ({ qnHead (-1) .bfgs with ticks := (qnHead (-1) .bfgs).ticks + 1 } : St Num 1) with gradMin := (qnHead (-1) .bfgs).gradMin }))) = .ok step' := htr
      have hout' : trialOut (qnEnv (-1)) ({ ({ qnHead (-1) .bfgs with ticks := (qnHead (-1) .bfgs).ticks + 1 } : St Num 1) with gradMin := (qnHead (-1) .bfgs).gradMin }) step' = .ok cur' := hout
      rw [htr']
      simp only [hout']
      rw [if_neg (by
        cases hb : isFinite cur'.fval
        · simp
        · simp [hfn hb])]
      unfold memFinish
      have hh' : (qnEnv (-1)).opts.history = false := hhist
      simp only [hn, hr, hacc, if_true, hpo, update, hpa, qnInit, updateHapp, checkInBounds, hinb, hh', Bool.false_eq_true, if_false]
      refine ⟨_, _, _, rfl, hcv, ?_⟩
      show nudge bfgsEnv.lb bfgsEnv.ub cur'.x = _
      rw [hnx', hnud]
    cases hstart with
    | start st1 _ _ hbnd hset =>
    have hidd : st1.xMinId = st1.xId → st1.xMin = st1.x := by
      obtain ⟨rfl, -⟩ := checkInBounds_ok _ _ _ _ hbnd
      intro h
      exact if_pos h
    obtain ⟨hm1, -⟩ := setupMem_plain _ M hM.2 _ st1 hidd _ _ hset
    obtain ⟨s, o, h', hit, hsc, hsx⟩ := hmem { current := st1.evals.length, best := st1.evals.length }
    have hrun : minimizeMem bfgsEnv M 1 (v1 1) "run" (.val .none) bfgsSt0 = .ok s := by
      rw [minimizeMem_eq, if_neg one_ne_zero, hbnd]
      simp only [hm1]
      unfold loopMem
      have hc' : checkContinue bfgsEnv bfgsHead = (true, { bfgsHead with ticks := bfgsHead.ticks + 1 }) := hc
      rw [hc']
      simp only [hit]
      unfold loopMem
      rw [hstop _ hsc]
      simp [writeHistory, hhist]
    refine ⟨s, hrun, hsx, ?_⟩
    rw [C76_frozen bfgsEnv rfl M hM (fin 0) (IterApprox.new .bfgs) hsch bfgsSt0 rfl .none meye (Or.inl ⟨rfl, rfl⟩) 1 (v1 1) "run" s hrun]
    funext i j
    simp [meye, Subsingleton.elim i j]

end Fides
