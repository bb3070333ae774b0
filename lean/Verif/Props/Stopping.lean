import Verif.Lemmas.Stopping
import Verif.Props.Run
import Verif.Props.Start
import Verif.Props.Flags
import Verif.Props.Saddle

/-!
# C72: the stopping options decide when to stop, and nothing else
-/

set_option linter.unusedSectionVars false

namespace Fides
open Spec
variable {F : Type} [FloatOps F] [LawfulFloat F] {n : ℕ} {E E' : Env F n}
variable (x0 : Vec F n) (startId : String) (hess0 : Hess0 F) (st0 : St F n)

/-- **C72, the path.** Two optimizers that differ in `maxiter`, `maxtime`, `fatol`, `frtol`, `xtol`, `gatol`, `grtol` (and in the time they take) go the same way:
if both make `k` iterations, they are then in the same state, with the same calls of the objective, history and Hessian approximation behind them. -/
theorem C72_path (hE : SameButStopping E E') (k : ℕ) (st st' : St F n) (cur cur' : Funout F n) (h : LoopHead E x0 startId hess0 st0 k st cur)
    (h' : LoopHead E' x0 startId hess0 st0 k st' cur') : SamePath st st' ∧ cur' = cur := by
  obtain ⟨h1, h2⟩ := head_core E E' hE x0 startId hess0 st0 k st st' cur cur' h h'
  exact ⟨(samePath_iff st st').mpr h1.symm, h2⟩

theorem samePath_fields {a b : St F n} (h : SamePath a b) : b.x = a.x ∧ b.fval = a.fval ∧ b.grad = a.grad ∧ b.hess = a.hess ∧ b.evals = a.evals ∧
    b.xMin = a.xMin ∧ b.fvalMin = a.fvalMin ∧ b.gradMin = a.gradMin ∧ b.delta = a.delta ∧ b.history = a.history ∧ b.happ = a.happ := by
  rw [h]
  exact ⟨rfl, rfl, rfl, rfl, rfl, rfl, rfl, rfl, rfl, rfl, rfl⟩

/-- along a run, calls accumulate and values do not increase -/
theorem head_extends (E : Env F n) (j k : ℕ) (hjk : j ≤ k) (st : St F n) (cur : Funout F n) (h : LoopHead E x0 startId hess0 st0 k st cur) :
    ∃ st1 cur1 l, LoopHead E x0 startId hess0 st0 j st1 cur1 ∧ st.evals = l ++ st1.evals ∧ l.length = k - j ∧ le st.fval st1.fval = true := by
  induction k generalizing st cur with
  | zero =>
    obtain rfl : j = 0 := by omega
    have hi := headInv E x0 startId hess0 st0 0 st cur h
    have hf := hi.finite
    simp only [allFinite, Bool.and_eq_true] at hf
    exact ⟨st, cur, [], h, rfl, rfl, by rw [hi.fval]; exact LawfulFloat.finite_self _ hf.1.1⟩
  | succ k ih =>
    rcases Nat.lt_or_ge k j with hj | hj
    · obtain rfl : j = k + 1 := by omega
      have hi := headInv E x0 startId hess0 st0 _ st cur h
      have hf := hi.finite
      simp only [allFinite, Bool.and_eq_true] at hf
      exact ⟨st, cur, [], h, rfl, by simp, by rw [hi.fval]; exact LawfulFloat.finite_self _ hf.1.1⟩
    · obtain ⟨prev, cur0, step, new, hh, hp⟩ := loopHead_pass E x0 startId hess0 st0 k st cur h
      obtain ⟨st1, cur1, l, h1, h2, h3, h4⟩ := ih hj prev cur0 hh
      refine ⟨st1, cur1, _ :: l, h1, by rw [hp.evaluated, h2]; rfl, by rw [List.length_cons, h3]; omega, ?_⟩
      rcases C07_decrease E prev st cur0 cur new step hp with ⟨_, _, _, _, h5⟩ | ⟨_, _, h5, _⟩
      · exact LawfulFloat.le_trans _ _ _ (le_of_lt' h5) h4
      · rw [h5]; exact h4

/-- **C72, returned results.** Of two runs that return, the one with at least as many iterations has made the same calls and then possibly more; the value it
returns and the best value it reports are not larger.  With equally many iterations the results are the same. -/
theorem C72_prefix (hE : SameButStopping E E') (fuel fuel' : ℕ) (st st' : St F n) (h : minimize E fuel x0 startId hess0 st0 = .ok st)
    (h' : minimize E' fuel' x0 startId hess0 st0 = .ok st') (hk : st.iteration ≤ st'.iteration) :
    (∃ l, st'.evals = l ++ st.evals ∧ l.length = st'.iteration - st.iteration) ∧ le st'.fval st.fval = true ∧ le st'.fvalMin st.fvalMin = true ∧
      (st.iteration = st'.iteration → st'.x = st.x ∧ st'.fval = st.fval ∧ st'.grad = st.grad ∧ st'.hess = st.hess ∧ st'.xMin = st.xMin ∧
        st'.fvalMin = st.fvalMin ∧ st'.gradMin = st.gradMin ∧ st'.history = st.history) := by
  obtain ⟨l1, b1, e1, hb1, hm1, -, hle1, -⟩ := C05_best E x0 startId hess0 st0 fuel st h
  obtain ⟨l2, b2, e2, hb2, hm2, -, hle2, -⟩ := C05_best E' x0 startId hess0 st0 fuel' st' h'
  obtain ⟨k, s, cur, ef, t, f, -, hh, rfl⟩ := run_end_fields E x0 startId hess0 st0 fuel st h
  obtain ⟨k', s', cur', ef', t', f', -, hh', rfl⟩ := run_end_fields E' x0 startId hess0 st0 fuel' st' h'
  have hi := headInv E x0 startId hess0 st0 k s cur hh
  have hi' := headInv E' x0 startId hess0 st0 k' s' cur' hh'
  have hk' : k ≤ k' := by
    have : s.iteration ≤ s'.iteration := hk
    rw [hi.iteration, hi'.iteration] at this
    exact this
  obtain ⟨s1, c1, l, g1, g2, g3, g4⟩ := head_extends x0 startId hess0 st0 E' k k' hk' s' cur' hh'
  obtain ⟨hp, -⟩ := C72_path x0 startId hess0 st0 hE k s s1 cur c1 hh g1
  obtain ⟨q1, q2, q3, q4, q5, q6, q7, q8, q9, q10, -⟩ := samePath_fields hp
  refine ⟨⟨l, by show s'.evals = _; rw [g2, q5], ?_⟩, ?_, ?_, ?_⟩
  · show l.length = s'.iteration - s.iteration
    rw [g3, hi.iteration, hi'.iteration]
  · show le s'.fval s.fval = true
    rw [← q2]; exact g4
  · have hm : s.fvalMin = b1.fval := hm1
    show le s'.fvalMin s.fvalMin = true
    rw [hm]
    obtain ⟨later, earlier, hl, hf, -⟩ := hb1
    have e3 : l2 = l ++ l1 := by
      have a1 : s.evals = l1 ++ st0.evals := e1
      have a2 : s'.evals = l2 ++ st0.evals := e2
      rw [g2, q5, a1, ← List.append_assoc] at a2
      exact (List.append_cancel_right a2).symm
    refine hle2 { arg := b1.x, out := .ok b1 } ?_ b1 rfl hf
    rw [e3, hl]
    simp
  · intro heq
    have : s.iteration = s'.iteration := heq
    rw [hi.iteration, hi'.iteration] at this
    subst this
    obtain ⟨hp, -⟩ := C72_path x0 startId hess0 st0 hE k s s' cur cur' hh hh'
    obtain ⟨q1, q2, q3, q4, q5, q6, q7, q8, q9, q10, -⟩ := samePath_fields hp
    exact ⟨q1, q2, q3, q4, q6, q7, q8, q10⟩

end Fides

namespace Fides
open Spec Num
variable {n : ℕ} {E E' : Env Num n}

theorem num_tol_mono {x fa fa' fr' : Num} {r a : ℝ} (h1 : le fa' fa = true) (h2 : le fr' (fin r) = true) (ha : 0 ≤ a)
    (h : lt x (fa' + fr' * fin a) = true) : lt x (fa + fin r * fin a) = true := by
  rcases ha.lt_or_eq with hp | rfl
  · cases fr' with
    | fin r' =>
      have hr : r' * a ≤ r * a := mul_le_mul_of_nonneg_right (by simpa using h2) ha
      cases fa' with
      | fin q' =>
        cases fa with
        | fin q =>
          simp only [fin_le, decide_eq_true_eq] at h1
          cases x with
          | fin y => simp only [fin_mul, fin_add, fin_lt, decide_eq_true_eq] at h ⊢; linarith
          | ninf => simp
          | pinf => simp at h
          | nan => simp at h
        | pinf => cases x <;> simp at h ⊢
        | ninf => simp at h1
        | nan => simp at h1
      | pinf => cases fa <;> simp at h1 h ⊢; exact h
      | ninf => simp at h
      | nan => simp at h
    | ninf =>
      rw [ninf_mul_fin, infSign_pos hp] at h
      cases fa' <;> simp at h
    | pinf => simp at h2
    | nan => simp at h2
  · cases fr' with
    | fin r' =>
      simp only [fin_mul, mul_zero] at h ⊢
      cases fa' with
      | fin q' =>
        cases fa with
        | fin q =>
          simp only [fin_le, decide_eq_true_eq] at h1
          cases x with
          | fin y => simp only [fin_add, fin_lt, decide_eq_true_eq] at h ⊢; linarith
          | ninf => simp
          | pinf => simp at h
          | nan => simp at h
        | pinf => cases x <;> simp at h ⊢
        | ninf => simp at h1
        | nan => simp at h1
      | pinf => cases fa <;> simp at h1 h ⊢; exact h
      | ninf => simp at h
      | nan => simp at h
    | ninf => rw [ninf_mul_fin, infSign_zero] at h; simp at h
    | pinf => simp at h2
    | nan => simp at h2

theorem num_rtol_mono {x fr' : Num} {r a : ℝ} (h2 : le fr' (fin r) = true) (ha : 0 ≤ a) (h : le x (fr' * fin a) = true) (hx : x ≠ ninf) : le x (fin r * fin a) = true := by
  rcases ha.lt_or_eq with hp | rfl
  · cases fr' with
    | fin r' =>
      have hr : r' * a ≤ r * a := mul_le_mul_of_nonneg_right (by simpa using h2) ha
      cases x with
      | fin y => simp only [fin_mul, fin_le, decide_eq_true_eq] at h ⊢; linarith
      | ninf => simp
      | pinf => simp at h
      | nan => simp at h
    | ninf =>
      rw [ninf_mul_fin, infSign_pos hp] at h
      cases x <;> simp at h hx
    | pinf => simp at h2
    | nan => simp at h2
  · cases fr' with
    | fin r' => simpa using h
    | ninf => rw [ninf_mul_fin, infSign_zero] at h; simp at h
    | pinf => simp at h2
    | nan => simp at h2

theorem norm_ne_ninf (v : Vec Num n) : norm v ≠ ninf := by
  unfold Fides.norm
  intro h
  cases hs : dot v v with
  | fin a =>
    rw [hs, fin_sqrt_def] at h
    split at h <;> cases h
  | _ => rw [hs] at h; cases h

theorem num_time_mono {mt mt' el av : Num} (h1 : le mt mt' = true) (h : lt (mt' - el) av = true) : lt (mt - el) av = true := by
  cases el with
  | fin e =>
    cases mt' with
    | fin b =>
      cases mt with
      | fin a =>
        simp only [fin_le, decide_eq_true_eq] at h1
        cases av with
        | fin y => simp only [fin_sub, fin_lt, decide_eq_true_eq] at h ⊢; linarith
        | _ => simp at h ⊢
      | ninf => cases av <;> simp at h ⊢
      | pinf => simp at h1
      | nan => simp at h1
    | pinf => simp at h
    | ninf => cases mt <;> simp at h1 h ⊢; exact h
    | nan => simp at h
  | pinf => cases mt' <;> cases mt <;> simp at h1 h ⊢ <;> exact h
  | ninf => cases mt' <;> simp at h
  | nan => simp at h

theorem converged_mono (hE : SameButStopping E E') (hS : Stricter E E') (hfr : ∃ r : ℝ, E.opts.frtol = fin r) (hgr : ∃ r : ℝ, E.opts.grtol = fin r)
    (step : Step Num n) (fo : Funout Num n) (a a' : St Num n) (ha : core a' = core a) (hf : ∃ r : ℝ, a.fval = fin r)
    (h : (checkConvergence E' step fo a').converged = true) : (checkConvergence E step fo a).converged = true := by
  obtain ⟨fr, hfr⟩ := hfr
  obtain ⟨gr, hgr⟩ := hgr
  obtain ⟨f, hf⟩ := hf
  have e1 : a'.trRatio = a.trRatio := (congrArg St.trRatio ha : (core a').trRatio = (core a).trRatio)
  have e2 : a'.fval = a.fval := (congrArg St.fval ha : (core a').fval = (core a).fval)
  have e3 : a'.iteration = a.iteration := (congrArg St.iteration ha : (core a').iteration = (core a).iteration)
  have s4 := hS.frtol
  have s7 := hS.grtol
  rw [hfr] at s4
  rw [hgr] at s7
  unfold checkConvergence at h ⊢
  simp only [e1, e2, e3, hE.mu, hf, hfr, hgr, fin_abs] at h ⊢
  split at h
  · rename_i hc
    simp only [Bool.and_eq_true] at hc
    rw [if_pos]
    simp only [Bool.and_eq_true]
    exact ⟨hc.1, num_tol_mono hS.fatol s4 (abs_nonneg f) hc.2⟩
  · split
    · rfl
    · split at h
      · rename_i hc
        simp only [Bool.and_eq_true] at hc
        rw [if_pos]
        simp only [Bool.and_eq_true]
        exact ⟨hc.1, lt_of_lt_of_le' hc.2 hS.xtol⟩
      · split
        · rfl
        · split at h
          · rename_i hc
            rw [if_pos (LawfulFloat.le_trans _ _ _ hc hS.gatol)]
          · split
            · rfl
            · split at h
              · rename_i hc
                rw [if_pos (num_rtol_mono s7 (abs_nonneg f) hc (norm_ne_ninf _))]
              · cases h

/-- **C72, stricter options.** If the second optimizer has tolerances that are not larger and limits that are not smaller, and both read the same clock, then its
run is not shorter. -/
theorem C72_longer (x0 : Vec Num n) (startId : String) (hess0 : Hess0 Num) (st0 : St Num n) (hE : SameButStopping E E') (hS : Stricter E E')
    (hfr : ∃ r : ℝ, E.opts.frtol = fin r) (hgr : ∃ r : ℝ, E.opts.grtol = fin r) (hclock : E'.clock = E.clock) (fuel fuel' : ℕ) (st st' : St Num n)
    (h : minimize E fuel x0 startId hess0 st0 = .ok st) (h' : minimize E' fuel' x0 startId hess0 st0 = .ok st') : st.iteration ≤ st'.iteration := by
  obtain ⟨k, s, cur, s2, f, -, hh, hc, rfl⟩ := run_end E x0 startId hess0 st0 fuel st h
  obtain ⟨k', s', cur', s2', f', -, hh', hc', rfl⟩ := run_end E' x0 startId hess0 st0 fuel' st' h'
  have hi := headInv E x0 startId hess0 st0 k s cur hh
  have hi' := headInv E' x0 startId hess0 st0 k' s' cur' hh'
  have e2 : s2.iteration = k := by
    rw [← hi.iteration]
    rcases checkContinue_false E s s2 hc with ⟨_, rfl⟩ | ⟨_, _, rfl⟩ | ⟨_, _, _, rfl⟩ | ⟨_, _, _, rfl⟩ <;> rfl
  have e2' : s2'.iteration = k' := by
    rw [← hi'.iteration]
    rcases checkContinue_false E' s' s2' hc' with ⟨_, rfl⟩ | ⟨_, _, rfl⟩ | ⟨_, _, _, rfl⟩ | ⟨_, _, _, rfl⟩ <;> rfl
  show s2.iteration ≤ s2'.iteration
  rw [e2, e2']
  by_contra hlt
  push Not at hlt
  obtain ⟨a, ca, ha⟩ := loopHead_prefix E x0 startId hess0 st0 k s cur hh (k' + 1) hlt
  obtain ⟨p, cp, step, new, hp0, hp⟩ := loopHead_pass E x0 startId hess0 st0 k' a ca ha
  obtain ⟨-, c1, c2, c3, c4⟩ := checkContinue_true E p _ hp.continues
  obtain ⟨hcore, -⟩ := head_core E E' hE x0 startId hess0 st0 k' p s' cp cur' hp0 hh'
  have hip := headInv E x0 startId hess0 st0 k' p cp hp0
  have t1 := head_ticks E x0 startId hess0 st0 k' p cp hp0
  have t2 := head_ticks E' x0 startId hess0 st0 k' s' cur' hh'
  rcases checkContinue_false E' s' s2' hc' with ⟨hv, -⟩ | ⟨_, hm, -⟩ | ⟨_, _, ht, -⟩ | ⟨_, _, hd, -⟩
  · -- converged
    cases k' with
    | zero => rw [loopHead_start_converged E' x0 startId hess0 st0 _ _ hh'] at hv; cases hv
    | succ j =>
      obtain ⟨q, cq, st1, new1, hq0, hq⟩ := loopHead_pass E x0 startId hess0 st0 j p cp hp0
      obtain ⟨q', cq', st1', new1', hq0', hq'⟩ := loopHead_pass E' x0 startId hess0 st0 j s' cur' hh'
      obtain ⟨hcq, -⟩ := head_core E E' hE x0 startId hess0 st0 j q q' cq cq' hq0 hq0'
      have e1 : q'.proposals = q.proposals := (congrArg St.proposals hcq : (core q').proposals = (core q).proposals)
      have hst : st1' = st1 := by
        have a1 := hq.proposal
        have a2 := hq'.proposal
        have hI : ∀ t, trInput E' { q' with iteration := q'.iteration + 1, deltaIter := q'.delta, ticks := t } = trInput E' (preIter (core q')) := fun _ => rfl
        have hJ : ∀ t, trInput E { q with iteration := q.iteration + 1, deltaIter := q.delta, ticks := t } = trInput E (preIter (core q)) := fun _ => rfl
        rw [hI, hcq, hE.tr, e1] at a2
        rw [hJ] at a1
        have hK : trInput E' (preIter (core q)) = trInput E (preIter (core q)) := by
          unfold trInput; rw [hE.lb, hE.ub, hE.thetaMax]
        rw [hK, a1] at a2
        cases a2; rfl
      subst hst
      have hnew : new1' = new1 := by
        have a1 := hq.evaluated
        have a2 := hq'.evaluated
        have e3 : s'.evals = p.evals := (congrArg St.evals hcore : (core s').evals = (core p).evals)
        rw [e3, a1] at a2
        have := (List.cons.inj a2).1
        simp only [EvalRec.mk.injEq, Except.ok.injEq] at this
        exact this.2.symm
      subst hnew
      have hF := pass_facts E _ _ _ _ _ _ hq
      have hF' := pass_facts E' _ _ _ _ _ _ hq'
      have hcr : core (radiusStep E' q' st1' new1').2 = core (radiusStep E q st1' new1').2 := by
        have hK : ∀ s, trInput E' (preIter s) = trInput E (preIter s) := by
          intro s; unfold trInput; rw [hE.lb, hE.ub, hE.thetaMax]
        have hR : SameButStopping E' E' := by constructor <;> rfl
        have a1 := (core_updateTrRadius E E' hE new1' st1' (trInput E (preIter q)).dv (afterEval q st1' (.ok new1'))).2
        have a2 := (core_updateTrRadius E' E' hR new1' st1' (trInput E' (preIter q')).dv (afterEval q' st1' (.ok new1'))).2
        have b1 : core (afterEval q' st1' (.ok new1')) = core (afterEval q st1' (.ok new1')) := by
          have : ∀ s, core (afterEval s st1' (.ok new1')) = core (afterEval (core s) st1' (.ok new1')) := fun _ => rfl
          rw [this, hcq, ← this]
        have b2 : (trInput E' (preIter q')).dv = (trInput E (preIter q)).dv := by
          have : ∀ s, (trInput E' (preIter s)).dv = (trInput E' (preIter (core s))).dv := fun _ => rfl
          rw [this, hcq, ← this, hK]
        unfold radiusStep
        rw [← a1, ← a2, b1, b2]
      have hq1 : ∃ r : ℝ, (radiusStep E q st1' new1').2.fval = fin r := by
        rw [(radius_frame E q st1' new1').1]
        have := hF.finite0
        simp only [allFinite, Bool.and_eq_true] at this
        exact (isFinite_iff _).mp this.1.1
      rw [hF'.converged] at hv
      have := converged_mono hE hS hfr hgr st1' new1' _ _ hcr hq1 hv
      rw [← hF.converged, c1] at this
      cases this
  · have e := hi'.iteration
    have e' := hip.iteration
    have := hS.maxiter
    omega
  · have e1 : s'.iteration = p.iteration := by rw [hi'.iteration, hip.iteration]
    rw [hclock, t2, hi'.starttime, hclock, e1] at ht
    rw [t1, hip.starttime] at c3
    rw [num_time_mono hS.maxtime ht] at c3
    cases c3
  · have e1 : s'.delta = p.delta := (congrArg St.delta hcore : (core s').delta = (core p).delta)
    rw [e1, c4] at hd
    cases hd

/-- **C72, tightening options does not make the result worse.** -/
theorem C72_tighter (x0 : Vec Num n) (startId : String) (hess0 : Hess0 Num) (st0 : St Num n) (hE : SameButStopping E E') (hS : Stricter E E')
    (hfr : ∃ r : ℝ, E.opts.frtol = fin r) (hgr : ∃ r : ℝ, E.opts.grtol = fin r) (hclock : E'.clock = E.clock) (fuel fuel' : ℕ) (st st' : St Num n)
    (h : minimize E fuel x0 startId hess0 st0 = .ok st) (h' : minimize E' fuel' x0 startId hess0 st0 = .ok st') :
    le st'.fval st.fval = true ∧ le st'.fvalMin st.fvalMin = true ∧ ∃ l, st'.evals = l ++ st.evals := by
  obtain ⟨⟨l, h1, -⟩, h2, h3, -⟩ := C72_prefix x0 startId hess0 st0 hE fuel fuel' st st' h h' (C72_longer x0 startId hess0 st0 hE hS hfr hgr hclock fuel fuel' st st' h h')
  exact ⟨h2, h3, l, h1⟩

/-- the saddle problem with a loose gradient tolerance and at most five iterations -/
noncomputable def looseEnv : Env Num 2 :=
  { tameEnv wellF wellG wellH with opts := { (resolveOpts [] : Opts Num) with maxiter := 5, gatol := fin (1 / 10) } }

/-- the assumptions of the theorems are met, by five iterations and by default options, started at the saddle of the double well -/
example : SameButStopping looseEnv (tameEnv wellF wellG wellH) ∧ Stricter looseEnv (tameEnv wellF wellG wellH) ∧
    (∃ r : ℝ, looseEnv.opts.frtol = fin r) ∧ (∃ r : ℝ, looseEnv.opts.grtol = fin r) ∧ (tameEnv wellF wellG wellH).clock = looseEnv.clock ∧
    ∃ st st', minimize looseEnv 1000 (ofV 0) "0" (.val .none) (St.new looseEnv.opts none) = .ok st ∧
      minimize (tameEnv wellF wellG wellH) 1000 (ofV 0) "0" (.val .none) (St.new looseEnv.opts none) = .ok st' := by
  have hs : ∀ x, Sym (wellH x) := fun x i j => by fin_cases i <;> fin_cases j <;> simp [wellH]
  refine ⟨by constructor <;> rfl, ?_, ?_, ?_, rfl, ?_⟩
  · constructor <;> simp only [looseEnv, tameEnv, plainEnv, demo_opts] <;> norm_num
  · simp only [looseEnv, demo_opts]; exact ⟨_, rfl⟩
  · simp only [looseEnv, demo_opts]; exact ⟨_, rfl⟩
  · obtain ⟨st', h'⟩ := tameEnv_returns (by norm_num) wellF wellG wellH hs 0
    have hC : CleanObjective looseEnv := ⟨rfl, rfl, (tameEnv_clean wellF wellG wellH hs).obj⟩
    obtain ⟨st, h⟩ := C68_minimize (E := looseEnv) (st0 := St.new looseEnv.opts none) (startId := "0") (hess0 := .val .none) (by norm_num) hC rfl
      (by constructor <;> simp only [looseEnv, tameEnv, plainEnv, demo_opts]
          · exact ⟨_, rfl⟩
          · exact ⟨_, rfl⟩
          · exact ⟨_, rfl⟩
          · exact ⟨_, rfl, by norm_num, by norm_num⟩) (fun _ => exactRoutines)
      (by intro k I; simp only [looseEnv, tameEnv, plainEnv, demo_opts])
      (by simp only [looseEnv, demo_opts]; decide) (fun _ _ => ⟨exactRoutines_finite, exactRoutines_documented⟩)
      (fun _ => ⟨_, rfl⟩) (fun _ => ⟨_, rfl⟩) 0 (fun i => ⟨rfl, rfl⟩) (fun z _ _ => ⟨_, _, tameObj_real wellF wellG wellH z⟩) (by intro _ g hg; cases hg) 1000
      (by simp only [looseEnv]; norm_num)
    exact ⟨st, st', h, h'⟩

end Fides
