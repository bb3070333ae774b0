import Verif.Props.BoundedConvergence
import Verif.Props.SteihaugTotal
import Verif.Props.Options

/-!
# C65, total correctness: nothing ends the run before it has met a nearly optimal point
-/

namespace Fides
open Num Spec
variable {n : ℕ} {E : Env Num n} {f : (Fin n → ℝ) → ℝ} {g : (Fin n → ℝ) → Fin n → ℝ} {mu eta g1 g2 D0 tm L W M G fmin : ℝ}
  {x0 : Vec Num n} {startId : String} {hess0 : Hess0 Num} {st0 : St Num n}

/-- the trial point of a pass from a point that is not optimal -/
theorem box_trial (hR : BoxRun E f g mu eta g1 g2 D0 tm L W M G fmin x0 startId hess0 st0) {eps : ℝ} {prev next : St Num n} {cur new cur' : Funout Num n}
    {step : Step Num n} (hp : Pass E prev cur step new next cur') (x h : Fin n → ℝ) (hx : prev.x = ofV x)
    (hg : prev.grad = ofV h) (D : ℝ) (hD : prev.delta = fin D) (hDpos : 0 < D) (hNe : eps ≤ scaledGrad E.lb E.ub x h) (hprop : BoxProposes E W M G tm eps prev) :
    ∃ y, new.x = ofV y ∧ InBox E.lb E.ub y ∧ new.fval = fin (f y) ∧ new.grad = ofV (g y) ∧ ∃ p : Fin n → ℝ, vadd step.ss step.ss0 = ofV p := by
  obtain ⟨d, dv, B, th, y, p, -, -, -, -, hg⟩ := hprop x h D step hx hg hD hDpos hNe hp.proposal
  have hy : new.x = ofV y := by rw [hp.point]; exact hg.trial
  have hyb : InBox E.lb E.ub y := hg.inBox
  obtain ⟨m, raw, e1, e2⟩ := pass_evaluated hp
  rw [hy] at e1 e2
  obtain ⟨hnf, hng⟩ := hR.evaluates m y _ raw new hyb e1 e2
  exact ⟨y, hy, hyb, hnf, hng, p, hg.scaled⟩

theorem scaledGrad_le {lb ub : Vec Num n} {x h : Fin n → ℝ} (hb : ∀ i, boundDist lb ub x h i ≤ W) (hW : 0 ≤ W) :
    scaledGrad lb ub x h ≤ Real.sqrt W * rnorm h := by
  unfold scaledGrad rnorm
  rw [← Real.sqrt_mul hW]
  apply Real.sqrt_le_sqrt
  unfold rdot
  rw [Finset.mul_sum]
  refine Finset.sum_le_sum fun i _ => ?_
  have := mul_le_mul_of_nonneg_right (hb i) (sq_nonneg (h i))
  linarith

/-- the loop body succeeds at a point that is not optimal -/
theorem box_iterate (H : (Fin n → ℝ) → Fin n → Fin n → ℝ) (hR : Returns E f g H) (happ : st0.happ = none)
    (hevs : ∀ m, ∃ r, E.evs m = .ok r) (hcond : ∀ m, ∃ r, E.cond m = .ok r) {k : ℕ} {st : St Num n} {cur : Funout Num n}
    (hh : LoopHead E x0 startId hess0 st0 k st cur) (step : Step Num n)
    (hstep : E.tr st.proposals (trInput E (preIter { st with ticks := st.ticks + 1 })) = .ok step) (y : Fin n → ℝ)
    (hpt : trialPoint { st with ticks := st.ticks + 1 } step = ofV y) (hyb : InBox E.lb E.ub y) :
    ∃ st2 cur2, iterate E { st with ticks := st.ticks + 1 } cur = .ok (st2, cur2) := by
  obtain ⟨z', x', hz', -, -, -, hf, hg, -⟩ := head_box (returns_evaluatesOn hR) x0 startId hess0 st0 k st cur hh
  obtain ⟨z, hz, hzH⟩ := returned_hess_box hR happ k st cur hh
  have hhead := headInv E _ startId hess0 st0 k st cur hh
  have hnone : st.happ = none := hhead.happ.mpr happ
  have hrow := historyRow_total E hevs hcond
  have hout : ∃ new, trialOut E { st with ticks := st.ticks + 1 } step = .ok new ∧ new.x = ofV y ∧ new.fval = fin (f y) ∧
      new.grad = ofV (g y) ∧ new.hess = some (ofM (H y)) := by
    obtain ⟨raw, h1, _, _, h4⟩ := hR.eval st.evals.length y
    refine ⟨{ x := ofV y, xId := st.nextId, fval := fin (f y), grad := ofV (g y), hess := some (ofM (H y)), res := none },
      ?_, rfl, rfl, rfl, rfl⟩
    unfold trialOut
    rw [hpt]
    unfold evaluate
    have e2 : ({ preIter { st with ticks := st.ticks + 1 } with proposals := st.proposals + 1, nextId := st.nextId + 1 } : St Num n).evals.length = st.evals.length := rfl
    simp only [e2, h1, h4]
  obtain ⟨new, hnew, hnx, hnf, hng, hnh⟩ := hout
  cases hit : iterate E { st with ticks := st.ticks + 1 } cur with
  | ok r => exact ⟨r.1, r.2, rfl⟩
  | error e =>
    exfalso
    obtain ⟨e, st'⟩ := e
    rcases iterate_error E _ st' cur e hit with ⟨h1, _⟩ | ⟨_, h | ⟨step', hs', h⟩⟩
    · have : allFinite st.fval st.grad (some st.hess) = true := by
        rw [hf, hg, hzH]; simp [allFinite, vfinite, mfinite]
      have h1' : allFinite st.fval st.grad (some st.hess) = false := h1
      rw [this] at h1'; cases h1'
    · have h1 := h.1
      simp only at h1
      rw [hstep] at h1; cases h1
    · simp only at hs'
      rw [hstep] at hs'; cases hs'
      rcases h with ⟨h, _⟩ | ⟨new', hnew', _, _, h⟩
      · rw [hnew] at h; cases h
      · rw [hnew] at hnew'; cases hnew'
        rcases h with ⟨_, h, _⟩ | ⟨_, ⟨_, h⟩ | ⟨_, _, h⟩ | ⟨_, _, h⟩⟩
        · rw [hnf, hng, hnh] at h; simp [allFinite, vfinite, mfinite] at h
        · obtain ⟨r, d, i, m, ef, c, mx, mxi, mf, mg, hpf⟩ := postCheck_frame E { st with ticks := st.ticks + 1 } step new
          have hap : (postCheck E { st with ticks := st.ticks + 1 } step new).happ = none := by rw [hpf]; exact hnone
          unfold update at h
          rw [hap, hnh] at h
          simp only [checkInBounds, hnx, inBounds_real _ _ _ hyb, if_true] at h
          cases h
        · exact hrow _ _ _ _ _ _ _ h
        · exact hrow _ _ _ _ _ _ _ h

/-- no limit stops the run -/
theorem box_continues {k : ℕ} {st : St Num n} {cur : Funout Num n} (hh : LoopHead E x0 startId hess0 st0 k st cur)
    (hc : st.converged = false) (hiter : (k : ℤ) < E.opts.maxiter) (htime : E.opts.maxtime = pinf)
    (hclock : ∀ k, ∃ t : ℝ, E.clock k = fin t) (D : ℝ) (hD : st.delta = fin D) (hD1 : 1 / 4503599627370496 ≤ D) :
    checkContinue E st = (true, { st with ticks := st.ticks + 1 }) := by
  have hhead := headInv E _ startId hess0 st0 k st cur hh
  obtain ⟨b, st2, hcc⟩ : ∃ b st2, checkContinue E st = (b, st2) := ⟨_, _, rfl⟩
  cases b with
  | true => obtain ⟨rfl, _⟩ := checkContinue_true E st st2 hcc; exact hcc
  | false =>
    exfalso
    rcases checkContinue_false E st st2 hcc with ⟨hcv, rfl⟩ | ⟨_, hm, rfl⟩ | ⟨_, _, ht, rfl⟩ | ⟨_, _, hdl, rfl⟩
    · rw [hc] at hcv; cases hcv
    · rw [hhead.iteration] at hm
      omega
    · obtain ⟨t1, ht1⟩ := hclock st.ticks
      obtain ⟨t0, ht0⟩ := hclock st0.ticks
      rw [hhead.starttime, htime, ht1, ht0] at ht
      have hne : ((if st.iteration = 0 then 1 else st.iteration : ℕ) : ℝ) ≠ 0 := by
        split <;> simp_all
      generalize (if st.iteration = 0 then 1 else st.iteration : ℕ) = m at ht hne
      rw [show (lit ((m : ℕ) : ℚ) : Num) = fin (m : ℝ) by simp] at ht
      simp only [fin_sub, pinf_sub_fin, fin_div _ _ hne] at ht
      cases ht
    · rw [hD, show (spacing1 : Num) = fin (1 / 4503599627370496) by norm_num [spacing1]] at hdl
      simp only [fin_lt, decide_eq_true_eq] at hdl
      linarith

/-- a run whose proposals exist and are good meets a nearly optimal point -/
theorem box_reach (Bad : St Num n → Prop) (H : (Fin n → ℝ) → Fin n → Fin n → ℝ) (hR : Returns E f g H) (r0 : Fin n → ℝ)
    (hB : BoxRun E f g mu eta g1 g2 D0 tm L W M G fmin (ofV r0) startId hess0 st0) (hW : 1 ≤ W) (hF : FreeOrWidth W E.lb E.ub)
    (happ : st0.happ = none) (hx0 : InBox E.lb E.ub r0) (gap : ℝ)
    (hgap : ∀ z, nudge E.lb E.ub (ofV r0) = ofV z → f z - fmin ≤ gap) (eps : ℝ) (he : 0 < eps)
    (hsmall : nudgeError n L G margin ≤ (1 - mu) / 2 * boxPred mu g1 D0 L W M G tm eps)
    (hfa : E.opts.fatol = fin 0) (hfr : E.opts.frtol = fin 0) (hxt : E.opts.xtol = fin 0) (hgr : E.opts.grtol = fin 0)
    (ga : ℝ) (hga : E.opts.gatol = fin ga) (hgae : Real.sqrt W * ga < eps)
    (hiter : (boxBound mu g1 g2 D0 L W M G tm gap eps : ℤ) ≤ E.opts.maxiter) (htime : E.opts.maxtime = pinf)
    (hclock : ∀ k, ∃ t : ℝ, E.clock k = fin t) (hfloor : 1 / 4503599627370496 ≤ boxFloor mu g1 D0 L W M G tm eps)
    (hevs : ∀ m, ∃ r, E.evs m = .ok r) (hcond : ∀ m, ∃ r, E.cond m = .ok r)
    (htot : ∀ k st cur x h D, LoopHead E (ofV r0) startId hess0 st0 k st cur → st.x = ofV x → st.grad = ofV h → st.delta = fin D → 0 < D →
      eps ≤ scaledGrad E.lb E.ub x h → ∃ step,
      E.tr st.proposals (trInput E { st with iteration := st.iteration + 1, deltaIter := st.delta, ticks := st.ticks + 1 }) = .ok step)
    (hprop : ∀ k st cur, LoopHead E (ofV r0) startId hess0 st0 k st cur → ¬ Bad st → BoxProposes E W M G tm eps st) :
    ∃ k ≤ boxBound mu g1 g2 D0 L W M G tm gap eps, ∃ st cur, LoopHead E (ofV r0) startId hess0 st0 k st cur ∧
      (NearOptimal E g eps st ∨ (Bad st ∧ (checkContinue E st).1 = true)) := by
  set N := boxBound mu g1 g2 D0 L W M G tm gap eps with hN
  by_contra hcon
  have hcon : ∀ k ≤ N, ∀ st cur, LoopHead E (ofV r0) startId hess0 st0 k st cur → ¬ NearOptimal E g eps st ∧ ¬ (Bad st ∧ (checkContinue E st).1 = true) :=
    fun k hk st cur hh => ⟨fun h => hcon ⟨k, hk, st, cur, hh, Or.inl h⟩, fun h => hcon ⟨k, hk, st, cur, hh, Or.inr h⟩⟩
  have hcon2 : ∀ k ≤ N, ∀ j < k, ∀ st cur, LoopHead E (ofV r0) startId hess0 st0 k st cur → ∀ st' cur', LoopHead E (ofV r0) startId hess0 st0 j st' cur' → ¬ Bad st' := by
    intro k hk j hj st cur hh st' cur' hh' hb
    obtain ⟨st1, cur1, h1⟩ := loopHead_prefix E _ startId hess0 st0 k st cur hh (j + 1) hj
    obtain ⟨prev, cur0, step, new, h2, hp⟩ := loopHead_pass E _ startId hess0 st0 j st1 cur1 h1
    obtain ⟨rfl, rfl⟩ := loopHead_unique E _ startId hess0 st0 j _ _ _ _ hh' h2
    exact (hcon j (by omega) _ _ hh').2 ⟨hb, by rw [hp.continues]⟩
  -- no head before `N` is nearly optimal
  have hfar : ∀ j ≤ N, ∀ st cur x h, LoopHead E (ofV r0) startId hess0 st0 j st cur → st.x = ofV x → st.grad = ofV h → eps ≤ scaledGrad E.lb E.ub x h := by
    intro j hj st cur x h hh hx hg
    by_contra hlt
    push Not at hlt
    refine (hcon j hj st cur hh).1 ?_
    obtain ⟨z, x', e1, e2, e3, e4, -, e5, e6, -⟩ := head_box (returns_evaluatesOn hR) (ofV r0) startId hess0 st0 j st cur hh
    rw [hx, ofV_inj] at e3
    rw [hg, ofV_inj] at e5
    subst e3 e5
    have := head_recorded j st cur hh 0 st cur hh
    rw [e1] at this
    exact ⟨z, x, cur, this, e2, e4, e6, hlt⟩
  have hmove : ∀ j st cur x z, LoopHead E (ofV r0) startId hess0 st0 j st cur → st.x = ofV x → cur.x = ofV z → ∀ i, |x i - z i| ≤ margin := by
    intro j st cur x z hh hx hz i
    obtain ⟨z', x', e1, -, e2, -, -, -, e3, -⟩ := head_box hB.evaluates (ofV r0) startId hess0 st0 j st cur hh
    rw [hz, ofV_inj] at e1
    rw [hx, ofV_inj] at e2
    subst e1 e2
    exact e3 i
  have hgap' : ∀ st cur z, LoopHead E (ofV r0) startId hess0 st0 0 st cur → cur.x = ofV z → f z - fmin ≤ gap :=
    fun st cur z h0 hz => hgap z (by rw [← head_start st cur h0, hz])
  have hheads : ∀ k ≤ N, ∃ st cur, LoopHead E (ofV r0) startId hess0 st0 k st cur ∧ st.converged = false := by
    intro k
    induction k with
    | zero =>
      intro _
      obtain ⟨st, cur, hh⟩ := returns_head_box hR r0 hx0 startId hess0 st0 happ
      exact ⟨st, cur, hh, loopHead_start_converged E _ startId hess0 st0 _ _ hh⟩
    | succ k ih =>
      intro hk
      obtain ⟨st, cur, hh, hc⟩ := ih (by omega)
      obtain ⟨D, S, K, hi⟩ := box_counted hB he margin margin_pos.le hmove hsmall (gap + fmin)
        (fun st cur z hh hz => by linarith [hgap' st cur z hh hz]) k st cur hh (fun j hj st' cur' x' h' hh hx hg => hfar j (by omega) st' cur' x' h' hh hx hg)
        (fun j hj st' cur' hh' => hprop j st' cur' hh' (hcon2 k (by omega) j hj st cur hh st' cur' hh'))
      have hDf : 1 / 4503599627370496 ≤ D := hfloor.trans hi.lower
      have hDp : 0 < D := lt_of_lt_of_le (by norm_num) hDf
      have hcc := box_continues hh hc (by omega) htime hclock D hi.delta hDf
      obtain ⟨z, x, -, -, hx, -, hfz, hg, -⟩ := head_box hB.evaluates (ofV r0) startId hess0 st0 k st cur hh
      have hNe := hfar k (by omega) st cur x (g z) hh hx hg
      have hpk := hprop k st cur hh (fun hb => (hcon k (by omega) st cur hh).2 ⟨hb, by rw [hcc]⟩)
      obtain ⟨step0, hstep0⟩ := htot k st cur x (g z) D hh hx hg hi.delta hDp hNe
      obtain ⟨d0, dv0, B0, th0, y0, p0, -, -, -, -, hgs⟩ := hpk x (g z) D step0 hx hg hi.delta hDp hNe hstep0
      obtain ⟨st2, cur2, hit⟩ := box_iterate H hR happ hevs hcond hh step0 hstep0 y0 hgs.trial hgs.inBox
      have hh2 : LoopHead E (ofV r0) startId hess0 st0 (k + 1) st2 cur2 := .next k st _ st2 cur cur2 hh hcc hit
      refine ⟨st2, cur2, hh2, ?_⟩
      obtain ⟨prev, cur0, step, new, hh1, hp⟩ := loopHead_pass E _ startId hess0 st0 k st2 cur2 hh2
      obtain ⟨rfl, rfl⟩ := loopHead_unique E _ startId hess0 st0 k _ _ _ _ hh hh1
      obtain ⟨y, hy, hyb, hnf, hng, p, hss⟩ := box_trial hB hp x (g z) hx hg D hi.delta hDp hNe hpk
      have hPF := pass_facts E _ _ _ _ _ _ hp
      rw [hPF.converged]
      rcases checkConvergence_cases E step new (radiusStep E st step new).2 with ⟨_, h1, h2⟩ | ⟨_, h1, h2⟩ | ⟨h1, h2⟩ | h2
      · exfalso
        have hrf : (radiusStep E st step new).2.fval = fin (f z) := by
          rw [← hfz]
          unfold radiusStep updateTrRadius
          simp only
          split
          · rfl
          · simp only
            split <;> split <;> first | rfl | (split <;> first | rfl | (split <;> rfl))
        rw [hrf, hnf, hfa, hfr] at h1
        simp at h1
        exact absurd h1 (not_lt.mpr (abs_nonneg _))
      · exfalso
        unfold stepLength at h1
        rw [hss, norm_ofV, hxt, fin_lt] at h1
        have := rnorm_nonneg p
        simp at h1
        linarith
      · exfalso
        refine (hcon (k + 1) hk st2 cur2 hh2).1 ⟨y, y, new, ?_, hyb, hyb, fun i => by simpa using margin_pos.le, ?_⟩
        · rw [hp.evaluated, ← hp.point, hy]; exact List.mem_cons_self
        · have hle := scaledGrad_le (fun i => boundDist_le hyb hF hW i) (by linarith : 0 ≤ W) (h := g y)
          have hrf : (radiusStep E st step new).2.fval = fin (f z) := by
            rw [← hfz]
            unfold radiusStep updateTrRadius
            simp only
            split
            · rfl
            · simp only
              split <;> split <;> first | rfl | (split <;> first | rfl | (split <;> rfl))
          rw [hng, norm_ofV, hga, hgr, hrf] at h1
          simp at h1
          rcases h1 with h1 | h1
          · exact hle.trans_lt ((mul_le_mul_of_nonneg_left h1 (Real.sqrt_nonneg W)).trans_lt hgae)
          · have : rnorm (g y) = 0 := le_antisymm h1 (rnorm_nonneg _)
            rw [this, mul_zero] at hle
            linarith
      · rw [h2]
  obtain ⟨st, cur, hh, -⟩ := hheads N le_rfl
  obtain ⟨j, hj, st', cur', x', h', hh', hx', hg', hlt⟩ := box_visits hB he margin margin_pos.le hmove hsmall gap hgap' N st cur hh le_rfl
    (fun j hj st' cur' hh' => hprop j st' cur' hh' (hcon2 N le_rfl j hj st cur hh st' cur' hh'))
  have := hfar j (by omega) st' cur' x' h' hh' hx' hg'
  linarith

/-- the Steihaug solver returns -/
theorem steihaug_returns (hR : BoxRun E f g mu eta g1 g2 D0 tm L W M G fmin x0 startId hess0 st0) (O : ℕ → Oracles Num)
    (hO : ∀ k I, E.tr k I = trustRegion (O k) n E.opts.subspaceDim E.opts.stepbackStrat I)
    (hdim : E.opts.subspaceDim = .steihaug) (k : ℕ) (st : St Num n) (cur : Funout Num n) (x h : Fin n → ℝ) (D : ℝ)
    (hh : LoopHead E x0 startId hess0 st0 k st cur) (hx : st.x = ofV x) (hg : st.grad = ofV h) (hD : st.delta = fin D)
    (hpos : 0 < scaledGrad E.lb E.ub x h) : ∃ step,
      E.tr st.proposals (trInput E { st with iteration := st.iteration + 1, deltaIter := st.delta, ticks := st.ticks + 1 }) = .ok step := by
  have hn : 0 < n := by
    rcases Nat.eq_zero_or_pos n with rfl | hn
    · simp [scaledGrad] at hpos
    · exact hn
  obtain ⟨tm', h1, ht0, ht1⟩ := hR.params.theta
  have htm' : tm = tm' := by rw [hR.thetaMax, fin_inj] at h1; exact h1
  subst htm'
  clear h1
  obtain ⟨z, x', -, hzb, hx', hxb, -⟩ := head_box hR.evaluates x0 startId hess0 st0 k st cur hh
  rw [hx, ofV_inj] at hx'
  subst hx'
  obtain ⟨B, hH, hS, hBM⟩ := hR.hessian k st cur hh
  obtain ⟨d, dv, th, hI, hth1, hth2, hd, hdv⟩ := box_data tm hR.thetaMax ht0 ht1
    { st with iteration := st.iteration + 1, deltaIter := st.delta, ticks := st.ticks + 1 } x h B D hx hg hH hS hD hxb
  obtain ⟨step, hst⟩ := C66_total hI (ht0.trans_le hth1) hth2 hxb hn (O st.proposals) E.opts.stepbackStrat
  exact ⟨step, by rw [hO, hdim]; exact hst⟩

/-- **C65, total correctness.** Problem and options as in `C65_problem`; the function, step and relative gradient tolerances are switched off (set to 0), the
absolute gradient tolerance is below `eps / √W`, the limits on iterations and time allow for `boxBound` iterations, and the guaranteed radius is not below
the machine precision.  Then the run raises no exception and does not end before it has evaluated the objective at a point of the box with a point of
the box within `margin` where the measure is below `eps` (or makes an iteration that proposes a point with an entry that is not a number), and this happens within `boxBound`
iterations. -/
theorem C65_reaches (hE : TRParams E mu eta g1 g2 D0) (htm : E.opts.thetaMax = fin tm) (O : ℕ → Oracles Num)
    (hO : ∀ k I, E.tr k I = trustRegion (O k) n E.opts.subspaceDim E.opts.stepbackStrat I)
    (hdim : E.opts.subspaceDim = .steihaug) (H : (Fin n → ℝ) → Fin n → Fin n → ℝ)
    (hR : Returns E f g H) (hL0 : 0 ≤ L) (hM0 : 0 < M) (hW : 1 ≤ W) (hG : 0 < G) (hL : SmoothOn L E.lb E.ub f g)
    (hH : ∀ x, InBox E.lb E.ub x → Sym (H x) ∧ ∀ v, |rdot v (rmv (H x) v)| ≤ M * rdot v v) (hF : FreeOrWidth W E.lb E.ub)
    (hGb : GradBound G E.lb E.ub g) (hmin : ∀ y, InBox E.lb E.ub y → fmin ≤ f y) (happ : st0.happ = none)
    (r0 : Fin n → ℝ) (hx0 : InBox E.lb E.ub r0) (gap : ℝ)
    (hgap : ∀ z, nudge E.lb E.ub (ofV r0) = ofV z → f z - fmin ≤ gap) (eps : ℝ) (he : 0 < eps)
    (hsmall : nudgeError n L G margin ≤ (1 - mu) / 2 * boxPred mu g1 D0 L W M G tm eps)
    (hfa : E.opts.fatol = fin 0) (hfr : E.opts.frtol = fin 0) (hxt : E.opts.xtol = fin 0) (hgr : E.opts.grtol = fin 0)
    (ga : ℝ) (hga : E.opts.gatol = fin ga) (hgae : Real.sqrt W * ga < eps)
    (hiter : (boxBound mu g1 g2 D0 L W M G tm gap eps : ℤ) ≤ E.opts.maxiter) (htime : E.opts.maxtime = pinf)
    (hclock : ∀ k, ∃ t : ℝ, E.clock k = fin t) (hfloor : 1 / 4503599627370496 ≤ boxFloor mu g1 D0 L W M G tm eps)
    (hevs : ∀ m, ∃ r, E.evs m = .ok r) (hcond : ∀ m, ∃ r, E.cond m = .ok r) :
    ∃ k ≤ boxBound mu g1 g2 D0 L W M G tm gap eps, ∃ st cur, LoopHead E (ofV r0) startId hess0 st0 k st cur ∧
      (NearOptimal E g eps st ∨ ((1 < n ∧ NonRealTrial E st) ∧ (checkContinue E st).1 = true)) := by
  have hB : BoxRun E f g mu eta g1 g2 D0 tm L W M G fmin (ofV r0) startId hess0 st0 := problem_boxRun hE htm H hR hL0 hM0 hW hG hL hH hF hGb hmin happ
  exact box_reach (fun st => 1 < n ∧ NonRealTrial E st) H hR r0 hB hW hF happ hx0 gap hgap eps he hsmall hfa hfr hxt hgr ga hga hgae hiter htime hclock hfloor hevs hcond
    (fun k st cur x h D hh hx hg hD _ hbig => steihaug_returns hB O hO hdim k st cur x h D hh hx hg hD (he.trans_le hbig))
    (fun k st cur hh hr => steihaug_boxProposes hB ⟨O, n, hO⟩ hdim he k st cur hh hr)

/-! ## A problem that meets the assumptions -/

noncomputable section

/-- half the squared distance to the origin in the box `[1, 3]²`, Steihaug solver, default strategy `reflect`, gradient tolerance only -/
def reachEnv (N : ℕ) : Env Num 2 :=
  { boxEnv with
    opts := { (resolveOpts [] : Opts Num) with subspaceDim := .steihaug, fatol := fin 0, frtol := fin 0, maxiter := N } }

theorem reachEnv_params (N : ℕ) : TRParams (reachEnv N) (1 / 4) (3 / 4) (1 / 4) 2 1 := by
  constructor <;> try (simp only [reachEnv, demo_opts])
  all_goals norm_num

/-- the constructor of the optimizer accepts these options -/
theorem reachEnv_accepted (N : ℕ) : ∃ options, optimizerInit (none : Option (Happ Num 2)) false options = .ok () ∧ (resolveOpts options : Opts Num) = (reachEnv N).opts := by
  set options : List (RawKey × RawVal) := [(.str "subspace_solver", .str "scg"), (.str "fatol", .real 0), (.str "frtol", .real 0), (.str "maxiter", .int N)] with ho
  have hk : ∀ k : OptKey, getOption options k =
      if k = .subspaceDim then .str "scg" else if k = .fatol ∨ k = .frtol then .real 0 else if k = .maxiter then .int N else defaultOption k := by
    intro k
    cases k <;> first | rfl | (simp; rfl)
  have h : validateOptions options = .ok () := by
    rw [C45_exact]
    intro kv hkv
    simp only [ho, List.mem_cons, List.not_mem_nil, or_false] at hkv
    rcases hkv with rfl | rfl | rfl | rfl
    · exact ⟨.subspaceDim, rfl, Or.inr ⟨rfl, Or.inl rfl, Or.inl ⟨_, rfl⟩⟩⟩
    · refine ⟨.fatol, rfl, ?_⟩
      simp [Documented]
    · refine ⟨.frtol, rfl, ?_⟩
      simp [Documented]
    · refine ⟨.maxiter, rfl, ?_⟩
      simp [Documented]
  refine ⟨options, ?_, ?_⟩
  · unfold optimizerInit optimizerInit.rest
    rw [h]
    simp [hk, defaultOption, RawVal.toStepback]
  · show _ = ({ (resolveOpts [] : Opts Num) with subspaceDim := .steihaug, fatol := fin 0, frtol := fin 0, maxiter := N } : Opts Num)
    rw [demo_opts]
    simp [resolveOpts, hk, defaultOption, RawVal.toF, RawVal.toInt, RawVal.toSubspace, RawVal.toStepback, RawVal.truthy, SubSpaceDim.ofString]

theorem reachEnv_returns (N : ℕ) : Returns (reachEnv N) (fun x => 1 / 2 * rdot x x) (fun x => x) (fun _ => idM) where
  nargout := rfl
  resfun := rfl
  obj k x := boxEnv_returns.obj k x

/-- every assumption of `C65_reaches` holds for this problem, for `eps = 1/100`, from every starting point in the box -/
example (r0 : Fin 2 → ℝ) (h0 : InBox boxEnv.lb boxEnv.ub r0) :
    let N := boxBound (1 / 4) (1 / 4) 2 1 1 2 1 3 (19 / 20) 9 (1 / 100)
    ∃ k ≤ N, ∃ st cur, LoopHead (reachEnv N) (ofV r0) "0" (.val .none) (St.new (reachEnv N).opts none) k st cur ∧
      (NearOptimal (reachEnv N) (fun x => x) (1 / 100) st ∨ ((1 < 2 ∧ NonRealTrial (reachEnv N) st) ∧ (checkContinue (reachEnv N) st).1 = true)) := by
  intro N
  have h1 : scaledCurv 2 1 3 = 5 := by norm_num [scaledCurv]
  have h2 : cutFactor 2 1 3 (19 / 20) = 1 / 5 := by rw [cutFactor, h1]; norm_num
  refine C65_reaches (fmin := 0) (reachEnv_params N) ?_ (fun _ => zeroOracles) ?_ rfl (fun _ => idM) (reachEnv_returns N) (by norm_num) (by norm_num)
    (by norm_num) (by norm_num) ((bowl_smooth 2).on _ _) ?_ ?_ ?_ ?_ rfl r0 h0 9 ?_ (1 / 100) (by norm_num) ?_ rfl rfl ?_ ?_ (1 / 1000000) ?_ ?_ ?_ ?_ ?_ ?_
    (fun _ => ⟨_, rfl⟩) (fun _ => ⟨_, rfl⟩)
  · simp only [reachEnv, demo_opts]
  · intro k I; rfl
  · intro x _
    refine ⟨?_, fun v => ?_⟩
    · intro i j; simp [idM, eq_comm]
    · rw [idM_rmv, abs_of_nonneg (rdot_self_nonneg v), one_mul]
  · intro i; right; exact ⟨1, 3, rfl, rfl, by norm_num⟩
  · intro x hx i _
    have := boxEnv_inBox hx i
    rw [abs_le]; constructor <;> linarith
  · intro y _; have := rdot_self_nonneg y; positivity
  · intro z hz
    obtain ⟨r', e1, e2, -⟩ := nudge_spec boxEnv.lb boxEnv.ub r0 h0
    have hz' : nudge boxEnv.lb boxEnv.ub (ofV r0) = ofV z := hz
    rw [e1, ofV_inj] at hz'
    subst hz'
    have a := boxEnv_inBox e2 0
    have b := boxEnv_inBox e2 1
    have : rdot r' r' = r' 0 * r' 0 + r' 1 * r' 1 := by simp [rdot, Fin.sum_univ_two]
    rw [this]
    nlinarith
  · unfold nudgeError boxPred boxFloor margin
    rw [h2]
    norm_num
  · simp only [reachEnv, demo_opts]
  · simp only [reachEnv, demo_opts]
  · simp only [reachEnv, demo_opts]
  · have : Real.sqrt 2 ≤ 2 := by rw [Real.sqrt_le_left (by norm_num)]; norm_num
    linarith
  · simp only [reachEnv, demo_opts]; exact le_rfl
  · simp only [reachEnv, demo_opts]
  · intro k; exact ⟨0, rfl⟩
  · unfold boxFloor
    rw [h2]
    norm_num

end

end Fides
