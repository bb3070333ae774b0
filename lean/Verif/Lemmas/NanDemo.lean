import Verif.Lemmas.Demo

/-!
# A concrete run whose proposals are NaN, used as witness

One variable without bounds, default options except `maxiter = M`.  At `x = 1` the objective returns value 1/2, gradient 1 and
second derivative 0, anywhere else (in particular at NaN) value `f`, gradient 1, second derivative 0.  The proposal computed by
the real `trust_region` (default 2D solver) divides the gradient by the second derivative and is NaN.
-/

namespace Fides
open Num Spec

noncomputable section

open Classical in
def nanEnv (M : Int) (f : Num) : Env Num 1 where
  lb _ := ninf
  ub _ := pinf
  opts := { resolveOpts [] with maxiter := M }
  nargout := 3
  resfun := false
  obj _ x := if x = v1 1 then .tuple [.scalar (fin (1 / 2)), .arr [1] [fin 1], .arr [1, 1] [fin 0]]
    else .tuple [.scalar f, .arr [1] [fin 1], .arr [1, 1] [fin 0]]
  clock _ := fin 0
  tr _ I := trustRegion zeroOracles 10 .two .reflect I
  evs _ := .ok (fin 0, fin 0)
  cond _ := .ok (fin 1)

/-- the input of the calls of `trust_region` -/
def nanIn (d : ℝ) : TRIn Num 1 where
  x := v1 1
  g := v1 1
  hess := fun _ _ => fin 0
  scaling := v1 1
  delta := fin d
  dv := v1 0
  theta := fin (19 / 20)
  lb := fun _ => ninf
  ub := fun _ => pinf

theorem vec1_eq (v : Vec Num 1) (r : Num) (h : v 0 = r) : v = fun _ => r := by
  funext i; rw [Fin.fin_one_eq_zero i]; exact h

theorem nan_tr (O : Oracles Num) (fuel : ℕ) (strat : StepBackStrategy) (hl : ∃ v, O.lstsq (nanIn 0).prob.shess (nanIn 0).prob.sg = .ok v)
    (he : ∃ a b c, O.npEig (nanIn 0).prob.shess = .ok (a, b, c)) (d : ℝ) (hd : 0 < d) :
    ∃ step, trustRegion O fuel .two strat (nanIn d) = .ok step ∧ step.s = (fun _ => nan) ∧
    step.s0 = v1 0 ∧ step.ss = (fun _ => nan) ∧ step.ss0 = v1 0 ∧ step.qpval = nan ∧ step.alpha = fin 1 := by
  have hsg : (nanIn d).prob.sg = v1 1 := by
    apply v1_eq; simp [TRIn.prob, nanIn, sdot, v1]
  have hsh : (nanIn d).prob.shess = ofM fun _ _ => 0 := by
    funext i j; simp [Prob.shess, TRIn.prob, nanIn, v1, Subsingleton.elim i j]
  obtain ⟨lv, hlv⟩ := hl
  obtain ⟨ea, eb, ec, hev⟩ := he
  have hsub : ∃ pd, subspace2d O (nanIn d).prob = .ok ([fun _ => ninf], pd, none) := by
    have hcol : (fun i : Fin 1 => -(nanIn d).prob.sg i / (nanIn d).prob.shess i i) = fun _ => ninf := by
      apply vec1_eq
      rw [hsg, hsh]
      simp only [v1, ofV_apply, ofM_apply, fin_neg, fin_div_def, if_true]
      exact infSign_neg (by norm_num)
    have hlv' : O.lstsq (nanIn d).prob.shess (nanIn d).prob.sg = .ok lv := hlv
    have hev' : O.npEig (nanIn d).prob.shess = .ok (ea, eb, ec) := hev
    simp only [subspace2d, if_true, hcol, hlv', hev']
    exact ⟨_, rfl⟩
  obtain ⟨pd, hsub⟩ := hsub
  have hz0 : (fin 0 * ninf : Num) = nan := by rw [fin_mul_ninf, infSign_zero]; rfl
  have hmv : ∀ (b : Mat Num 1 1), b = (ofM fun _ _ => 0) → mulVec b (fun _ => ninf) = fun _ => nan := by
    rintro b rfl
    funext i
    simp [mulVec, dot, sum_cons, sum_nil, hz0]
  have hsol : solve1d (nanIn d).prob.shess (nanIn d).prob.sg (fun _ => ninf) (nanIn d).prob.delta vzero = nan := by
    rw [hsg, hsh]
    have hdel : (nanIn d).prob.delta = fin d := rfl
    have h1 : dot (vzero : Vec Num 1) (fun _ => ninf) = nan := by simp [dot, sum_cons, sum_nil, hz0]
    have h2 : dot (fun _ => nan : Vec Num 1) (fun _ => ninf) = nan := by simp [dot, sum_cons, sum_nil]
    have hfe : feq (ninf : Num) (fin 0) = false := rfl
    unfold solve1d
    rw [hmv _ rfl, hdel, h2]
    have hbd : boundarySolution1d (ofM fun _ _ => (0 : ℝ)) (v1 1) (fun _ => ninf) vzero (fin d) = nan := by
      unfold boundarySolution1d
      simp only [h1, mul_nan, nan_add, add_nan, nan_mul, neg_nan, nan_div]
      have : quadraticForm (ofM fun _ _ : Fin 1 => (0 : ℝ)) (v1 1) (vadd vzero (vsmul nan fun _ => ninf)) = nan := by
        have : vadd (vzero : Vec Num 1) (vsmul nan fun _ => ninf) = fun _ => nan := by funext i; simp [vadd, vsmul]
        rw [this]
        simp [quadraticForm, dot, sum_cons]
      simp [argminGo, this]
    simp only [hbd, lit_def, Rat.cast_zero, fin_feq, hd.ne', decide_false, Bool.false_eq_true, if_false, hfe, forall_const, mul_nan,
      lt_nan, Bool.false_and, nan_mul]
  have hss : subDot [(fun _ => ninf : Vec Num 1)] [nan] = fun _ => nan := by
    apply vec1_eq
    simp only [subDot, List.zipWith_cons_cons, List.zipWith_nil_left, sum_cons, sum_nil, mul_nan, nan_add]
  have hs : sdot (nanIn d).prob.scaling (fun _ => nan) = fun _ => nan := by
    apply vec1_eq; simp [TRIn.prob, nanIn, sdot, v1]
  have hst : ∃ step, step2d O (nanIn d).prob = .ok step ∧ step.s = (fun _ => nan) ∧ step.s0 = v1 0 ∧
    step.ss = (fun _ => nan) ∧ step.ss0 = v1 0 ∧ step.qpval = nan ∧ step.alpha = fin 1 := by
    have hmin : vmin (fun i : Fin 1 => if lt (lit 0) (FloatOps.abs (nan : Num)) then
      npMax2 (((nanIn d).prob.ub i - (nanIn d).prob.x i) / nan) (((nanIn d).prob.lb i - (nanIn d).prob.x i) / nan)
      else FloatOps.inf) = pinf := by
      simp [vmin, npMin2]
    have hal : npMin2 (lit 1) ((nanIn d).prob.theta * (pinf : Num)) = fin 1 := by
      simp [TRIn.prob, nanIn, fin_mul_pinf, infSign_pos, npMin2]
    have hz : vadd (fun _ => nan) (vzero : Vec Num 1) = fun _ => nan := by
      apply vec1_eq; simp [vadd]
    have hv0 : (vzero : Vec Num 1) = v1 0 := by apply v1_eq; simp
    simp only [step2d, hsub, Step.calculate, Step.computeStep, Step.init, hsol, hss, hs, Step.stepBack, hmin, hal, nan_mul, hz]
    refine ⟨_, rfl, rfl, hv0, rfl, hv0, ?_, rfl⟩
    show quadraticForm _ _ (fun _ => nan) = _
    simp [quadraticForm, dot, sum_cons]
  obtain ⟨step, h1, h2, h3, h4, h5, h6, h7⟩ := hst
  refine ⟨step, ?_, h2, h3, h4, h5, h6, h7⟩
  simp [trustRegion, candidates, trStep, h1, h7, argminGo]

/-- the evaluation at `x = 1` -/
def nanFirst (k : ℕ) : Funout Num 1 :=
  { x := v1 1, xId := k, fval := fin (1 / 2), grad := v1 1, hess := some fun _ _ => fin 0, res := none }
/-- the evaluations at NaN -/
def nanTrial (f : Num) (k : ℕ) : Funout Num 1 :=
  { x := fun _ => nan, xId := k, fval := f, grad := v1 1, hess := some fun _ _ => fin 0, res := none }

/-- the optimizer sits at the starting point -/
structure Stuck (k : ℕ) (d : ℝ) (st : St Num 1) : Prop where
  x : st.x = v1 1
  fval : st.fval = fin (1 / 2)
  grad : st.grad = v1 1
  hess : st.hess = fun _ _ => fin 0
  delta : st.delta = fin d
  iteration : st.iteration = k
  converged : st.converged = false
  starttime : st.starttime = fin 0

theorem nan_opts (M : Int) (f : Num) : (nanEnv M f).opts =
    { maxiter := M, maxtime := pinf, fatol := fin (1 / 100000000), frtol := fin (1 / 100000000), xtol := fin 0,
      gatol := fin (1 / 1000000), grtol := fin 0, subspaceDim := .two, stepbackStrat := .reflect,
      thetaMax := fin (19 / 20), deltaInit := fin 1, mu := fin (1 / 4), eta := fin (3 / 4), gamma1 := fin (1 / 4),
      gamma2 := fin 2, history := false } := by
  show ({ (resolveOpts [] : Opts Num) with maxiter := M } : Opts Num) = _
  rw [demo_opts]

theorem nan_start (M : Int) (f : Num) (st0 : St Num 1) (hh : st0.happ = none) :
    ∃ st k, LoopHead (nanEnv M f) (v1 1) "run" .hessStr st0 0 st (nanFirst k) ∧ Stuck 0 1 st := by
  have hnud : nudge (nanEnv M f).lb (nanEnv M f).ub (v1 1) = v1 1 := demo_nudge 0 f f 1
  have hx : (startState (nanEnv M f) (v1 1) "run" st0).x = v1 1 := hnud
  have hb : inBounds (nanEnv M f).lb (nanEnv M f).ub (v1 1) = true := inBounds_real _ _ _ (demo_box 0 f f 1)
  refine ⟨{ setupState (startState (nanEnv M f) (v1 1) "run" st0)
      (nanFirst (startState (nanEnv M f) (v1 1) "run" st0).xId) none with converged := false },
    (startState (nanEnv M f) (v1 1) "run" st0).xId, LoopHead.start (startState (nanEnv M f) (v1 1) "run" st0) _ _ ?_ ?_, ?_⟩
  · rw [hx, checkInBounds, if_pos hb]
  · refine setup_forward _ _ _ { fval := .scalar (fin (1 / 2)), grad := .arr [1] [fin 1], hess := .arr [1, 1] [fin 0], res := .none, sres := .none } _ _ ?_ ?_ ?_ ?_ ?_
    · rw [hx]; simp [nanEnv, funEval]
    · have : (startState (nanEnv M f) (v1 1) "run" st0).happ = none := hh
      rw [this]; rfl
    · rfl
    · rw [hx, typed_one]; rfl
    · simp [nanFirst, allFinite, vfinite, mfinite, v1]
  · obtain ⟨a, b, c, d, h⟩ := setupState_frame (startState (nanEnv M f) (v1 1) "run" st0)
      (nanFirst (startState (nanEnv M f) (v1 1) "run" st0).xId) none
    rw [h]
    refine ⟨hx, rfl, rfl, rfl, ?_, rfl, rfl, rfl⟩
    show (nanEnv M f).opts.deltaInit = _
    rw [nan_opts]

theorem nan_continue (M : Int) (f : Num) (k : ℕ) (d : ℝ) (st : St Num 1) (h : Stuck k d st) (hk : (k : Int) < M)
    (hd : 1 / 4503599627370496 ≤ d) : checkContinue (nanEnv M f) st = (true, { st with ticks := st.ticks + 1 }) := by
  have hck : ∀ k, (nanEnv M f).clock k = fin 0 := fun _ => rfl
  have hnn : ((if st.iteration = 0 then 1 else st.iteration : ℕ) : ℝ) ≠ 0 := by
    split
    · norm_num
    · exact_mod_cast by assumption
  have hdiv : ((fin 0 - fin 0 : Num) / lit ((if st.iteration = 0 then 1 else st.iteration : ℕ) : ℚ)) = fin 0 := by
    rw [lit_def, fin_sub, Rat.cast_natCast, fin_div _ _ hnn]; simp
  unfold checkContinue
  rw [nan_opts]
  simp only [h.converged, h.delta, h.starttime, hck, h.iteration, Bool.false_eq_true, if_false, not_le.mpr hk]
  rw [h.iteration] at hdiv
  simp only [hdiv]
  norm_num [spacing1]
  linarith

/-- one pass: nothing changes but the radius -/
theorem nan_pass (M : Int) (f : Num) (st0 : St Num 1) (k : ℕ) (d : ℝ) (st : St Num 1) (j : ℕ) (hf : f = nan ∨ ∃ r : ℝ, f = fin r)
    (h : LoopHead (nanEnv M f) (v1 1) "run" .hessStr st0 k st (nanFirst j)) (hs : Stuck k d st) (hk : (k : Int) < M)
    (hd : 1 / 4503599627370496 ≤ d) :
    ∃ st', LoopHead (nanEnv M f) (v1 1) "run" .hessStr st0 (k + 1) st' (nanFirst j) ∧
      Stuck (k + 1) (if isFinite f then d else d / 4) st' ∧
      st'.trRatio = (if isFinite f then nan else fin 0) ∧
      ∃ step new, Pass (nanEnv M f) st (nanFirst j) step new st' (nanFirst j) ∧ step.s = (fun _ => nan) ∧ new.x = fun _ => nan := by
  have hd0 : 0 < d := lt_of_lt_of_le (by norm_num) hd
  obtain ⟨step, htr, h2, h3, h4, h5, h6, h7⟩ := nan_tr zeroOracles 10 .reflect ⟨_, rfl⟩ ⟨_, _, _, rfl⟩ d hd0
  have hc := nan_continue M f k d st hs hk hd
  have hin : trInput (nanEnv M f) (preIter { st with ticks := st.ticks + 1 }) = nanIn d := by
    have hv : affineV (nanEnv M f).lb (nanEnv M f).ub (v1 1) (v1 1) = v1 1 := by
      apply v1_eq; simp [affineV, nanEnv, v1, fsign]; norm_num
    have hdv : affineDv (nanEnv M f).lb (nanEnv M f).ub (v1 1) = v1 0 := by
      apply v1_eq; simp [affineDv, nanEnv, v1]; norm_num
    unfold trInput nanIn
    rw [nan_opts]
    simp only [preIter, hs.x, hs.grad, hs.hess, hs.delta, hv, hdv]
    congr 1
    · apply v1_eq; simp [v1]
    · simp [thetaOf, normInf, v1, npMax2, pyMax]
      norm_num
  have htp : trialPoint { st with ticks := st.ticks + 1 } step = fun _ => nan := by
    unfold trialPoint
    rw [h2, h3]
    funext i
    simp [vadd]
  have hne : (fun _ => nan : Vec Num 1) ≠ v1 1 := by
    intro h; have := congrFun h 0; simp [v1] at this
  have hout : trialOut (nanEnv M f) { st with ticks := st.ticks + 1 } step = .ok (nanTrial f st.nextId) := by
    refine trialOut_forward _ _ _ { fval := .scalar f, grad := .arr [1] [fin 1], hess := .arr [1, 1] [fin 0], res := .none, sres := .none } _ ?_ ?_
    · rw [htp]; simp [nanEnv, funEval, hne]
    · rw [htp, typed_one]; rfl
  have hfin : allFinite st.fval st.grad (some st.hess) = true := by
    rw [hs.fval, hs.grad, hs.hess]; simp [allFinite, vfinite, mfinite, v1]
  have hsx : vadd step.ss step.ss0 = fun _ => nan := by rw [h4, h5]; funext i; simp [vadd]
  have hnm : Fides.norm (fun _ => nan : Vec Num 1) = nan := by simp [norm, dot, sum_cons]; rfl
  have hrs : radiusStep (nanEnv M f) { st with ticks := st.ticks + 1 } step (nanTrial f st.nextId) =
      (false, { afterEval { st with ticks := st.ticks + 1 } step (.ok (nanTrial f st.nextId)) with
        trRatio := if isFinite f then nan else fin 0, delta := fin (if isFinite f then d else d / 4),
        iterSinceTr := if isFinite f then st.iterSinceTr + 1 else 0 }) := by
    unfold radiusStep
    rw [hin]
    have hde : (afterEval { st with ticks := st.ticks + 1 } step (.ok (nanTrial f st.nextId))).delta = fin d := hs.delta
    unfold updateTrRadius
    rw [nan_opts]
    rcases hf with rfl | ⟨r, rfl⟩
    · have : isFinite (nanTrial nan st.nextId).fval = false := rfl
      simp only [this, Bool.not_false, if_true, isFinite_nan, Bool.false_eq_true, if_false, hsx, hnm, nan_div, hde, fin_mul]
      have h1 : nanMin2 (fin (d * (1 / 4))) nan = fin (d / 4) := by
        simp only [nanMin2, fin_isNaN, isNaN_nan, Bool.false_eq_true, if_false, if_true]
        congr 1; ring
      rw [h1, lit_def, Rat.cast_zero]
    · have h1 : isFinite (nanTrial (fin r) st.nextId).fval = true := rfl
      have h8 : ∀ w : Vec Num 1, dot (fun _ => nan : Vec Num 1) w = nan := fun w => by simp [dot, sum_cons]
      simp only [h1, Bool.not_true, Bool.false_eq_true, if_false, hsx, hnm, h6, neg_nan, nan_le, h8, mul_nan, sub_nan, nan_div,
        nan_lt, le_nan, lt_nan, Bool.false_and, fin_isFinite, if_true]
      rw [← hde]
      rfl
  have hrej := iterate_reject (nanEnv M f) { st with ticks := st.ticks + 1 } (nanFirst j) step (nanTrial f st.nextId)
    (by rw [nan_opts]) hfin (by rw [hin]; exact htr) hout (fun hff => by
      have : isFinite f = true := hff
      simp [nanTrial, allFinite, vfinite, mfinite, v1, this]) (by rw [hrs])
  have hfr : ∃ r d i m ef c mx mxi mf mg, postCheck (nanEnv M f) { st with ticks := st.ticks + 1 } step (nanTrial f st.nextId) =
      { afterEval { st with ticks := st.ticks + 1 } step (.ok (nanTrial f st.nextId)) with
        trRatio := r, delta := d, iterSinceTr := i, nIntermediate := m, exitflag := ef, converged := c,
        xMin := mx, xMinId := mxi, fvalMin := mf, gradMin := mg } := postCheck_frame _ _ _ _
  refine ⟨_, .next k st _ _ _ _ h hc hrej, ?_⟩
  rw [← and_assoc]
  refine ⟨?_, step, nanTrial f st.nextId, ⟨hc, hrej, ?_, ?_, ?_⟩, h2, rfl⟩
  · have hcc : ∀ s : St Num 1, s.fval = fin (1 / 2) → s.trRatio = (if isFinite f then nan else fin 0) →
        checkConvergence (nanEnv M f) step (nanTrial f st.nextId) s = { s with converged := false } := by
      intro s hsf hsr
      have hg : Fides.norm (nanTrial f st.nextId).grad = fin 1 := by simp [nanTrial, v1, rnorm, rdot_one]
      unfold checkConvergence
      rw [nan_opts, hsx, hnm, hg, hsf, hsr]
      simp only [nan_lt, Bool.and_false, Bool.false_eq_true, if_false, fin_mul, fin_abs, fin_le]
      have h0 : lt (fin (1 / 4)) (if isFinite f = true then nan else fin 0) = false := by
        split
        · rfl
        · simp only [fin_lt, decide_eq_false_iff_not]; norm_num
      rw [h0]
      norm_num
    obtain ⟨a, b, c, e, htm⟩ := trackMinimum_frame (nanTrial f st.nextId)
      (checkConvergence (nanEnv M f) step (nanTrial f st.nextId)
        (radiusStep (nanEnv M f) { st with ticks := st.ticks + 1 } step (nanTrial f st.nextId)).2)
    unfold postCheck
    rw [htm, hrs, hcc _ (by exact hs.fval) rfl]
    refine ⟨⟨hs.x, hs.fval, hs.grad, hs.hess, rfl, ?_, rfl, hs.starttime⟩, rfl⟩
    show st.iteration + 1 = _
    rw [hs.iteration]
  · show trustRegion _ _ _ _ _ = _
    have hin' : trInput (nanEnv M f) { st with iteration := st.iteration + 1, deltaIter := st.delta, ticks := st.ticks + 1 } = nanIn d := hin
    rw [hin']; exact htr
  · obtain ⟨r, d', i, m, ef, c, mx, mxi, mf, mg, hpf⟩ := hfr
    rw [hpf]; rfl
  · have : trialPoint { st with ticks := st.ticks + 1 } step = vadd (vadd st.x step.s) step.s0 := rfl
    rw [← this, htp]; rfl

/-- the radius after `k` passes -/
def stuckRadius (f : Num) (k : ℕ) : ℝ := if isFinite f then 1 else (1 / 4) ^ k

theorem nan_heads (M : Int) (f : Num) (st0 : St Num 1) (hh : st0.happ = none) (hf : f = nan ∨ ∃ r : ℝ, f = fin r) (k : ℕ)
    (hk : (k : Int) ≤ M) (hr : ∀ i < k, 1 / 4503599627370496 ≤ stuckRadius f i) :
    ∃ st j, LoopHead (nanEnv M f) (v1 1) "run" .hessStr st0 k st (nanFirst j) ∧ Stuck k (stuckRadius f k) st := by
  induction k with
  | zero =>
    obtain ⟨st, j, h1, h2⟩ := nan_start M f st0 hh
    refine ⟨st, j, h1, ?_⟩
    have : stuckRadius f 0 = 1 := by unfold stuckRadius; split <;> simp
    rw [this]; exact h2
  | succ k ih =>
    obtain ⟨st, j, h1, h2⟩ := ih (by push_cast at hk; omega) (fun i hi => hr i (by omega))
    obtain ⟨st', h3, h4, _⟩ := nan_pass M f st0 k _ st j hf h1 h2 (by push_cast at hk; omega) (hr k (by omega))
    refine ⟨st', j, h3, ?_⟩
    have : stuckRadius f (k + 1) = if isFinite f then stuckRadius f k else stuckRadius f k / 4 := by
      unfold stuckRadius
      split
      · rfl
      · rw [pow_succ]; ring
    rw [this]; exact h4

end

end Fides
