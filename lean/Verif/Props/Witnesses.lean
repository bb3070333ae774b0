import Verif.Props.TrustExamples
import Verif.Props.ReflectNan
import Verif.Props.StepBack
import Verif.Props.Loops
import Verif.Props.Structured
import Verif.Props.Evaluations
import Verif.Props.History
import Verif.Props.Recording
import Verif.Props.Errors
import Verif.Props.Initial
import Verif.Props.Logging
import Verif.Props.Fixed
import Verif.Lemmas.BfgsDemo

/-!
# Concrete cases that meet the hypotheses of theorems of C21, C24, C27, C30, C35, C36, C40-C42, C44, C47, C48, C53

Each example names the theorem it belongs to.
-/

namespace Fides
open Num Spec

noncomputable section

/-! ## C21 -/

/-- C21_radius: the indefinite branch on a concrete matrix -/
example : ∃ s ty, solveNd tdOracles.sub (ofM (fun i j => if i = j then ![(-9 : ℝ), 16] i else 0)) (ofV (-![-10, 0])) (fin (51 / 25)) = .ok (s, ty) ∧
    (ty = .posdef ∨ ty = .indef) ∧ le (norm s) (fin (51 / 25 + 1 / 67108864)) = true :=
  ⟨_, _, td_base_nd, Or.inr rfl, C21_radius _ _ _ _ _ _ td_base_nd (Or.inr rfl)⟩

/-- C21_radius_hard: the hard case for `diag(-1, 1)`, gradient `(0, 1)`, radius 1 -/
example : tdOracles.sub.eig (ofM (fun i j => if i = j then ![(-1 : ℝ), 1] i else 0)) = .ok (ofV ![-1, 1], ofM idM) ∧ OrthoCols (idM : Fin 2 → Fin 2 → ℝ) ∧
    (∀ j, argminIdx (ofV ![(-1 : ℝ), 1]) = some j → ¬ 0 < ![(-1 : ℝ), 1] j ∧
      lt (secular (fin (-(![(-1 : ℝ), 1] j))) (fun i => -(dot (fun l => ofM (idM : Fin 2 → Fin 2 → ℝ) l i) (ofV ![0, 1]))) (ofV ![-1, 1]) (ofM idM) (fin 1)) (fin 0) = false) ∧
    ∃ s, solveNd tdOracles.sub (ofM (fun i j => if i = j then ![(-1 : ℝ), 1] i else 0)) (ofV ![0, 1]) (fin 1) = .ok (s, .hard) := by
  have hw : (fun i => -(dot (fun l => ofM (idM : Fin 2 → Fin 2 → ℝ) l i) (ofV ![0, 1]))) = ofV ![0, -1] := by
    funext i
    refine (congrArg Neg.neg (dot_ofV (fun l => idM l i) _)).trans ?_
    simp only [fin_neg, ofV_apply, fin_inj, rdot, Fin.sum_univ_two, idM]
    fin_cases i <;> simp
  obtain ⟨j, hj, hmin⟩ := argminIdx_fin ![(-1 : ℝ), 1] (by norm_num)
  have hj0 : j = 0 := by
    fin_cases j
    · rfl
    · have := hmin 0; norm_num at this
  subst hj0
  have hn : rnorm (slamC 1 ![0, -1] ![-1, 1]) = 1 / 2 := by
    rw [rnorm, show rdot (slamC 1 ![0, -1] ![-1, 1]) (slamC 1 ![0, -1] ![-1, 1]) = 1 / 2 * (1 / 2) by
      simp [rdot, slamC, Fin.sum_univ_two]; norm_num, Real.sqrt_mul_self (by norm_num)]
  have hsec : lt (secular (fin 1) (ofV ![0, -1]) (ofV ![-1, 1]) (ofM idM) (fin 1)) (fin 0) = false := by
    rw [secular_fin _ _ _ _ _ 0 hmin (by norm_num), if_neg (by norm_num), idM_rmv, hn, if_pos (by norm_num)]
    norm_num
  refine ⟨td_eig _, (diag_isEig ![(-1 : ℝ), 1]).1, ?_, ?_⟩
  · intro j' hj'
    rw [hj] at hj'
    cases hj'
    refine ⟨by norm_num, ?_⟩
    rw [hw]
    simpa using hsec
  · rw [solveNd, if_neg (by simp), td_eig]
    have hv : ofV ![(-1 : ℝ), 1] 0 = fin (-1) := rfl
    have hlt : lt (Fides.lit 0 : Num) (fin (-1)) = false := by norm_num
    have hsec' : lt (secular (fin 1) (ofV ![0, -1]) (ofV ![-1, 1]) (ofM idM) (fin 1)) (Fides.lit 0 : Num) = false := by simpa using hsec
    simp only [hj, hw, hv, hlt, Bool.false_and, Bool.false_eq_true, if_false, fin_neg, neg_neg, hsec']
    exact ⟨_, rfl⟩

/-! ## C24, C27 -/

/-- C24_nan_preferred: a reflected step with NaN model value is among the candidates -/
example : ∃ tr rest best, candidates tdOracles 5 rdIn.prob .full .singleReflect = .ok (tr, rest) ∧ (∃ st ∈ tr :: rest, st.qpval = nan) ∧
    trustRegion tdOracles 5 .full .singleReflect rdIn = .ok best := by
  obtain ⟨tr, htr, h1, h2, h3, h4, h5, h6, h7, q, hq⟩ := rd_base
  obtain ⟨rf, hrf, hr1, hr2, hr3⟩ := rd_reflected tr h1 h2 h3 h4 h5 h6
  obtain ⟨gs, t, a, hg, _, _, _, _, _, _, _, hgq, _⟩ := gradStep_spec tdOracles rd_data (Real.sqrt_nonneg _) (by norm_num) rd_box
  have h8' : lt tr.alpha (Fides.lit 1) = true := by rw [h7]; norm_num
  have hc : candidates tdOracles 5 rdIn.prob .full .singleReflect = .ok (tr, [gs, rf]) := by
    simp only [candidates, trStep, htr, h8', Bool.true_and, hg, stepbackCandidates, hrf]
    rfl
  refine ⟨tr, _, argminGo (fun st : Step Num 2 => st.qpval) tr [gs, rf], hc, ⟨rf, by simp, hr1⟩, ?_⟩
  rw [trustRegion, hc]

/-- C24_best: three candidates, none with NaN model value -/
example : ∃ tr rest best, candidates tdOracles 5 tdIn.prob .two .singleReflect = .ok (tr, rest) ∧ rest.length = 2 ∧
    (∀ st ∈ tr :: rest, isNaN st.qpval = false) ∧ trustRegion tdOracles 5 .two .singleReflect tdIn = .ok best := by
  obtain ⟨tr, gs, rf, hc, h⟩ := td_candidates
  refine ⟨tr, _, argminGo (fun st : Step Num 2 => st.qpval) tr [gs, rf], hc, rfl, ?_, ?_⟩
  · intro st hst
    obtain ⟨q, hq⟩ := h st hst
    rw [hq, fin_isNaN]
  · rw [trustRegion, hc]

/-- the reflected problem: the candidates are the trust-region step and a NaN step -/
theorem rd_reflect_list : ∃ tr rf, stepFull tdOracles rdIn.prob = .ok tr ∧ stepReflected tdOracles rdIn.prob tr = .ok rf ∧ rf.qpval = nan ∧
    stepbackReflect tdOracles rdIn.prob tr = .ok [rf] := by
  obtain ⟨tr, htr, h1, h2, h3, h4, h5, h6, h7, _⟩ := rd_base
  obtain ⟨rf, hrf, hq, _, ha⟩ := rd_reflected tr h1 h2 h3 h4 h5 h6
  refine ⟨tr, rf, htr, hrf, hq, ?_⟩
  simp only [stepbackReflect, hrf]
  have : reflectLoop tdOracles rdIn.prob (2 - 1) rf = .ok [] := by
    show reflectLoop tdOracles rdIn.prob 1 rf = .ok []
    unfold reflectLoop
    rw [if_pos ha]
  rw [this]

/-- C27_reflect: the list of reflected steps of a concrete problem with two variables -/
example : ∃ tr l, stepbackReflect tdOracles rdIn.prob tr = .ok l ∧ l.length = 1 := by
  obtain ⟨tr, rf, _, _, _, h⟩ := rd_reflect_list
  exact ⟨tr, _, h, rfl⟩

/-- C27_truncate: the trust-region step of the demo problem is cut at a bound, two variables, one truncation allowed -/
example : RealData tdIn 0 1 ![8, -6] ![0, 1] (fun i j => ![![0, 12], ![12, 1]] i j) (51 / 25) (24 / 25) ∧ InBox tdIn.lb tdIn.ub 0 ∧ FiniteOracles tdOracles ∧
    ∃ tr, trStep tdOracles 5 tdIn.prob .two = .ok tr ∧ lt tr.alpha (fin 1) = true := by
  obtain ⟨tr, _, h1, h2, _⟩ := td_single
  exact ⟨td_data, td_box, td_finite, tr, h1, h2⟩

/-! ## C35 -/

/-- C35_bg -/
example : ({ scheme := .bg, hess := meye, diff := mzero } : IterApprox Num 2).scheme = .bg ∧
    ({ scheme := .bg, hess := meye, diff := mzero } : IterApprox Num 2).getMat = ofM (fun i j => if i = j then 1 else 0) ∧ (![1, 2] : Fin 2 → ℝ) ≠ 0 :=
  ⟨rfl, by show (meye : Mat Num 2 2) = _; rw [meye_ofM], fun h => by have := congrFun h 0; norm_num at this⟩

/-! ## C36, C40, C41 -/

/-- a structured object in two variables with nonzero structured part -/
def ssDemo : Structured Num 2 where
  phi := fin 0
  enforceCurvCond := true
  A := ofM (fun i j => if i = j then 2 else 0)
  sdiff := mzero
  hess := meye
  diff := mzero

theorem ssDemo_facts : ssDemo.phi = fin 0 ∧ ssDemo.A = ofM (fun i j => if i = j then 2 else 0) ∧ ssDemo.hess = ofM (fun i j => if i = j then 1 else 0) :=
  ⟨rfl, rfl, by show (meye : Mat Num 2 2) = _; rw [meye_ofM]⟩

/-- C36_ssm: all hypotheses hold for `C = [[1, 1], [1, 3]]`, `s = (1, 2)`, `yb = (3, 1)` -/
example : 0 < rdot (![3, 1] + rmv (fun i j => ![![(1 : ℝ), 1], ![1, 3]] i j) ![1, 2]) ![1, 2] ∧
    rdot (rmv ((fun i j => ![![(1 : ℝ), 1], ![1, 3]] i j) + fun i j => if i = j then 2 else 0) ![1, 2]) ![1, 2] ≠ 0 := by
  constructor
  · simp [rdot, rmv, Fin.sum_univ_two]; norm_num
  · simp [rdot, rmv, Fin.sum_univ_two]; norm_num

/-- C36_tssm: the same with `‖r‖ = 1/2` -/
example : 0 < rdot (rmv (fun i j => ![![(1 : ℝ), 1], ![1, 3]] i j) ![1, 2] + ![3, 1]) ![1, 2] ∧
    rdot (rmv ((fun i j => ![![(1 : ℝ), 1], ![1, 3]] i j) + (1 / 2 : ℝ) • fun i j => if i = j then 2 else 0) ![1, 2]) ![1, 2] ≠ 0 := by
  constructor
  · simp [rdot, rmv, Fin.sum_univ_two]; norm_num
  · simp [rdot, rmv, Fin.sum_univ_two]; norm_num

/-- C36_gnsbfgs: the ratio is above the tolerance `1/1000000` for `yb = (3, 1)`, and below for `yb = (-3, 1)` -/
example : (1 / 1000000 : ℝ) < rdot ![3, 1] ![(1 : ℝ), 2] / rdot ![(1 : ℝ), 2] ![1, 2] ∧
    rdot (rmv (fun i j : Fin 2 => if i = j then (2 : ℝ) else 0) ![1, 2]) ![1, 2] ≠ 0 ∧
    ¬ (1 / 1000000 : ℝ) < rdot ![-3, 1] ![(1 : ℝ), 2] / rdot ![(1 : ℝ), 2] ![1, 2] := by
  refine ⟨?_, ?_, ?_⟩ <;> · simp [rdot, rmv, Fin.sum_univ_two]; norm_num

/-- C40_structured: finite matrices before and after, SSM and TSSM -/
example : Finite ssDemo.hess ∧ Finite (ssDemo.updateSSM (ofV ![1, 2]) (ofV ![0, 0]) (ofM fun i j => ![![(1 : ℝ), 1], ![1, 3]] i j) (ofV ![3, 1])).hess ∧
    Finite (ssDemo.updateTSSM (ofV ![1, 2]) (ofV ![0, 0]) (fin (1 / 2)) (ofM fun i j => ![![(1 : ℝ), 1], ![1, 3]] i j) (ofV ![3, 1])).hess := by
  refine ⟨⟨_, ssDemo_facts.2.2⟩, ?_, ?_⟩
  · obtain ⟨A', _, h, _⟩ := C36_ssm ssDemo 0 (fun i j => if i = j then 2 else 0) (fun i j => ![![(1 : ℝ), 1], ![1, 3]] i j) ![1, 2] ![0, 0] ![3, 1] rfl rfl
      (by simp [rdot, rmv, Fin.sum_univ_two]; norm_num) (by simp [rdot, rmv, Fin.sum_univ_two]; norm_num)
      (by intro _; simp [rdot, rmv, Fin.sum_univ_two]; norm_num)
    exact ⟨_, h⟩
  · obtain ⟨A', _, h, _⟩ := C36_tssm ssDemo 0 (1 / 2) (fun i j => if i = j then 2 else 0) (fun i j => ![![(1 : ℝ), 1], ![1, 3]] i j) ![1, 2] ![0, 0] ![3, 1] rfl rfl
      (by norm_num) (by simp [rdot, rmv, Fin.sum_univ_two]; norm_num) (by simp [rdot, rmv, Fin.sum_univ_two]; norm_num)
      (by intro _; simp [rdot, rmv, Fin.sum_univ_two]; norm_num)
    exact ⟨_, h⟩

/-- a hybrid object in two variables around BFGS -/
def hyDemo : Hybrid Num 2 where
  inner := { scheme := .broyden (fin 0) true, hess := meye, diff := mzero }
  hess := meye
  diff := mzero

/-- C40_switch before the switch, C40_fx -/
example : Finite hyDemo.hess ∧ Finite hyDemo.inner.getMat ∧ Finite (hyDemo.switchedUpdate false (ofV ![1, 2]) (ofV ![3, 1]) (ofM fun i j => ![![(1 : ℝ), 1], ![1, 3]] i j)).hess :=
  ⟨⟨_, by show (meye : Mat Num 2 2) = _; rw [meye_ofM]⟩, ⟨_, by show (meye : Mat Num 2 2) = _; rw [meye_ofM]⟩, ⟨_, rfl⟩⟩

/-- C40_switch after the switch: BFGS with `s = (1, 2)`, `y = (3, 1)` -/
example : Finite (hyDemo.switchedUpdate true (ofV ![1, 2]) (ofV ![3, 1]) (ofM fun i j => ![![(1 : ℝ), 1], ![1, 3]] i j)).hess := by
  show Finite (hyDemo.inner.update (ofV ![1, 2]) (ofV ![3, 1])).getMat
  have h1 : rdot (![3, 1] : Fin 2 → ℝ) ![1, 2] ≠ 0 := by simp [rdot, Fin.sum_univ_two]; norm_num
  have h2 : rdot (rmv (fun i j : Fin 2 => if i = j then (1 : ℝ) else 0) ![1, 2]) ![1, 2] ≠ 0 := by simp [rdot, rmv, Fin.sum_univ_two]; norm_num
  have key := broyden_fin (![3, 1] : Fin 2 → ℝ) ![1, 2] (fun i j => if i = j then 1 else 0) 0 true h1 h2 (by intro _; simp [rdot, Fin.sum_univ_two]; norm_num)
  refine ⟨(fun i j => if i = j then 1 else 0) + rbroyden (![3, 1] : Fin 2 → ℝ) ![1, 2] (fun i j => if i = j then 1 else 0) 0, ?_⟩
  simp only [hyDemo, IterApprox.update, IterApprox.getMat, IterApprox.computeUpdate, meye_ofM, key, madd_ofM]

/-! ## C42, C44 -/

/-- C42_count: a run with exact Hessian and the residual-based schemes differ -/
example : nargoutOf (none : Option (Happ Num 2)) = 3 ∧ nargoutOf (some (.iter hyDemo.inner)) = 2 ∧ nargoutOf (some (.ssm ssDemo)) = 2 := by
  decide

/-- C44_error: a gradient of length 3 for two variables -/
example : ∃ o : RawOut Num, IsNumeric o.grad ∧ (o.hess = .none ∨ IsNumeric o.hess) ∧ ¬ GoodShape 2 o ∧ checkdims 2 o = .error .valueError := by
  have hbad : ¬ GoodShape 2 ({ fval := .scalar (fin 1), grad := .arr [3] [fin 1, fin 1, fin 1], hess := .none, res := .none, sres := .none } : RawOut Num) := by
    rintro ⟨_, ⟨g, hg⟩, _⟩
    cases hg
  refine ⟨_, ?_, Or.inl rfl, hbad, C44_error _ trivial (Or.inl rfl) hbad⟩
  exact trivial

/-- C44_run: a run that returns -/
example : ∃ st', minimize (demoEnv (1 / 100000000) (fin 0) (fin 0)) 1 (v1 1) "run" .hessStr demoSt0 = .ok st' := by
  obtain ⟨s, h, _⟩ := demo_ok
  exact ⟨s, h⟩

/-! ## C47, C53 -/

/-- C53_same_return: all hypotheses hold -/
example : Quiet (demoEnv (1 / 100000000) (fin 0) (fin 0)) ∧ (demoEnv (1 / 100000000) (fin 0) (fin 0)).opts.history = false ∧
    (∀ p ∈ demoSt0.file, p.1 ≠ "run") ∧ ∃ s, minimize (demoEnv (1 / 100000000) (fin 0) (fin 0)) 1 (v1 1) "run" .hessStr demoSt0 = .ok s := by
  obtain ⟨s, h, _⟩ := demo_ok
  exact ⟨demo_quiet _ _ _, by show (resolveOpts [] : Opts Num).history = _; rw [demo_opts], (by intro p hp; cases hp), s, h⟩

/-- an objective that is NaN everywhere -/
def nanObjEnv : Env Num 1 where
  __ := demoEnv (1 / 100000000) (fin 0) (fin 0)
  obj := fun _ _ => .tuple [.scalar nan, .arr [1] [fin 1], .arr [1, 1] [fin 1]]

/-- C53_same_error, C47_atomic: all hypotheses hold for an objective that is NaN everywhere -/
example : Quiet nanObjEnv ∧ nanObjEnv.opts.history = false ∧ ∃ s, minimize nanObjEnv 1 (v1 1) "run" .hessStr demoSt0 = .error (.runtimeError, s) := by
  refine ⟨demo_quiet (1 / 100000000) (fin 0) (fin 0), by show (resolveOpts [] : Opts Num).history = _; rw [demo_opts], ?_⟩
  have hx : (startState nanObjEnv (v1 1) "run" demoSt0).x = v1 1 := demo_nudge (1 / 100000000) (fin 0) (fin 0) 1
  have hb : inBounds nanObjEnv.lb nanObjEnv.ub (v1 1) = true := inBounds_real _ _ _ (demo_box (1 / 100000000) (fin 0) (fin 0) 1)
  have hc : checkInBounds nanObjEnv (startState nanObjEnv (v1 1) "run" demoSt0).x (startState nanObjEnv (v1 1) "run" demoSt0) = .ok (startState nanObjEnv (v1 1) "run" demoSt0) := by
    rw [hx, checkInBounds, if_pos hb]
  unfold minimize
  simp only [Nat.one_ne_zero, if_false]
  have hc' := hc
  unfold startState at hc'
  rw [hc']
  simp only
  have hnf : ¬ FiniteEval ({ x := v1 1, xId := (startState nanObjEnv (v1 1) "run" demoSt0).xId, fval := nan, grad := fun _ => fin 1, hess := some fun _ _ => fin 1, res := none } : Funout Num 1) :=
    fun h => by have := h.1; cases this
  obtain ⟨st', h, _⟩ := C15_first nanObjEnv .hessStr (startState nanObjEnv (v1 1) "run" demoSt0)
    ⟨.scalar nan, .arr [1] [fin 1], .arr [1, 1] [fin 1], .none, .none⟩ none _ (by simp [funEval, nanObjEnv, demoEnv]) rfl
    (by simp [checkdims]) (by rw [hx]; exact typed_one _ _ _ _ _) hnf
  unfold startState at h
  rw [h]
  exact ⟨_, rfl⟩

/-- C47_complete, C47_fval, C47_row: a run with history that performs one pass -/
example : ∃ st' prev cur step new next cur', minimize ((demoEnv (1 / 100000000) (fin 0) (fin 0)).recording true) 1 (v1 1) "run" .hessStr demoSt0 = .ok st' ∧
    st'.iteration = 1 ∧ LoopHead ((demoEnv (1 / 100000000) (fin 0) (fin 0)).recording true) (v1 1) "run" .hessStr demoSt0 0 prev cur ∧
    Pass ((demoEnv (1 / 100000000) (fin 0) (fin 0)).recording true) prev cur step new next cur' := by
  obtain ⟨st', h, h1, _⟩ := demo_recorded
  obtain ⟨_, k, st1, cur, st2, _, hh, hc, hw⟩ := minimize_ok _ _ _ _ _ 1 st' h
  have hk : k = 1 := by
    obtain ⟨f, rfl⟩ := writeHistory_ok _ _ _ hw
    have hi := (headInv _ _ _ _ _ k st1 cur hh).iteration
    have h1' : st2.iteration = 1 := h1
    have : st2.iteration = st1.iteration := by
      rcases checkContinue_false _ _ _ hc with ⟨_, h⟩ | ⟨_, _, h⟩ | ⟨_, _, _, h⟩ | ⟨_, _, _, h⟩ <;> rw [h]
    omega
  subst hk
  obtain ⟨prev, cur0, step, new, hp, hpass⟩ := loopHead_pass _ _ _ _ _ 0 st1 cur hh
  exact ⟨st', prev, cur0, step, new, st1, cur, h, h1, hp, hpass⟩

/-- C47_duplicate: a file that already holds the group -/
example : ∃ (st0 : St Num 1) (g : History Num), ((demoEnv 1 (fin 0) (fin 0)).recording true).opts.history = true ∧ ("run", g) ∈ st0.file :=
  ⟨{ demoSt0 with file := [("run", [])] }, [], rfl, by simp⟩

/-- C47_off: default options -/
example : (demoEnv 1 (fin 0) (fin 0)).opts.history = false := by show (resolveOpts [] : Opts Num).history = _; rw [demo_opts]

/-! ## C48 -/

/-- C48_sequential: three calls give three different loggers; C48_handlers: a schedule of two threads -/
example : (createLoggers LogWorld.init [10, 20, 20]).1.Nodup ∧ (∀ i ∈ [0, 0, 1, 1, 0, 1, 0, 1], i < 2) :=
  ⟨(C48_sequential [10, 20, 20]).1, by decide⟩

/-! ## C30 -/

/-- `lb = ub = 1` and `maxiter = 0` -/
def fixEnv : Env Num 1 where
  __ := demoEnv (1 / 100000000) (fin 0) (fin 0)
  lb := fun _ => fin 1
  ub := fun _ => fin 1
  opts := { (demoEnv (1 / 100000000) (fin 0) (fin 0)).opts with maxiter := 0 }

/-- C30_returned, C30_current: a run with a fixed variable that returns -/
example : (∃ st cur, LoopHead fixEnv (v1 1) "run" .hessStr demoSt0 0 st cur) ∧ ∃ st', minimize fixEnv 1 (v1 1) "run" .hessStr demoSt0 = .ok st' := by
  have hbox : InBox fixEnv.lb fixEnv.ub (fun _ : Fin 1 => (1 : ℝ)) := fun i => by simp [InBox1, fixEnv]
  have hx : (startState fixEnv (v1 1) "run" demoSt0).x = v1 1 := by
    obtain ⟨r', h1, h2, _⟩ := nudge_spec _ _ _ hbox
    show nudge fixEnv.lb fixEnv.ub (ofV fun _ => 1) = _
    rw [h1]
    apply v1_eq
    rw [ofV_apply, inBox1_fixed (h2 0)]
  have hb : inBounds fixEnv.lb fixEnv.ub (v1 1) = true := inBounds_real _ _ _ hbox
  have hset := setup_forward fixEnv .hessStr (startState fixEnv (v1 1) "run" demoSt0)
    { fval := .scalar (fin (1 / 2)), grad := .arr [1] [fin 1], hess := .arr [1, 1] [fin 1], res := .none, sres := .none } none
    (demoFirst (startState fixEnv (v1 1) "run" demoSt0).xId)
    (by rw [hx]; simp [fixEnv, demoEnv, funEval]) rfl rfl (by rw [hx, typed_one]; rfl) (by simp [demoFirst, allFinite, vfinite, mfinite, v1])
  have hhead : LoopHead fixEnv (v1 1) "run" .hessStr demoSt0 0 _ _ := LoopHead.start (startState fixEnv (v1 1) "run" demoSt0) _ _
    (by rw [hx, checkInBounds, if_pos hb]) hset
  refine ⟨⟨_, _, hhead⟩, ?_⟩
  have hstop : ∃ s, checkContinue fixEnv { setupState (startState fixEnv (v1 1) "run" demoSt0) (demoFirst (startState fixEnv (v1 1) "run" demoSt0).xId) none with
      converged := false } = (false, s) := by
    unfold checkContinue
    have : fixEnv.opts.maxiter = 0 := rfl
    obtain ⟨a, b, c, d, hfr⟩ := setupState_frame (startState fixEnv (v1 1) "run" demoSt0) (demoFirst (startState fixEnv (v1 1) "run" demoSt0).xId) none
    simp only [Bool.false_eq_true, if_false, this]
    rw [if_pos (by simp)]
    exact ⟨_, rfl⟩
  obtain ⟨s, hs⟩ := hstop
  have hm := minimize_of_head fixEnv (v1 1) "run" .hessStr demoSt0 _ _ _ 1 (by decide) hhead (loop_stop _ _ _ _ _ hs)
  refine ⟨s, hm.trans ?_⟩
  unfold writeHistory
  have : fixEnv.opts.history = false := by show (resolveOpts [] : Opts Num).history = _; rw [demo_opts]
  simp [this]

/-! ## C19, C41 -/

/-- C41_run: a run with BFGS reaches the loop -/
example : bfgsSt0.happ ≠ none ∧ LoopHead bfgsEnv (v1 1) "run" (.val .none) bfgsSt0 0 bfgsHead bfgsFirst :=
  ⟨fun h => by (cases h), bfgs_start⟩

/-- the demo with a time limit -/
def timeEnv : Env Num 1 where
  __ := demoEnv 1 (fin 0) (fin 0)
  opts := { (demoEnv 1 (fin 0) (fin 0)).opts with maxtime := fin 10 }

/-- C19_real: one completed pass under a time limit -/
example : ∃ prev cur step new next cur', (∀ k, timeEnv.clock k = fin 0) ∧ timeEnv.opts.maxtime = fin 10 ∧
    LoopHead timeEnv (v1 1) "run" .hessStr demoSt0 0 prev cur ∧ Pass timeEnv prev cur step new next cur' := by
  obtain ⟨st', _, _, _, _, _, _, step, k, next, cur', hp, _⟩ := demo_run_gen 1 0 0 .ftol
    (demo_ftol _ _ _ (by norm_num) (by norm_num [abs_of_neg])) demoSt0 rfl 0
  have hs : LoopHead timeEnv (v1 1) "run" .hessStr demoSt0 0 (demoHead 1 (fin 0) (fin 0) demoSt0)
      (demoFirst (startState (demoEnv 1 (fin 0) (fin 0)) (v1 1) "run" demoSt0).xId) := by
    cases demo_start 1 (fin 0) (fin 0) demoSt0 rfl with
    | start st1 _ _ hb hset => exact LoopHead.start st1 _ _ hb hset
  refine ⟨_, _, step, _, next, cur', fun _ => rfl, rfl, hs, ⟨?_, hp.body, hp.proposal, hp.evaluated, hp.point⟩⟩
  obtain ⟨a, b, c, d, h⟩ := demoHead_eq 1 (fin 0) (fin 0) demoSt0
  have h1 : (demoHead 1 (fin 0) (fin 0) demoSt0).converged = false := by rw [h]
  have h2 : (demoHead 1 (fin 0) (fin 0) demoSt0).iteration = 0 := by rw [h]; rfl
  have h3 : (demoHead 1 (fin 0) (fin 0) demoSt0).delta = fin 1 := by
    rw [h]; show (resolveOpts [] : Opts Num).deltaInit = _; rw [demo_opts]
  have h4 : (demoHead 1 (fin 0) (fin 0) demoSt0).starttime = fin 0 := by rw [h]; rfl
  have hm : timeEnv.opts.maxtime = fin 10 := rfl
  have hi : timeEnv.opts.maxiter = 1000 := by show (resolveOpts [] : Opts Num).maxiter = _; rw [demo_opts]
  have hck : ∀ k, timeEnv.clock k = fin 0 := fun _ => rfl
  unfold checkContinue
  simp only [h1, h2, h3, h4, hm, hi, hck]
  norm_num [spacing1]

end
end Fides
