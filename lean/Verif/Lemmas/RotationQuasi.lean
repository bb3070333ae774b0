import Verif.Lemmas.RotationRun
import Verif.Props.Quasi

/-! Helper lemmas: quasi-Newton runs in rotated coordinates. -/

namespace Fides
open Num Spec

variable {n : ℕ}

/-- a state with other points, gradients and Hessian -/
def ovQ (st : St Num n) (x g xm gm : Vec Num n) (B : Mat Num n n) (ev : List (EvalRec Num n)) (hp : Option (Happ Num n)) : St Num n :=
  { st with x := x, grad := g, hess := B, xMin := xm, gradMin := gm, evals := ev, happ := hp }

theorem ovq_continue {E E' : Env Num n} (ho : E'.opts = E.opts) (hc : E'.clock = E.clock) (st : St Num n) (x g xm gm : Vec Num n) (B : Mat Num n n) (ev : List (EvalRec Num n)) (hp : Option (Happ Num n)) :
    checkContinue E' (ovQ st x g xm gm B ev hp) = ((checkContinue E st).1, ovQ (checkContinue E st).2 x g xm gm B ev hp) := by
  unfold checkContinue ovQ
  simp only [ho, hc]
  generalize (if st.iteration = 0 then 1 else st.iteration : Nat) = m
  split
  · rfl
  split
  · rfl
  split
  · rfl
  split <;> rfl

theorem ovq_radius {E E' : Env Num n} (ho : E'.opts = E.opts) (fo fo' : Funout Num n) (step step' : Step Num n) (dv dv' : Vec Num n) (st : St Num n) (x g xm gm : Vec Num n) (B : Mat Num n n)
    (ev : List (EvalRec Num n)) (hp : Option (Happ Num n)) (hn : norm (vadd step'.ss step'.ss0) = norm (vadd step.ss step.ss0)) (hf : fo'.fval = fo.fval)
    (ha : dot (vadd step'.ss step'.ss0) (fun i => dv' i * FloatOps.abs (fo'.grad i) * vadd step'.ss step'.ss0 i) = dot (vadd step.ss step.ss0) (fun i => dv i * FloatOps.abs (fo.grad i) * vadd step.ss step.ss0 i))
    (hq : step'.qpval = step.qpval) :
    updateTrRadius E' fo' step' dv' (ovQ st x g xm gm B ev hp) = ((updateTrRadius E fo step dv st).1, ovQ (updateTrRadius E fo step dv st).2 x g xm gm B ev hp) := by
  unfold updateTrRadius ovQ
  simp only [ho, hn, hf, ha, hq]
  split
  · rfl
  generalize (if le (-step.qpval) (lit 0 : Num) = true then (lit 0 : Num) else _) = r
  split
  · rfl
  split
  · rfl
  split <;> rfl

theorem ovq_conv {E E' : Env Num n} (ho : E'.opts = E.opts) (fo fo' : Funout Num n) (step step' : Step Num n) (st : St Num n) (x g xm gm : Vec Num n) (B : Mat Num n n)
    (ev : List (EvalRec Num n)) (hp : Option (Happ Num n)) (hn : norm (vadd step'.ss step'.ss0) = norm (vadd step.ss step.ss0)) (hf : fo'.fval = fo.fval) (hg : norm fo'.grad = norm fo.grad) :
    checkConvergence E' step' fo' (ovQ st x g xm gm B ev hp) = ovQ (checkConvergence E step fo st) x g xm gm B ev hp := by
  unfold checkConvergence ovQ
  simp only [ho, hn, hf, hg]
  split
  · rfl
  split
  · rfl
  split
  · rfl
  split <;> rfl

theorem ovq_track {Q : Fin n → Fin n → ℝ} (fo fo' : Funout Num n) (st : St Num n) (x g xm gm : Vec Num n) (B : Mat Num n n)
    (ev : List (EvalRec Num n)) (hp : Option (Happ Num n)) (hf : fo'.fval = fo.fval) (hi : fo'.xId = fo.xId) (hx : VecRot Q fo.x fo'.x) (hg : VecRot Q fo.grad fo'.grad) (hxm : VecRot Q st.xMin xm) (hgm : VecRot Q st.gradMin gm) :
    ∃ xm' gm', trackMinimum fo' (ovQ st x g xm gm B ev hp) = ovQ (trackMinimum fo st) x g xm' gm' B ev hp ∧ VecRot Q (trackMinimum fo st).xMin xm' ∧ VecRot Q (trackMinimum fo st).gradMin gm' := by
  unfold trackMinimum ovQ
  simp only [hf, hi]
  split
  · exact ⟨_, _, rfl, hx, hg⟩
  · exact ⟨_, _, rfl, hxm, hgm⟩

theorem zero_rmvQ (v : Fin n → ℝ) : rmv (0 : Fin n → Fin n → ℝ) v = 0 := by
  funext i
  simp [rmv, rdot]

theorem mzero_ofMQ : (mzero : Mat Num n n) = ofM 0 := by
  funext i j
  simp [mzero, ofM]

/-- the Broyden update in rotated coordinates -/
theorem rot_rbroyden {Q : Fin n → Fin n → ℝ} (hQ : OrthoCols Q) {B B' : Fin n → Fin n → ℝ} (hc : Conj Q B B') (y s : Fin n → ℝ) (phi : ℝ) :
    Conj Q (rbroyden y s B phi) (rbroyden (rmv Q y) (rmv Q s) B' phi) := by
  have form : ∀ (y s : Fin n → ℝ) (B : Fin n → Fin n → ℝ) (v : Fin n → ℝ), rmv (rbroyden y s B phi) v =
      (rdot y v / rdot y s) • y - (rdot (rmv B s) v / rdot (rmv B s) s) • rmv B s +
        (phi * rdot (rmv B s) s * (rdot y v / rdot y s - rdot (rmv B s) v / rdot (rmv B s) s)) • ((1 / rdot y s) • y - (1 / rdot (rmv B s) s) • rmv B s) := by
    intro y s B v
    have e : rbroyden y s B phi = (1 / rdot y s) • (fun i j => y i * y j) - (1 / rdot (rmv B s) s) • (fun i j => rmv B s i * rmv B s j) +
        (phi * rdot (rmv B s) s) • (fun i j => ((1 / rdot y s) • y - (1 / rdot (rmv B s) s) • rmv B s) i * ((1 / rdot y s) • y - (1 / rdot (rmv B s) s) • rmv B s) j) := by
      funext i j
      simp only [rbroyden, Pi.add_apply, Pi.sub_apply, Pi.smul_apply, smul_eq_mul]
      ring
    rw [e, add_rmv, sub_rmv, smul_rmv, smul_rmv, smul_rmv, outer_rmv, outer_rmv, outer_rmv, sub_rdot, smul_rdot, smul_rdot, smul_smul, smul_smul, smul_smul]
    congr 1
    · congr 1 <;> congr 1 <;> ring
    · congr 1; ring
  intro v
  rw [form, form, hc, ortho_rdot hQ, ortho_rdot hQ, ortho_rdot hQ, ortho_rdot hQ]
  simp only [rmv_add, rmv_sub, rmv_smul]

/-- an update of two approximations related by `Q` -/
theorem rot_update {Q : Fin n → Fin n → ℝ} (hQ : OrthoCols Q) {h h' : IterApprox Num n} {B B' : Fin n → Fin n → ℝ} {phi : ℝ} (hphi : 0 ≤ phi) (hs : h.scheme = .broyden (fin phi) true)
    (hs' : h'.scheme = .broyden (fin phi) true) (hB : h.hess = ofM B) (hB' : h'.hess = ofM B') (hc : Conj Q B B') (hS : Sym B) (hpd : PD B) (s y : Fin n → ℝ) :
    ∃ C C', (h.update (ofV s) (ofV y)).hess = ofM C ∧ (h'.update (ofV (rmv Q s)) (ofV (rmv Q y))).hess = ofM C' ∧ Conj Q C C' ∧ Sym C ∧ PD C ∧
      MatRot Q (h.update (ofV s) (ofV y)).diff (h'.update (ofV (rmv Q s)) (ofV (rmv Q y))).diff ∧
      (h.update (ofV s) (ofV y)).scheme = .broyden (fin phi) true ∧ (h'.update (ofV (rmv Q s)) (ofV (rmv Q y))).scheme = .broyden (fin phi) true := by
  have hby : rdot (rmv Q y) (rmv Q s) = rdot y s := ortho_rdot hQ _ _
  rcases le_or_gt (rdot y s) 0 with hb | hb
  · simp only [IterApprox.update, hs, hs', IterApprox.computeUpdate, hB, hB', broyden_skip y s _ _ hb, broyden_skip (rmv Q y) (rmv Q s) _ _ (by rw [hby]; exact hb), madd_ofM, add_zero]
    exact ⟨B, B', rfl, rfl, hc, hS, hpd, ⟨0, 0, rfl, rfl, fun v => by rw [zero_rmvQ, zero_rmvQ, rmv_zero]⟩, trivial, trivial⟩
  · have hs0 : s ≠ 0 := by rintro rfl; rw [rdot_zero] at hb; exact lt_irrefl _ hb
    have hcc : rdot (rmv B s) s ≠ 0 := by rw [rdot_comm]; exact (hpd s hs0).ne'
    have hcc' : rdot (rmv B' (rmv Q s)) (rmv Q s) ≠ 0 := by rw [hc, ortho_rdot hQ]; exact hcc
    simp only [IterApprox.update, hs, hs', IterApprox.computeUpdate, hB, hB', broyden_fin y s B phi true hb.ne' hcc (fun _ => hb),
      broyden_fin (rmv Q y) (rmv Q s) B' phi true (by rw [hby]; exact hb.ne') hcc' (fun _ => by rw [hby]; exact hb), madd_ofM]
    have hr := rot_rbroyden hQ hc y s phi
    refine ⟨_, _, rfl, rfl, fun v => ?_, Num.Sym.add hS (rbroyden_sym y s B phi), rbroyden_PD y s B phi hphi hS hpd hb, ⟨_, _, rfl, rfl, hr⟩, trivial, trivial⟩
    rw [add_rmv, add_rmv, hc, hr, rmv_add]

/-- two loop heads, the second one in the coordinates `Q x` -/
structure QAt (Q : Fin n → Fin n → ℝ) (f : (Fin n → ℝ) → ℝ) (g : (Fin n → ℝ) → Fin n → ℝ) (phi : ℝ) (st st' : St Num n) (y : Fin n → ℝ) (B B' : Fin n → Fin n → ℝ) : Prop where
  x : st.x = ofV y
  fval : st.fval = fin (f y)
  grad : st.grad = ofV (g y)
  hess : st.hess = ofM B
  happ : ∃ h h', st.happ = some (.iter h) ∧ st'.happ = some (.iter h') ∧ h.hess = ofM B ∧ h'.hess = ofM B' ∧ MatRot Q h.diff h'.diff ∧
    h.scheme = .broyden (fin phi) true ∧ h'.scheme = .broyden (fin phi) true
  conj : Conj Q B B'
  sym : Sym B
  pd : PD B
  delta : ∃ d, st.delta = fin d
  live : st.converged = true ∨ g y ≠ 0
  x' : st'.x = ofV (rmv Q y)
  grad' : st'.grad = ofV (rmv Q (g y))
  hess' : st'.hess = ofM B'
  xMin : VecRot Q st.xMin st'.xMin
  gradMin : VecRot Q st.gradMin st'.gradMin
  evals : List.Forall₂ (fun e e' => VecRot Q e.arg e'.arg) st.evals st'.evals
  rest : st' = ovQ st st'.x st'.grad st'.xMin st'.gradMin st'.hess st'.evals st'.happ

/-- the two environments -/
structure QEnv (Q : Fin n → Fin n → ℝ) (E E' : Env Num n) (f f' : (Fin n → ℝ) → ℝ) (g g' : (Fin n → ℝ) → Fin n → ℝ) : Prop where
  ortho : OrthoCols Q
  value : ∀ x, f' (rmv Q x) = f x
  gradient : ∀ x, g' (rmv Q x) = rmv Q (g x)
  ret : ReturnsGrad E f g
  ret' : ReturnsGrad E' f' g'
  opts : E'.opts = E.opts
  clock : E'.clock = E.clock
  free : NoBounds E.lb E.ub
  free' : NoBounds E'.lb E'.ub
  history : E.opts.history = false
  gatol : le (fin 0) E.opts.gatol = true
  theta : ∃ tm : ℝ, E.opts.thetaMax = fin tm ∧ 0 < tm ∧ tm ≤ 1
  gamma1 : ∃ c, E.opts.gamma1 = fin c
  gamma2 : ∃ c, E.opts.gamma2 = fin c
  deltaInit : ∃ c, E.opts.deltaInit = fin c
  tr : ∀ k, ∃ (O O' : Oracles Num) (tf : ℕ), (∀ I, E.tr k I = trustRegion O tf E.opts.subspaceDim E.opts.stepbackStrat I) ∧
    (∀ I, E'.tr k I = trustRegion O' tf E.opts.subspaceDim E.opts.stepbackStrat I) ∧
    (E.opts.subspaceDim = .steihaug ∨ (E.opts.subspaceDim = .two ∨ E.opts.subspaceDim = .full) ∧ ExactRoutines O ∧ ExactRoutines O')

section
variable {Q : Fin n → Fin n → ℝ} {f f' : (Fin n → ℝ) → ℝ} {g g' : (Fin n → ℝ) → Fin n → ℝ} {phi : ℝ}

theorem QAt.iter {st st' : St Num n} {x : Fin n → ℝ} {B B' : Fin n → Fin n → ℝ} (h : QAt Q f g phi st st' x B B') :
    ∃ a a', st.happ = some (.iter a) ∧ st'.happ = some (.iter a') ∧ IterRot Q a a' := by
  obtain ⟨a, a', h1, h2, h3, h4, h5, h6, h7⟩ := h.happ
  exact ⟨a, a', h1, h2, h7.trans h6.symm, ⟨B, B', h3, h4, h.conj⟩, h5⟩

theorem QAt.st {st st' : St Num n} {x : Fin n → ℝ} {B B' : Fin n → Fin n → ℝ} (h : QAt Q f g phi st st' x B B') : QuasiRot Q st st' :=
  ⟨⟨x, h.x, h.x'⟩, ⟨g x, h.grad, h.grad'⟩, ⟨_, _, h.hess, h.hess', h.conj⟩, h.xMin, h.gradMin, h.evals, h.iter, h.rest⟩

variable {E E' : Env Num n}

theorem grad_eval (h : ReturnsGrad E f g) (k : ℕ) (x : Fin n → ℝ) :
    ∃ raw, funEval E.nargout E.resfun (E.obj k (ofV x)) = .ok raw ∧ checkdims n raw = .ok () ∧
      ∀ xId, raw.typed (ofV x) xId = some { x := ofV x, xId := xId, fval := fin (f x), grad := ofV (g x), hess := none, res := none } := by
  refine ⟨{ fval := .scalar (fin (f x)), grad := .ofVec (ofV (g x)), hess := .none, res := .none, sres := .none }, ?_, ?_, ?_⟩
  · rw [h.nargout, h.resfun, h.obj]; rfl
  · simp [checkdims, PyVal.ofVec]
  · intro xId
    simp only [RawOut.typed, toVec_ofVec]
    rfl

/-- the displacement of a proposal -/
theorem proposes_step {step : Step Num n} {x v : Fin n → ℝ} {B : Fin n → Fin n → ℝ} {p : Fin n → ℝ} (h : Proposes1 step x v B p) : vadd step.s step.s0 = ofV p := by
  funext i
  have := congrFun h.moves i
  simp only [vadd, ofV_apply] at this ⊢
  revert this
  generalize step.s i = a
  generalize step.s0 i = b
  cases a <;> cases b <;> simp
  intro h
  linarith

/-- carrying out a step with a quasi-Newton approximation -/
theorem update_iter (E : Env Num n) (step : Step Num n) (new old : Funout Num n) (st : St Num n) (a : IterApprox Num n) (hn : st.happ = some (.iter a)) (hb : inBounds E.lb E.ub new.x = true) :
    update E step new old st = .ok (makeNonDegenerate E { st with
      happ := some (.iter (a.update (vadd step.s step.s0) (vsub new.grad st.grad))), hess := (a.update (vadd step.s step.s0) (vsub new.grad st.grad)).hess, fval := new.fval, x := new.x, xId := new.xId, grad := new.grad }) := by
  unfold update
  simp only [hn, updateHapp, checkInBounds, hb, if_true]
  rfl

theorem quasi_iterate (hphi : 0 ≤ phi) (hE : QEnv Q E E' f f' g g') {st st' : St Num n} {x : Fin n → ℝ} {B B' : Fin n → Fin n → ℝ} (h : QAt Q f g phi st st' x B B') (hd : lt st.delta spacing1 = false) (hc : st.converged = false)
    (cur cur' : Funout Num n) :
    (∃ s s', iterate E st cur = .error (.diverges, s) ∧ iterate E' st' cur' = .error (.diverges, s') ∧ QuasiRot Q s s') ∨
    ∃ s s' c c' y C C', iterate E st cur = .ok (s, c) ∧ iterate E' st' cur' = .ok (s', c') ∧ QAt Q f g phi s s' y C C' := by
  have hgx : g x ≠ 0 := by
    rcases h.live with h1 | h1
    · rw [hc] at h1; cases h1
    · exact h1
  obtain ⟨D, hD⟩ := h.delta
  have hDp : 0 < D := by
    rw [hD] at hd
    have : (spacing1 : Num) = fin (1 / 4503599627370496) := by norm_num [spacing1]
    rw [this, fin_lt, decide_eq_false_iff_not, not_lt] at hd
    exact lt_of_lt_of_le (by norm_num) hd
  have hcj := h.conj
  obtain ⟨tm, htm, ht0, ht1⟩ := hE.theta
  have hI : PlainInput (trInput E (preIter st)) x (g x) B D := C85_inputs hE.free htm ht0 ht1 (preIter st) h.x h.grad h.hess h.sym hD hDp
  have hd' : st'.delta = st.delta := by rw [h.rest]; rfl
  have hI' : PlainInput (trInput E' (preIter st')) (rmv Q x) (rmv Q (g x)) B' D :=
    C85_inputs hE.free' (by rw [hE.opts]; exact htm) ht0 ht1 (preIter st') h.x' h.grad' h.hess' (rot_sym hE.ortho hcj h.sym) (hd'.trans hD) hDp
  obtain ⟨O, O', tf, hO, hO', hX⟩ := hE.tr st.proposals
  have hpr : st'.proposals = st.proposals := by rw [h.rest]; rfl
  have hid : st'.nextId = st.nextId := by rw [h.rest]; rfl
  have hfv' : st'.fval = st.fval := by rw [h.rest]; rfl
  have hf : allFinite st.fval st.grad (some st.hess) = true := by rw [h.fval, h.grad, h.hess]; simp [allFinite, vfinite, mfinite]
  have hf' : allFinite st'.fval st'.grad (some st'.hess) = true := by rw [hfv', h.fval, h.grad', h.hess']; simp [allFinite, vfinite, mfinite]
  rcases rot_step hE.ortho hI hI' hcj hgx O O' E.opts.subspaceDim (hX.imp_right fun a => ⟨a.1, h.pd, a.2⟩) tf E.opts.stepbackStrat with ⟨e1, e2⟩ | ⟨step, step', p, e1, e2, k, k'⟩
  · left
    rw [← hO] at e1
    rw [← hO', ← hpr] at e2
    refine ⟨preIter st, preIter st', ?_, ?_, ?_⟩
    · have hff : allFinite (preIter st).fval (preIter st).grad (some (preIter st).hess) = true := hf
      have e1' : E.tr (preIter st).proposals (trInput E (preIter st)) = .error .diverges := e1
      unfold iterate
      simp only
      rw [show ({ st with iteration := st.iteration + 1, deltaIter := st.delta } : St Num n) = preIter st from rfl]
      simp only [checkFinite, hf, hff, if_true, e1']
    · have hff : allFinite (preIter st').fval (preIter st').grad (some (preIter st').hess) = true := hf'
      have e1' : E'.tr (preIter st').proposals (trInput E' (preIter st')) = .error .diverges := e2
      unfold iterate
      simp only
      rw [show ({ st' with iteration := st'.iteration + 1, deltaIter := st'.delta } : St Num n) = preIter st' from rfl]
      simp only [checkFinite, hf', hff, if_true, e1']
    · refine ⟨⟨x, h.x, h.x'⟩, ⟨g x, h.grad, h.grad'⟩, ⟨_, _, h.hess, h.hess', hcj⟩, h.xMin, h.gradMin, h.evals, h.iter, ?_⟩
      have := h.rest
      show preIter st' = ovQ (preIter st) st'.x st'.grad st'.xMin st'.gradMin st'.hess st'.evals st'.happ
      conv_lhs => rw [this]
      rfl
  · right
    rw [← hO] at e1
    rw [← hO', ← hpr] at e2
    have hp : trialPoint st step = ofV (x + p) := by
      show vadd (vadd st.x step.s) step.s0 = _
      rw [h.x]; exact k.moves
    have hp' : trialPoint st' step' = ofV (rmv Q (x + p)) := by
      show vadd (vadd st'.x step'.s) step'.s0 = _
      rw [h.x', k'.moves, rmv_add]
    obtain ⟨raw, r1, -, r4⟩ := grad_eval hE.ret st.evals.length (x + p)
    obtain ⟨raw', r1', -, r4'⟩ := grad_eval hE.ret' st'.evals.length (rmv Q (x + p))
    set new : Funout Num n := { x := ofV (x + p), xId := st.nextId, fval := fin (f (x + p)), grad := ofV (g (x + p)), hess := none, res := none } with hnew
    set new' : Funout Num n := { x := ofV (rmv Q (x + p)), xId := st'.nextId, fval := fin (f' (rmv Q (x + p))), grad := ofV (g' (rmv Q (x + p))), hess := none, res := none } with hnew'
    have o1 : trialOut E st step = .ok new := trialOut_forward E st step raw new (by rw [hp]; exact r1) (by rw [hp]; exact r4 _)
    have o2 : trialOut E' st' step' = .ok new' := trialOut_forward E' st' step' raw' new' (by rw [hp']; exact r1') (by rw [hp']; exact r4' _)
    have hfn : allFinite new.fval new.grad new.hess = true := by simp [hnew, allFinite, vfinite, mfinite]
    have hfn' : allFinite new'.fval new'.grad new'.hess = true := by simp [hnew', allFinite, vfinite, mfinite]
    have hnf : new'.fval = new.fval := by show fin _ = fin _; rw [hE.value]
    have hng : new'.grad = ofV (rmv Q (g (x + p))) := by show ofV _ = ofV _; rw [hE.gradient]
    have hnn : norm (vadd step'.ss step'.ss0) = norm (vadd step.ss step.ss0) := by rw [k'.scaled, k.scaled, norm_ofV, norm_ofV, rot_norm hE.ortho]
    have hgn : norm new'.grad = norm new.grad := by rw [hng]; show norm _ = norm (ofV _); rw [norm_ofV, norm_ofV, rot_norm hE.ortho]
    have hdv : (trInput E (preIter st)).dv = ofV 0 := funext hI.dv
    have hdv' : (trInput E' (preIter st')).dv = ofV 0 := funext hI'.dv
    have hq : step'.qpval = step.qpval := by rw [k'.predicts, k.predicts, rot_quad hE.ortho hcj]
    set ev' : List (EvalRec Num n) := { arg := trialPoint st' step', out := .ok new' } :: st'.evals with hev'
    have hae : afterEval st' step' (.ok new') = ovQ (afterEval st step (.ok new)) st'.x st'.grad st'.xMin st'.gradMin st'.hess ev' st'.happ := by
      have := h.rest
      unfold afterEval preIter
      conv_lhs => rw [show st'.proposals = st.proposals from hpr, hid, this]
      rfl
    have hrad : radiusStep E' st' step' new' = ((radiusStep E st step new).1, ovQ (radiusStep E st step new).2 st'.x st'.grad st'.xMin st'.gradMin st'.hess ev' st'.happ) := by
      unfold radiusStep
      rw [hae]
      refine ovq_radius hE.opts new new' step step' _ _ _ _ _ _ _ _ _ _ hnn hnf ?_ hq
      rw [hdv, hdv', k.scaled, k'.scaled, hng, aug_zero]
      exact (aug_zero p (g (x + p))).symm
    obtain ⟨tr, dl, it, mi, hr2⟩ := updateTrRadius_frame E new step (trInput E (preIter st)).dv (afterEval st step (.ok new))
    obtain ⟨ef, cv, hc2⟩ := checkConvergence_frame E step new (radiusStep E st step new).2
    have hck : VecRot Q (checkConvergence E step new (radiusStep E st step new).2).xMin st'.xMin ∧ VecRot Q (checkConvergence E step new (radiusStep E st step new).2).gradMin st'.gradMin := by
      rw [hc2]; unfold radiusStep; rw [hr2]
      exact ⟨h.xMin, h.gradMin⟩
    obtain ⟨xm, gm, hpost, hxm, hgm⟩ := ovq_track (Q := Q) new new' (checkConvergence E step new (radiusStep E st step new).2) st'.x st'.grad st'.xMin st'.gradMin st'.hess ev' st'.happ hnf hid
      ⟨x + p, rfl, rfl⟩ ⟨g (x + p), rfl, hng⟩ hck.1 hck.2
    have hpc : postCheck E' st' step' new' = ovQ (postCheck E st step new) st'.x st'.grad xm gm st'.hess ev' st'.happ := by
      unfold postCheck
      rw [hrad, ovq_conv hE.opts new new' step step' _ _ _ _ _ _ _ _ hnn hnf hgn]
      exact hpost
    have hdel : ∃ d, (postCheck E st step new).delta = fin d := by
      obtain ⟨d, hdd⟩ := radius_real hE.gamma1 hE.gamma2 new step (trInput E (preIter st)).dv (afterEval st step (.ok new)) p k.scaled ⟨D, hD⟩
      obtain ⟨a1, a2, a3, a4, ht⟩ := trackMinimum_frame new (checkConvergence E step new (radiusStep E st step new).2)
      refine ⟨d, ?_⟩
      unfold postCheck
      rw [ht, hc2]
      exact hdd
    have hconv : (postCheck E st step new).converged = true ∨ g (x + p) ≠ 0 := by
      by_cases hg0 : g (x + p) = 0
      · left
        obtain ⟨a1, a2, a3, a4, ht⟩ := trackMinimum_frame new (checkConvergence E step new (radiusStep E st step new).2)
        unfold postCheck
        rw [ht]
        have hle : le (norm new.grad) E.opts.gatol = true := by
          show le (norm (ofV (g (x + p)))) _ = true
          rw [hg0, norm_ofV, rnorm_eq_zero.mpr rfl]; exact hE.gatol
        show (checkConvergence E step new (radiusStep E st step new).2).converged = true
        unfold checkConvergence
        simp only [hle, if_true]
        split
        · rfl
        split <;> rfl
      · exact Or.inr hg0
    obtain ⟨b1, b2, b3, b4, b5, b6, b7, b8, b9, b10, hfr⟩ := postCheck_frame E st step new
    have hev : List.Forall₂ (fun e e' => VecRot Q e.arg e'.arg) (postCheck E st step new).evals ev' := by
      rw [hfr]
      exact List.Forall₂.cons ⟨x + p, hp, hp'⟩ h.evals
    cases hb : (radiusStep E st step new).1 with
    | false =>
      refine ⟨_, _, _, _, x, B, B', iterate_reject E st cur step new hE.history hf e1 o1 (fun _ => hfn) hb,
        iterate_reject E' st' cur' step' new' (by rw [hE.opts]; exact hE.history) hf' e2 o2 (fun _ => hfn') (by rw [hrad]; exact hb), ?_⟩
      rw [hpc]
      refine ⟨?_, ?_, ?_, ?_, ?_, h.conj, h.sym, h.pd, hdel, Or.inr hgx, h.x', h.grad', h.hess', hxm, hgm, hev, rfl⟩ <;> rw [hfr]
      · exact h.x
      · exact h.fval
      · exact h.grad
      · exact h.hess
      · exact h.happ
    | true =>
      obtain ⟨a, a', ha, ha', haB, haB', hdf, hsc, hsc'⟩ := h.happ
      have hhp : (postCheck E st step new).happ = some (.iter a) := by rw [hfr]; exact ha
      have hgr : (postCheck E st step new).grad = ofV (g x) := by rw [hfr]; exact h.grad
      have u1 := update_iter E step new cur (postCheck E st step new) a hhp (inBounds_real _ _ _ (hE.free.inBox (x + p)))
      have u2 := update_iter E' step' new' cur' (postCheck E' st' step' new') a' (by rw [hpc]; exact ha') (inBounds_real _ _ _ (hE.free'.inBox (rmv Q (x + p))))
      have y1 : vsub new.grad (postCheck E st step new).grad = ofV (g (x + p) - g x) := by rw [hgr]; exact vsub_ofV _ _
      have y2 : vsub new'.grad (postCheck E' st' step' new').grad = ofV (rmv Q (g (x + p) - g x)) := by
        rw [hpc, hng]
        show vsub _ st'.grad = _
        rw [h.grad', vsub_ofV, rmv_sub]
      rw [proposes_step k, y1] at u1
      rw [proposes_step k', y2] at u2
      obtain ⟨C, C', c1, c2, c3, c4, c5, c6, c7, c8⟩ := rot_update hE.ortho hphi hsc hsc' haB haB' h.conj h.sym h.pd p (g (x + p) - g x)
      refine ⟨_, _, _, _, x + p, C, C', iterate_accept E st _ cur step new hE.history hf e1 o1 hfn hb u1,
        iterate_accept E' st' _ cur' step' new' (by rw [hE.opts]; exact hE.history) hf' e2 o2 hfn' (by rw [hrad]; exact hb) u2, ?_⟩
      rw [hpc]
      unfold makeNonDegenerate
      simp only [C51_nudge _ _ _ hE.free, C51_nudge _ _ _ hE.free']
      refine ⟨rfl, rfl, rfl, c1, ⟨_, _, rfl, rfl, c1, c2, c6, c7, c8⟩, c3, c4, c5, hdel, hconv, rfl, hng, c2, ?_, hgm, hev, ?_⟩
      · show VecRot Q (if (postCheck E st step new).xMinId = st.nextId then ofV (x + p) else (postCheck E st step new).xMin)
          (if (postCheck E st step new).xMinId = st'.nextId then ofV (rmv Q (x + p)) else xm)
        rw [hid]
        split
        · exact ⟨x + p, rfl, rfl⟩
        · exact hxm
      · simp only [ovQ, hnf]
        rw [show new'.xId = new.xId from hid]

theorem quasi_loop (hphi : 0 ≤ phi) (hE : QEnv Q E E' f f' g g') (fuel : ℕ) : ∀ {st st' : St Num n} {x : Fin n → ℝ} {B B' : Fin n → Fin n → ℝ} (_ : QAt Q f g phi st st' x B B') (cur cur' : Funout Num n),
    (∃ s s', loop E fuel st cur = .error (.diverges, s) ∧ loop E' fuel st' cur' = .error (.diverges, s') ∧ QuasiRot Q s s') ∨
    ∃ s s', loop E fuel st cur = .ok s ∧ loop E' fuel st' cur' = .ok s' ∧ QuasiRot Q s s' := by
  induction fuel with
  | zero =>
    intro st st' x B B' h cur cur'
    have hcc := ovq_continue hE.opts hE.clock st st'.x st'.grad st'.xMin st'.gradMin st'.hess st'.evals st'.happ
    rw [← h.rest] at hcc
    have hSt : QuasiRot Q (checkContinue E st).2 (ovQ (checkContinue E st).2 st'.x st'.grad st'.xMin st'.gradMin st'.hess st'.evals st'.happ) := by
      obtain ⟨t, e, hfr⟩ := rot_frame E st
      rw [hfr]
      exact ⟨⟨x, h.x, h.x'⟩, ⟨g x, h.grad, h.grad'⟩, ⟨_, _, h.hess, h.hess', h.conj⟩, h.xMin, h.gradMin, h.evals, h.iter, rfl⟩
    cases hb : (checkContinue E st).1 with
    | false =>
      right
      refine ⟨_, _, loop_stop E 0 st _ cur (Prod.ext hb rfl), loop_stop E' 0 st' _ cur' (by rw [hcc, hb]), hSt⟩
    | true =>
      left
      exact ⟨_, _, loop_empty E st _ cur (Prod.ext hb rfl), loop_empty E' st' _ cur' (by rw [hcc, hb]), hSt⟩
  | succ fuel ih =>
    intro st st' x B B' h cur cur'
    have hcc := ovq_continue hE.opts hE.clock st st'.x st'.grad st'.xMin st'.gradMin st'.hess st'.evals st'.happ
    rw [← h.rest] at hcc
    cases hb : (checkContinue E st).1 with
    | false =>
      right
      refine ⟨(checkContinue E st).2, _, loop_stop E _ st _ cur (Prod.ext hb rfl), loop_stop E' _ st' _ cur' (by rw [hcc, hb]), ?_⟩
      obtain ⟨t, e, hfr⟩ := rot_frame E st
      rw [hfr]
      exact ⟨⟨x, h.x, h.x'⟩, ⟨g x, h.grad, h.grad'⟩, ⟨_, _, h.hess, h.hess', h.conj⟩, h.xMin, h.gradMin, h.evals, h.iter, rfl⟩
    | true =>
      have hc1 : checkContinue E st = (true, (checkContinue E st).2) := Prod.ext hb rfl
      have hc1' : checkContinue E' st' = (true, ovQ (checkContinue E st).2 st'.x st'.grad st'.xMin st'.gradMin st'.hess st'.evals st'.happ) := by rw [hcc, hb]
      obtain ⟨hst1, hcv, -, -, hdl⟩ := checkContinue_true E st _ hc1
      rw [hst1] at hc1 hc1'
      have hA : QAt Q f g phi { st with ticks := st.ticks + 1 } (ovQ { st with ticks := st.ticks + 1 } st'.x st'.grad st'.xMin st'.gradMin st'.hess st'.evals st'.happ) x B B' :=
        ⟨h.x, h.fval, h.grad, h.hess, h.happ, h.conj, h.sym, h.pd, h.delta, h.live, h.x', h.grad', h.hess', h.xMin, h.gradMin, h.evals, rfl⟩
      rcases quasi_iterate hphi hE hA hdl hcv cur cur' with ⟨s, s', i1, i2, i3⟩ | ⟨s, s', c, c', y, C, C', i1, i2, i3⟩
      · left
        exact ⟨s, s', loop_raise E fuel st _ cur _ hc1 i1, loop_raise E' fuel st' _ cur' _ hc1' i2, i3⟩
      · rw [loop_step E fuel st _ s cur c hc1 i1, loop_step E' fuel st' _ s' cur' c' hc1' i2]
        exact ih i3 c c'

/-- what the first call of the objective returned -/
noncomputable def firstOutQ (E : Env Num n) (x0 : Fin n → ℝ) (startId : String) (a : IterApprox Num n) (v : ℝ) (gr : Fin n → ℝ) : Funout Num n :=
  { x := ofV x0, xId := (startState E (ofV x0) startId (St.new E.opts (some (.iter a)))).xId, fval := fin v, grad := ofV gr, hess := none, res := none }

/-- the first loop head -/
noncomputable def firstHeadQ (E : Env Num n) (x0 : Fin n → ℝ) (startId : String) (a : IterApprox Num n) (v : ℝ) (gr : Fin n → ℝ) : St Num n :=
  { logStart (startState E (ofV x0) startId (St.new E.opts (some (.iter a)))) (.ok (firstOutQ E x0 startId a v gr)) with
      fval := fin v, grad := ofV gr, happ := some (.iter (a.initMat none)), hess := meye, xMin := ofV x0,
      xMinId := (startState E (ofV x0) startId (St.new E.opts (some (.iter a)))).xId, fvalMin := fin v, gradMin := ofV gr, converged := false }

theorem first_head_q (hR : ReturnsGrad E f g) (hU : NoBounds E.lb E.ub) (x0 : Fin n → ℝ) (startId : String) (a : IterApprox Num n) :
    LoopHead E (ofV x0) startId (.val .none) (St.new E.opts (some (.iter a))) 0 (firstHeadQ E x0 startId a (f x0) (g x0)) (firstOutQ E x0 startId a (f x0) (g x0)) := by
  have hx : (startState E (ofV x0) startId (St.new E.opts (some (.iter a)))).x = ofV x0 := C51_nudge _ _ _ hU
  obtain ⟨raw, r1, r2, r4⟩ := grad_eval hR 0 x0
  have i1 : initialHapp (some (.iter a)) (.val .none) raw = .ok (some (.iter (a.initMat none))) := rfl
  have s1 := setup_forward E (.val .none) (startState E (ofV x0) startId (St.new E.opts (some (.iter a)))) raw _ (firstOutQ E x0 startId a (f x0) (g x0)) (by rw [hx]; exact r1) i1 r2
    (by rw [hx]; exact r4 _) (by simp [firstOutQ, allFinite, vfinite])
  have hst : ({ setupState (startState E (ofV x0) startId (St.new E.opts (some (.iter a)))) (firstOutQ E x0 startId a (f x0) (g x0)) (some (.iter (a.initMat none))) with converged := false } : St Num n) =
      firstHeadQ E x0 startId a (f x0) (g x0) := by
    unfold setupState trackMinimum
    rw [if_pos]
    · rfl
    · rfl
  rw [hst] at s1
  exact LoopHead.start (startState E (ofV x0) startId (St.new E.opts (some (.iter a)))) _ _ (by rw [hx, checkInBounds, if_pos (inBounds_real _ _ _ (hU.inBox x0))]) s1

theorem quasi_minimize (hphi : 0 ≤ phi) (hE : QEnv Q E E' f f' g g') (a a' : IterApprox Num n) (ha : a.scheme = .broyden (fin phi) true) (ha' : a'.scheme = .broyden (fin phi) true)
    (x0 : Fin n → ℝ) (hg : g x0 ≠ 0) (startId : String) (fuel : ℕ) :
    (∃ s s', minimize E fuel (ofV x0) startId (.val .none) (St.new E.opts (some (.iter a))) = .error (.diverges, s) ∧
      minimize E' fuel (ofV (rmv Q x0)) startId (.val .none) (St.new E'.opts (some (.iter a'))) = .error (.diverges, s') ∧ QuasiRot Q s s') ∨
    ∃ s s', minimize E fuel (ofV x0) startId (.val .none) (St.new E.opts (some (.iter a))) = .ok s ∧
      minimize E' fuel (ofV (rmv Q x0)) startId (.val .none) (St.new E'.opts (some (.iter a'))) = .ok s' ∧ QuasiRot Q s s' := by
  have hn : n ≠ 0 := by
    rintro rfl
    exact hg (funext fun i => i.elim0)
  have hx : (startState E (ofV x0) startId (St.new E.opts (some (.iter a)))).x = ofV x0 := C51_nudge _ _ _ hE.free
  have hx' : (startState E' (ofV (rmv Q x0)) startId (St.new E'.opts (some (.iter a')))).x = ofV (rmv Q x0) := C51_nudge _ _ _ hE.free'
  have hA : QAt Q f g phi (firstHeadQ E x0 startId a (f x0) (g x0)) (firstHeadQ E' (rmv Q x0) startId a' (f' (rmv Q x0)) (g' (rmv Q x0))) x0 idM idM := by
    refine ⟨hx, rfl, rfl, meye_ofM, ⟨a.initMat none, a'.initMat none, rfl, rfl, meye_ofM, meye_ofM, ⟨0, 0, mzero_ofMQ, mzero_ofMQ, fun v => by rw [zero_rmvQ, zero_rmvQ, rmv_zero]⟩, ha, ha'⟩,
      fun v => by rw [idM_rmv, idM_rmv], Sym_idM, PD_idM, hE.deltaInit, Or.inr hg, hx', ?_, meye_ofM, ⟨x0, rfl, rfl⟩, ⟨g x0, rfl, ?_⟩,
      List.Forall₂.cons ⟨x0, hx, hx'⟩ List.Forall₂.nil, ?_⟩
    · show ofV _ = ofV _
      rw [hE.gradient]
    · show ofV _ = ofV _
      rw [hE.gradient]
    · simp only [ovQ, firstHeadQ, logStart, startState, makeNonDegenerate, reset, St.new, hE.opts, hE.clock, hE.value]
  have k1 := minimize_from_head E (ofV x0) startId (.val .none) _ _ _ 0 hn (first_head_q hE.ret hE.free x0 startId a) fuel
  have k2 := minimize_from_head E' (ofV (rmv Q x0)) startId (.val .none) _ _ _ 0 hn (first_head_q hE.ret' hE.free' (rmv Q x0) startId a') fuel
  rw [Nat.zero_add] at k1 k2
  rw [k1, k2]
  rcases quasi_loop hphi hE fuel hA (firstOutQ E x0 startId a (f x0) (g x0)) (firstOutQ E' (rmv Q x0) startId a' (f' (rmv Q x0)) (g' (rmv Q x0))) with ⟨s, s', l1, l2, l3⟩ | ⟨s, s', l1, l2, l3⟩
  · left
    exact ⟨s, s', by rw [l1], by rw [l2], l3⟩
  · right
    refine ⟨s, s', ?_, ?_, l3⟩
    · rw [l1]; simp [writeHistory, hE.history]
    · rw [l2]; simp [writeHistory, hE.opts, hE.history]

end
end Fides
