import Verif.Lemmas.Rotation
import Verif.Lemmas.Forward
import Verif.Lemmas.Pass
import Verif.Lemmas.Converge
import Verif.Lemmas.Progress
import Verif.Spec.Rotation
import Verif.Props.Compare

/-! Helper lemmas: runs in rotated coordinates. -/

namespace Fides
open Num Spec

variable {n : ℕ}

/-- a state with other points, gradients and Hessian -/
def ovSt (st : St Num n) (x g xm gm : Vec Num n) (B : Mat Num n n) (ev : List (EvalRec Num n)) : St Num n :=
  { st with x := x, grad := g, hess := B, xMin := xm, gradMin := gm, evals := ev }

theorem ov_continue {E E' : Env Num n} (ho : E'.opts = E.opts) (hc : E'.clock = E.clock) (st : St Num n) (x g xm gm : Vec Num n) (B : Mat Num n n) (ev : List (EvalRec Num n)) :
    checkContinue E' (ovSt st x g xm gm B ev) = ((checkContinue E st).1, ovSt (checkContinue E st).2 x g xm gm B ev) := by
  unfold checkContinue ovSt
  simp only [ho, hc]
  generalize (if st.iteration = 0 then 1 else st.iteration : Nat) = m
  split
  · rfl
  split
  · rfl
  split
  · rfl
  split <;> rfl

theorem ov_radius {E E' : Env Num n} (ho : E'.opts = E.opts) (fo fo' : Funout Num n) (step step' : Step Num n) (dv dv' : Vec Num n) (st : St Num n) (x g xm gm : Vec Num n) (B : Mat Num n n)
    (ev : List (EvalRec Num n)) (hn : norm (vadd step'.ss step'.ss0) = norm (vadd step.ss step.ss0)) (hf : fo'.fval = fo.fval)
    (ha : dot (vadd step'.ss step'.ss0) (fun i => dv' i * FloatOps.abs (fo'.grad i) * vadd step'.ss step'.ss0 i) = dot (vadd step.ss step.ss0) (fun i => dv i * FloatOps.abs (fo.grad i) * vadd step.ss step.ss0 i))
    (hq : step'.qpval = step.qpval) :
    updateTrRadius E' fo' step' dv' (ovSt st x g xm gm B ev) = ((updateTrRadius E fo step dv st).1, ovSt (updateTrRadius E fo step dv st).2 x g xm gm B ev) := by
  unfold updateTrRadius ovSt
  simp only [ho, hn, hf, ha, hq]
  split
  · rfl
  generalize (if le (-step.qpval) (lit 0 : Num) = true then (lit 0 : Num) else _) = r
  split
  · rfl
  split
  · rfl
  split <;> rfl

theorem ov_conv {E E' : Env Num n} (ho : E'.opts = E.opts) (fo fo' : Funout Num n) (step step' : Step Num n) (st : St Num n) (x g xm gm : Vec Num n) (B : Mat Num n n)
    (ev : List (EvalRec Num n)) (hn : norm (vadd step'.ss step'.ss0) = norm (vadd step.ss step.ss0)) (hf : fo'.fval = fo.fval) (hg : norm fo'.grad = norm fo.grad) :
    checkConvergence E' step' fo' (ovSt st x g xm gm B ev) = ovSt (checkConvergence E step fo st) x g xm gm B ev := by
  unfold checkConvergence ovSt
  simp only [ho, hn, hf, hg]
  split
  · rfl
  split
  · rfl
  split
  · rfl
  split <;> rfl

theorem ov_track {Q : Fin n → Fin n → ℝ} (fo fo' : Funout Num n) (st : St Num n) (x g xm gm : Vec Num n) (B : Mat Num n n)
    (ev : List (EvalRec Num n)) (hf : fo'.fval = fo.fval) (hi : fo'.xId = fo.xId) (hx : VecRot Q fo.x fo'.x) (hg : VecRot Q fo.grad fo'.grad) (hxm : VecRot Q st.xMin xm) (hgm : VecRot Q st.gradMin gm) :
    ∃ xm' gm', trackMinimum fo' (ovSt st x g xm gm B ev) = ovSt (trackMinimum fo st) x g xm' gm' B ev ∧ VecRot Q (trackMinimum fo st).xMin xm' ∧ VecRot Q (trackMinimum fo st).gradMin gm' := by
  unfold trackMinimum ovSt
  simp only [hf, hi]
  split
  · exact ⟨_, _, rfl, hx, hg⟩
  · exact ⟨_, _, rfl, hxm, hgm⟩

/-- two loop heads, the second one in the coordinates `Q x` -/
structure RotAt (Q : Fin n → Fin n → ℝ) (f : (Fin n → ℝ) → ℝ) (g : (Fin n → ℝ) → Fin n → ℝ) (H H' : (Fin n → ℝ) → Fin n → Fin n → ℝ) (st st' : St Num n) (y : Fin n → ℝ) : Prop where
  x : st.x = ofV y
  fval : st.fval = fin (f y)
  grad : st.grad = ofV (g y)
  hess : st.hess = ofM (H y)
  happ : st.happ = none
  delta : ∃ d, st.delta = fin d
  live : st.converged = true ∨ g y ≠ 0
  x' : st'.x = ofV (rmv Q y)
  grad' : st'.grad = ofV (rmv Q (g y))
  hess' : st'.hess = ofM (H' (rmv Q y))
  xMin : VecRot Q st.xMin st'.xMin
  gradMin : VecRot Q st.gradMin st'.gradMin
  evals : List.Forall₂ (fun e e' => VecRot Q e.arg e'.arg) st.evals st'.evals
  rest : st' = ovSt st st'.x st'.grad st'.xMin st'.gradMin st'.hess st'.evals

section
variable {Q : Fin n → Fin n → ℝ} {f f' : (Fin n → ℝ) → ℝ} {g g' : (Fin n → ℝ) → Fin n → ℝ} {H H' : (Fin n → ℝ) → Fin n → Fin n → ℝ}

theorem RotAt.st {st st' : St Num n} {x : Fin n → ℝ} (h : RotAt Q f g H H' st st' x) (hR : Rotates Q f g H f' g' H') : StRot Q st st' :=
  ⟨⟨x, h.x, h.x'⟩, ⟨g x, h.grad, h.grad'⟩, ⟨_, _, h.hess, h.hess', hR.hess x⟩, h.xMin, h.gradMin, h.evals, h.rest⟩

/-- the two environments: same options and clock, no bounds, the second objective is the first one in the coordinates `Q x` -/
structure RotEnv (Q : Fin n → Fin n → ℝ) (E E' : Env Num n) (f f' : (Fin n → ℝ) → ℝ) (g g' : (Fin n → ℝ) → Fin n → ℝ) (H H' : (Fin n → ℝ) → Fin n → Fin n → ℝ) : Prop where
  ortho : OrthoCols Q
  rot : Rotates Q f g H f' g' H'
  ret : Returns E f g H
  ret' : Returns E' f' g' H'
  opts : E'.opts = E.opts
  clock : E'.clock = E.clock
  free : NoBounds E.lb E.ub
  free' : NoBounds E'.lb E'.ub
  history : E.opts.history = false
  gatol : le (fin 0) E.opts.gatol = true
  theta : ∃ tm : ℝ, E.opts.thetaMax = fin tm ∧ 0 < tm ∧ tm ≤ 1
  gamma1 : ∃ c, E.opts.gamma1 = fin c
  gamma2 : ∃ c, E.opts.gamma2 = fin c
  deltaInit : ∃ c, E.opts.deltaInit = fin c
  sym : ∀ x, Sym (H x)
  tr : ∀ k, ∃ (O O' : Oracles Num) (tf : ℕ), (∀ I, E.tr k I = trustRegion O tf E.opts.subspaceDim E.opts.stepbackStrat I) ∧
    (∀ I, E'.tr k I = trustRegion O' tf E.opts.subspaceDim E.opts.stepbackStrat I) ∧
    (E.opts.subspaceDim = .steihaug ∨ (E.opts.subspaceDim = .two ∨ E.opts.subspaceDim = .full) ∧ (∀ x, PD (H x)) ∧ ExactRoutines O ∧ ExactRoutines O')

theorem radius_real {E : Env Num n} (h1 : ∃ c, E.opts.gamma1 = fin c) (h2 : ∃ c, E.opts.gamma2 = fin c) (fo : Funout Num n) (step : Step Num n) (dv : Vec Num n) (st : St Num n) (p : Fin n → ℝ)
    (hp : vadd step.ss step.ss0 = ofV p) (hd : ∃ d, st.delta = fin d) : ∃ d, (updateTrRadius E fo step dv st).2.delta = fin d := by
  obtain ⟨c1, h1⟩ := h1
  obtain ⟨c2, h2⟩ := h2
  obtain ⟨d, hd⟩ := hd
  have hs : ∃ d, shrunkDelta E st.delta step = fin d := by
    unfold shrunkDelta
    rw [hp, norm_ofV, h1, hd, fin_mul]
    exact ⟨_, shrunk_real _ _⟩
  rcases updateTrRadius_cases E fo step dv st with ⟨_, h⟩ | ⟨_, r, _, ⟨_, _, h⟩ | ⟨_, _, h⟩ | ⟨_, _, m, h⟩⟩
  · rw [h]; exact hs
  · rw [h]; exact ⟨c2 * d, by simp [h2, hd]⟩
  · rw [h]; exact hs
  · rw [h]; exact ⟨d, hd⟩

theorem aug_zero (p : Fin n → ℝ) (u : Fin n → ℝ) : dot (ofV p) (fun i => ofV 0 i * FloatOps.abs (ofV u i) * ofV p i) = fin 0 := by
  have : (fun i => ofV 0 i * FloatOps.abs (ofV u i) * ofV p i) = ofV (0 : Fin n → ℝ) := by
    funext i; simp [ofV]
  rw [this, dot_ofV, rdot_zero]

variable {E E' : Env Num n}

theorem rot_iterate (hE : RotEnv Q E E' f f' g g' H H') {st st' : St Num n} {x : Fin n → ℝ} (h : RotAt Q f g H H' st st' x) (hd : lt st.delta spacing1 = false) (hc : st.converged = false)
    (cur cur' : Funout Num n) :
    (∃ s s', iterate E st cur = .error (.diverges, s) ∧ iterate E' st' cur' = .error (.diverges, s') ∧ StRot Q s s') ∨
    ∃ s s' c c' y, iterate E st cur = .ok (s, c) ∧ iterate E' st' cur' = .ok (s', c') ∧ RotAt Q f g H H' s s' y := by
  have hgx : g x ≠ 0 := by
    rcases h.live with h1 | h1
    · rw [hc] at h1; cases h1
    · exact h1
  obtain ⟨D, hD⟩ := h.delta
  have hDp : 0 < D := by
    rw [hD] at hd
    have : (spacing1 : Num) = fin (1 / 4503599627370496) := by norm_num [spacing1]
    rw [this, fin_lt, decide_eq_false_iff_not, not_lt] at hd
    exact lt_of_lt_of_le (by norm_num) hd
  have hcj : Conj Q (H x) (H' (rmv Q x)) := hE.rot.hess x
  obtain ⟨tm, htm, ht0, ht1⟩ := hE.theta
  have hI : PlainInput (trInput E (preIter st)) x (g x) (H x) D := C85_inputs hE.free htm ht0 ht1 (preIter st) h.x h.grad h.hess (hE.sym x) hD hDp
  have hd' : st'.delta = st.delta := by rw [h.rest]; rfl
  have hI' : PlainInput (trInput E' (preIter st')) (rmv Q x) (rmv Q (g x)) (H' (rmv Q x)) D :=
    C85_inputs hE.free' (by rw [hE.opts]; exact htm) ht0 ht1 (preIter st') h.x' h.grad' h.hess' (rot_sym hE.ortho hcj (hE.sym x)) (hd'.trans hD) hDp
  obtain ⟨O, O', tf, hO, hO', hX⟩ := hE.tr st.proposals
  have hpr : st'.proposals = st.proposals := by rw [h.rest]; rfl
  have hid : st'.nextId = st.nextId := by rw [h.rest]; rfl
  have hfv' : st'.fval = st.fval := by rw [h.rest]; rfl
  have hf : allFinite st.fval st.grad (some st.hess) = true := by rw [h.fval, h.grad, h.hess]; simp [allFinite, vfinite, mfinite]
  have hf' : allFinite st'.fval st'.grad (some st'.hess) = true := by rw [hfv', h.fval, h.grad', h.hess']; simp [allFinite, vfinite, mfinite]
  rcases rot_step hE.ortho hI hI' hcj hgx O O' E.opts.subspaceDim (hX.imp_right fun a => ⟨a.1, a.2.1 x, a.2.2⟩) tf E.opts.stepbackStrat with ⟨e1, e2⟩ | ⟨step, step', p, e1, e2, k, k'⟩
  · left
    rw [← hO] at e1
    rw [← hO', ← hpr] at e2
    refine ⟨preIter st, preIter st', ?_, ?_, ?_⟩
    · have hff : allFinite (preIter st).fval (preIter st).grad (some (preIter st).hess) = true := hf
      have e1' : E.tr (preIter st).proposals (trInput E (preIter st)) = .error .diverges := e1
      unfold iterate
      simp only
      rw [show ({ st with iteration := st.iteration + 1, deltaIter := st.delta } : St Num n) = preIter st from rfl]
      simp only [checkFinite, hf, hff, if_true, e1']
    · have hff : allFinite (preIter st').fval (preIter st').grad (some (preIter st').hess) = true := hf'
      have e1' : E'.tr (preIter st').proposals (trInput E' (preIter st')) = .error .diverges := e2
      unfold iterate
      simp only
      rw [show ({ st' with iteration := st'.iteration + 1, deltaIter := st'.delta } : St Num n) = preIter st' from rfl]
      simp only [checkFinite, hf', hff, if_true, e1']
    · refine ⟨⟨x, h.x, h.x'⟩, ⟨g x, h.grad, h.grad'⟩, ⟨_, _, h.hess, h.hess', hcj⟩, h.xMin, h.gradMin, h.evals, ?_⟩
      have := h.rest
      show preIter st' = ovSt (preIter st) st'.x st'.grad st'.xMin st'.gradMin st'.hess st'.evals
      conv_lhs => rw [this]
      rfl
  · right
    rw [← hO] at e1
    rw [← hO', ← hpr] at e2
    have hp : trialPoint st step = ofV (x + p) := by
      show vadd (vadd st.x step.s) step.s0 = _
      rw [h.x]; exact k.moves
    have hp' : trialPoint st' step' = ofV (rmv Q (x + p)) := by
      show vadd (vadd st'.x step'.s) step'.s0 = _
      rw [h.x', k'.moves, rmv_add]
    obtain ⟨raw, r1, -, -, r4⟩ := hE.ret.eval st.evals.length (x + p)
    obtain ⟨raw', r1', -, -, r4'⟩ := hE.ret'.eval st'.evals.length (rmv Q (x + p))
    set new : Funout Num n := { x := ofV (x + p), xId := st.nextId, fval := fin (f (x + p)), grad := ofV (g (x + p)), hess := some (ofM (H (x + p))), res := none } with hnew
    set new' : Funout Num n := { x := ofV (rmv Q (x + p)), xId := st'.nextId, fval := fin (f' (rmv Q (x + p))), grad := ofV (g' (rmv Q (x + p))), hess := some (ofM (H' (rmv Q (x + p)))), res := none } with hnew'
    have o1 : trialOut E st step = .ok new := trialOut_forward E st step raw new (by rw [hp]; exact r1) (by rw [hp]; exact r4 _)
    have o2 : trialOut E' st' step' = .ok new' := trialOut_forward E' st' step' raw' new' (by rw [hp']; exact r1') (by rw [hp']; exact r4' _)
    have hfn : allFinite new.fval new.grad new.hess = true := by simp [hnew, allFinite, vfinite, mfinite]
    have hfn' : allFinite new'.fval new'.grad new'.hess = true := by simp [hnew', allFinite, vfinite, mfinite]
    have hnf : new'.fval = new.fval := by show fin _ = fin _; rw [hE.rot.value]
    have hng : new'.grad = ofV (rmv Q (g (x + p))) := by show ofV _ = ofV _; rw [hE.rot.grad]
    have hnn : norm (vadd step'.ss step'.ss0) = norm (vadd step.ss step.ss0) := by rw [k'.scaled, k.scaled, norm_ofV, norm_ofV, rot_norm hE.ortho]
    have hgn : norm new'.grad = norm new.grad := by rw [hng]; show norm _ = norm (ofV _); rw [norm_ofV, norm_ofV, rot_norm hE.ortho]
    have hdv : (trInput E (preIter st)).dv = ofV 0 := funext hI.dv
    have hdv' : (trInput E' (preIter st')).dv = ofV 0 := funext hI'.dv
    have hq : step'.qpval = step.qpval := by rw [k'.predicts, k.predicts, rot_quad hE.ortho hcj]
    set ev' : List (EvalRec Num n) := { arg := trialPoint st' step', out := .ok new' } :: st'.evals with hev'
    have hae : afterEval st' step' (.ok new') = ovSt (afterEval st step (.ok new)) st'.x st'.grad st'.xMin st'.gradMin st'.hess ev' := by
      have := h.rest
      unfold afterEval preIter
      conv_lhs => rw [show st'.proposals = st.proposals from hpr, hid, this]
      rfl
    have hrad : radiusStep E' st' step' new' = ((radiusStep E st step new).1, ovSt (radiusStep E st step new).2 st'.x st'.grad st'.xMin st'.gradMin st'.hess ev') := by
      unfold radiusStep
      rw [hae]
      refine ov_radius hE.opts new new' step step' _ _ _ _ _ _ _ _ _ hnn hnf ?_ hq
      rw [hdv, hdv', k.scaled, k'.scaled, hng, aug_zero]
      exact (aug_zero p (g (x + p))).symm
    obtain ⟨tr, dl, it, mi, hr2⟩ := updateTrRadius_frame E new step (trInput E (preIter st)).dv (afterEval st step (.ok new))
    obtain ⟨ef, cv, hc2⟩ := checkConvergence_frame E step new (radiusStep E st step new).2
    have hck : VecRot Q (checkConvergence E step new (radiusStep E st step new).2).xMin st'.xMin ∧ VecRot Q (checkConvergence E step new (radiusStep E st step new).2).gradMin st'.gradMin := by
      rw [hc2]; unfold radiusStep; rw [hr2]
      exact ⟨h.xMin, h.gradMin⟩
    obtain ⟨xm, gm, hpost, hxm, hgm⟩ := ov_track (Q := Q) new new' (checkConvergence E step new (radiusStep E st step new).2) st'.x st'.grad st'.xMin st'.gradMin st'.hess ev' hnf hid
      ⟨x + p, rfl, rfl⟩ ⟨g (x + p), rfl, hng⟩ hck.1 hck.2
    have hpc : postCheck E' st' step' new' = ovSt (postCheck E st step new) st'.x st'.grad xm gm st'.hess ev' := by
      unfold postCheck
      rw [hrad, ov_conv hE.opts new new' step step' _ _ _ _ _ _ _ hnn hnf hgn]
      exact hpost
    have hdel : ∃ d, (postCheck E st step new).delta = fin d := by
      obtain ⟨d, hdd⟩ := radius_real hE.gamma1 hE.gamma2 new step (trInput E (preIter st)).dv (afterEval st step (.ok new)) p k.scaled ⟨D, hD⟩
      obtain ⟨a1, a2, a3, a4, ht⟩ := trackMinimum_frame new (checkConvergence E step new (radiusStep E st step new).2)
      refine ⟨d, ?_⟩
      unfold postCheck
      rw [ht, hc2]
      exact hdd
    have hconv : (postCheck E st step new).converged = true ∨ g (x + p) ≠ 0 := by
      by_cases hg0 : g (x + p) = 0
      · left
        obtain ⟨a1, a2, a3, a4, ht⟩ := trackMinimum_frame new (checkConvergence E step new (radiusStep E st step new).2)
        unfold postCheck
        rw [ht]
        have hle : le (norm new.grad) E.opts.gatol = true := by
          show le (norm (ofV (g (x + p)))) _ = true
          rw [hg0, norm_ofV, rnorm_eq_zero.mpr rfl]; exact hE.gatol
        show (checkConvergence E step new (radiusStep E st step new).2).converged = true
        unfold checkConvergence
        simp only [hle, if_true]
        split
        · rfl
        split <;> rfl
      · exact Or.inr hg0
    obtain ⟨b1, b2, b3, b4, b5, b6, b7, b8, b9, b10, hfr⟩ := postCheck_frame E st step new
    have hev : List.Forall₂ (fun e e' => VecRot Q e.arg e'.arg) (postCheck E st step new).evals ev' := by
      rw [hfr]
      exact List.Forall₂.cons ⟨x + p, hp, hp'⟩ h.evals
    cases hb : (radiusStep E st step new).1 with
    | false =>
      refine ⟨_, _, _, _, x, iterate_reject E st cur step new hE.history hf e1 o1 (fun _ => hfn) hb,
        iterate_reject E' st' cur' step' new' (by rw [hE.opts]; exact hE.history) hf' e2 o2 (fun _ => hfn') (by rw [hrad]; exact hb), ?_⟩
      rw [hpc]
      refine ⟨?_, ?_, ?_, ?_, ?_, hdel, Or.inr hgx, h.x', h.grad', h.hess', hxm, hgm, hev, rfl⟩ <;> rw [hfr]
      · exact h.x
      · exact h.fval
      · exact h.grad
      · exact h.hess
      · exact h.happ
    | true =>
      have hhp : (postCheck E st step new).happ = none := by rw [hfr]; exact h.happ
      have u1 := update_none E step new cur (postCheck E st step new) (ofM (H (x + p))) hhp rfl (inBounds_real _ _ _ (hE.free.inBox (x + p)))
      have u2 := update_none E' step' new' cur' (postCheck E' st' step' new') (ofM (H' (rmv Q (x + p)))) (by rw [hpc]; exact hhp) rfl (inBounds_real _ _ _ (hE.free'.inBox (rmv Q (x + p))))
      refine ⟨_, _, _, _, x + p, iterate_accept E st _ cur step new hE.history hf e1 o1 hfn hb u1,
        iterate_accept E' st' _ cur' step' new' (by rw [hE.opts]; exact hE.history) hf' e2 o2 hfn' (by rw [hrad]; exact hb) u2, ?_⟩
      rw [hpc]
      unfold makeNonDegenerate
      simp only [C51_nudge _ _ _ hE.free, C51_nudge _ _ _ hE.free']
      refine ⟨rfl, rfl, rfl, rfl, hhp, hdel, hconv, rfl, hng, rfl, ?_, hgm, hev, ?_⟩
      · show VecRot Q (if (postCheck E st step new).xMinId = st.nextId then ofV (x + p) else (postCheck E st step new).xMin)
          (if (postCheck E st step new).xMinId = st'.nextId then ofV (rmv Q (x + p)) else xm)
        rw [hid]
        split
        · exact ⟨x + p, rfl, rfl⟩
        · exact hxm
      · simp only [ovSt, hnf]
        rw [show new'.xId = new.xId from hid]

theorem rot_frame (E : Env Num n) (st : St Num n) : ∃ t e, (checkContinue E st).2 = { st with ticks := t, exitflag := e } := by
  unfold checkContinue
  simp only
  generalize (if st.iteration = 0 then 1 else st.iteration : Nat) = m
  split
  · exact ⟨st.ticks, st.exitflag, rfl⟩
  split
  · exact ⟨st.ticks, _, rfl⟩
  split
  · exact ⟨_, _, rfl⟩
  split
  · exact ⟨_, _, rfl⟩
  · exact ⟨_, st.exitflag, rfl⟩

theorem loop_empty (E : Env Num n) (st st1 : St Num n) (cur : Funout Num n) (hc : checkContinue E st = (true, st1)) : loop E 0 st cur = .error (.diverges, st1) := by
  rw [loop.eq_def]
  simp only [hc]

theorem rot_loop (hE : RotEnv Q E E' f f' g g' H H') (fuel : ℕ) : ∀ {st st' : St Num n} {x : Fin n → ℝ} (_ : RotAt Q f g H H' st st' x) (cur cur' : Funout Num n),
    (∃ s s', loop E fuel st cur = .error (.diverges, s) ∧ loop E' fuel st' cur' = .error (.diverges, s') ∧ StRot Q s s') ∨
    ∃ s s', loop E fuel st cur = .ok s ∧ loop E' fuel st' cur' = .ok s' ∧ StRot Q s s' := by
  induction fuel with
  | zero =>
    intro st st' x h cur cur'
    have hcc := ov_continue hE.opts hE.clock st st'.x st'.grad st'.xMin st'.gradMin st'.hess st'.evals
    rw [← h.rest] at hcc
    have hSt : StRot Q (checkContinue E st).2 (ovSt (checkContinue E st).2 st'.x st'.grad st'.xMin st'.gradMin st'.hess st'.evals) := by
      obtain ⟨t, e, hfr⟩ := rot_frame E st
      rw [hfr]
      exact ⟨⟨x, h.x, h.x'⟩, ⟨g x, h.grad, h.grad'⟩, ⟨_, _, h.hess, h.hess', hE.rot.hess x⟩, h.xMin, h.gradMin, h.evals, rfl⟩
    cases hb : (checkContinue E st).1 with
    | false =>
      right
      refine ⟨_, _, loop_stop E 0 st _ cur (Prod.ext hb rfl), loop_stop E' 0 st' _ cur' (by rw [hcc, hb]), hSt⟩
    | true =>
      left
      exact ⟨_, _, loop_empty E st _ cur (Prod.ext hb rfl), loop_empty E' st' _ cur' (by rw [hcc, hb]), hSt⟩
  | succ fuel ih =>
    intro st st' x h cur cur'
    have hcc := ov_continue hE.opts hE.clock st st'.x st'.grad st'.xMin st'.gradMin st'.hess st'.evals
    rw [← h.rest] at hcc
    cases hb : (checkContinue E st).1 with
    | false =>
      right
      refine ⟨(checkContinue E st).2, _, loop_stop E _ st _ cur (Prod.ext hb rfl), loop_stop E' _ st' _ cur' (by rw [hcc, hb]), ?_⟩
      obtain ⟨t, e, hfr⟩ := rot_frame E st
      rw [hfr]
      exact ⟨⟨x, h.x, h.x'⟩, ⟨g x, h.grad, h.grad'⟩, ⟨_, _, h.hess, h.hess', hE.rot.hess x⟩, h.xMin, h.gradMin, h.evals, rfl⟩
    | true =>
      have hc1 : checkContinue E st = (true, (checkContinue E st).2) := Prod.ext hb rfl
      have hc1' : checkContinue E' st' = (true, ovSt (checkContinue E st).2 st'.x st'.grad st'.xMin st'.gradMin st'.hess st'.evals) := by rw [hcc, hb]
      obtain ⟨hst1, hcv, -, -, hdl⟩ := checkContinue_true E st _ hc1
      rw [hst1] at hc1 hc1'
      have hA : RotAt Q f g H H' { st with ticks := st.ticks + 1 } (ovSt { st with ticks := st.ticks + 1 } st'.x st'.grad st'.xMin st'.gradMin st'.hess st'.evals) x :=
        ⟨h.x, h.fval, h.grad, h.hess, h.happ, h.delta, h.live, h.x', h.grad', h.hess', h.xMin, h.gradMin, h.evals, rfl⟩
      rcases rot_iterate hE hA hdl hcv cur cur' with ⟨s, s', i1, i2, i3⟩ | ⟨s, s', c, c', y, i1, i2, i3⟩
      · left
        exact ⟨s, s', loop_raise E fuel st _ cur _ hc1 i1, loop_raise E' fuel st' _ cur' _ hc1' i2, i3⟩
      · rw [loop_step E fuel st _ s cur c hc1 i1, loop_step E' fuel st' _ s' cur' c' hc1' i2]
        exact ih i3 c c'

theorem setup_tracks (st : St Num n) (fo : Funout Num n) (v : ℝ) (hv : fo.fval = fin v) (hm : st.fvalMin = pinf) :
    ({ setupState st fo none with converged := false } : St Num n) = { logStart st (.ok fo) with
      fval := fo.fval, grad := fo.grad, happ := none, hess := fo.hess.getD mzero, xMin := fo.x, xMinId := fo.xId, fvalMin := fo.fval, gradMin := fo.grad, converged := false } := by
  unfold setupState trackMinimum
  rw [if_pos]
  show (isFinite fo.fval && lt fo.fval st.fvalMin) = true
  rw [hv, hm]
  rfl

/-- what the first call of the objective returned -/
noncomputable def firstOut (E : Env Num n) (x0 : Fin n → ℝ) (startId : String) (v : ℝ) (gr : Fin n → ℝ) (B : Fin n → Fin n → ℝ) : Funout Num n :=
  { x := ofV x0, xId := (startState E (ofV x0) startId (St.new E.opts none)).xId, fval := fin v, grad := ofV gr, hess := some (ofM B), res := none }

/-- the first loop head -/
noncomputable def firstHead (E : Env Num n) (x0 : Fin n → ℝ) (startId : String) (v : ℝ) (gr : Fin n → ℝ) (B : Fin n → Fin n → ℝ) : St Num n :=
  { logStart (startState E (ofV x0) startId (St.new E.opts none)) (.ok (firstOut E x0 startId v gr B)) with
      fval := fin v, grad := ofV gr, happ := none, hess := ofM B, xMin := ofV x0, xMinId := (startState E (ofV x0) startId (St.new E.opts none)).xId, fvalMin := fin v, gradMin := ofV gr,
      converged := false }

theorem first_head (hR : Returns E f g H) (hU : NoBounds E.lb E.ub) (x0 : Fin n → ℝ) (startId : String) (hess0 : Hess0 Num) :
    LoopHead E (ofV x0) startId hess0 (St.new E.opts none) 0 (firstHead E x0 startId (f x0) (g x0) (H x0)) (firstOut E x0 startId (f x0) (g x0) (H x0)) := by
  have hx : (startState E (ofV x0) startId (St.new E.opts none)).x = ofV x0 := C51_nudge _ _ _ hU
  obtain ⟨raw, r1, r2, r3, r4⟩ := hR.eval 0 x0
  have i1 : initialHapp (n := n) none hess0 raw = .ok none := by
    simp only [initialHapp]
  have s1 := setup_forward E hess0 (startState E (ofV x0) startId (St.new E.opts none)) raw none (firstOut E x0 startId (f x0) (g x0) (H x0)) (by rw [hx]; exact r1) i1 r2
    (by rw [hx]; exact r4 _) (by simp [firstOut, allFinite, vfinite, mfinite])
  rw [setup_tracks _ _ (f x0) rfl rfl] at s1
  exact LoopHead.start (startState E (ofV x0) startId (St.new E.opts none)) _ _ (by rw [hx, checkInBounds, if_pos (inBounds_real _ _ _ (hU.inBox x0))]) s1

theorem rot_minimize (hE : RotEnv Q E E' f f' g g' H H') (x0 : Fin n → ℝ) (hg : g x0 ≠ 0) (startId : String) (hess0 hess0' : Hess0 Num) (fuel : ℕ) :
    (∃ s s', minimize E fuel (ofV x0) startId hess0 (St.new E.opts none) = .error (.diverges, s) ∧
      minimize E' fuel (ofV (rmv Q x0)) startId hess0' (St.new E'.opts none) = .error (.diverges, s') ∧ StRot Q s s') ∨
    ∃ s s', minimize E fuel (ofV x0) startId hess0 (St.new E.opts none) = .ok s ∧
      minimize E' fuel (ofV (rmv Q x0)) startId hess0' (St.new E'.opts none) = .ok s' ∧ StRot Q s s' := by
  have hn : n ≠ 0 := by
    rintro rfl
    exact hg (funext fun i => i.elim0)
  have hx : (startState E (ofV x0) startId (St.new E.opts none)).x = ofV x0 := C51_nudge _ _ _ hE.free
  have hx' : (startState E' (ofV (rmv Q x0)) startId (St.new E'.opts none)).x = ofV (rmv Q x0) := C51_nudge _ _ _ hE.free'
  have hA : RotAt Q f g H H' (firstHead E x0 startId (f x0) (g x0) (H x0)) (firstHead E' (rmv Q x0) startId (f' (rmv Q x0)) (g' (rmv Q x0)) (H' (rmv Q x0))) x0 := by
    refine ⟨hx, rfl, rfl, rfl, rfl, hE.deltaInit, Or.inr hg, hx', ?_, rfl, ⟨x0, rfl, rfl⟩, ⟨g x0, rfl, ?_⟩, List.Forall₂.cons ⟨x0, hx, hx'⟩ List.Forall₂.nil, ?_⟩
    · show ofV _ = ofV _
      rw [hE.rot.grad]
    · show ofV _ = ofV _
      rw [hE.rot.grad]
    · simp only [ovSt, firstHead, logStart, startState, makeNonDegenerate, reset, St.new, hE.opts, hE.clock, hE.rot.value]
  have k1 := minimize_from_head E (ofV x0) startId hess0 _ _ _ 0 hn (first_head hE.ret hE.free x0 startId hess0) fuel
  have k2 := minimize_from_head E' (ofV (rmv Q x0)) startId hess0' _ _ _ 0 hn (first_head hE.ret' hE.free' (rmv Q x0) startId hess0') fuel
  rw [Nat.zero_add] at k1 k2
  rw [k1, k2]
  rcases rot_loop hE fuel hA (firstOut E x0 startId (f x0) (g x0) (H x0)) (firstOut E' (rmv Q x0) startId (f' (rmv Q x0)) (g' (rmv Q x0)) (H' (rmv Q x0))) with ⟨s, s', l1, l2, l3⟩ | ⟨s, s', l1, l2, l3⟩
  · left
    exact ⟨s, s', by rw [l1], by rw [l2], l3⟩
  · right
    refine ⟨s, s', ?_, ?_, l3⟩
    · rw [l1]; simp [writeHistory, hE.history]
    · rw [l2]; simp [writeHistory, hE.opts, hE.history]

end
end Fides
