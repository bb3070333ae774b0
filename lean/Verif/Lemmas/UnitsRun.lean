import Verif.Lemmas.RotationRun
import Verif.Spec.Units

/-! Helper lemmas: runs on an objective in other units. -/

namespace Fides
open Num Spec

variable {n : ℕ}

/-- a state with other values, gradients and Hessian -/
def unSt (st : St Num n) (fv fm : Num) (g gm : Vec Num n) (B : Mat Num n n) (ev : List (EvalRec Num n)) : St Num n :=
  { st with fval := fv, fvalMin := fm, grad := g, hess := B, gradMin := gm, evals := ev }

/-- the options with the absolute tolerances in other units -/
def unitOpts (c : ℝ) (o : Opts Num) (fa ga : ℝ) : Opts Num := { o with fatol := fin (c * fa), gatol := fin (c * ga) }

theorem un_continue {E E' : Env Num n} {c fa ga : ℝ} (ho : E'.opts = unitOpts c E.opts fa ga) (hc : E'.clock = E.clock) (st : St Num n) (fv fm : Num) (g gm : Vec Num n) (B : Mat Num n n) (ev : List (EvalRec Num n)) :
    checkContinue E' (unSt st fv fm g gm B ev) = ((checkContinue E st).1, unSt (checkContinue E st).2 fv fm g gm B ev) := by
  unfold checkContinue unSt
  simp only [ho, hc, unitOpts]
  generalize (if st.iteration = 0 then 1 else st.iteration : Nat) = m
  split
  · rfl
  split
  · rfl
  split
  · rfl
  split <;> rfl

theorem un_ratio {c : ℝ} (hc : 0 < c) (a b q : ℝ) :
    (if le (-(fin (c * q))) (lit 0 : Num) = true then (lit 0 : Num) else (fin (c * a) - fin (c * b) - (lit (1 / 2) : Num) * fin 0) / -(fin (c * q))) =
    if le (-(fin q)) (lit 0 : Num) = true then (lit 0 : Num) else (fin a - fin b - (lit (1 / 2) : Num) * fin 0) / -(fin q) := by
  simp only [lit_def, fin_neg, fin_mul, fin_sub, fin_le, mul_zero, sub_zero, decide_eq_true_eq, Rat.cast_zero]
  rcases le_or_gt (-q) 0 with h | h
  · rw [if_pos h, if_pos (by nlinarith)]
  · have h2 := mul_pos hc h
    have h3 : 0 < -(c * q) := by rw [← mul_neg]; exact h2
    rw [if_neg (by linarith), if_neg (by linarith), fin_div _ _ h3.ne', fin_div _ _ h.ne']
    congr 1
    rw [← mul_neg, ← mul_sub, mul_div_mul_left _ _ hc.ne']

theorem un_radius {E E' : Env Num n} {c fa ga : ℝ} (hc : 0 < c) (ho : E'.opts = unitOpts c E.opts fa ga) (fo fo' : Funout Num n) (step step' : Step Num n) (dv dv' : Vec Num n) (st : St Num n) (fv fm : Num) (g gm : Vec Num n) (B : Mat Num n n)
    (ev : List (EvalRec Num n)) (hn : norm (vadd step'.ss step'.ss0) = norm (vadd step.ss step.ss0)) {a b q : ℝ} (hf : fo.fval = fin b) (hf' : fo'.fval = fin (c * b))
    (hs : st.fval = fin a) (hs' : fv = fin (c * a))
    (ha : dot (vadd step.ss step.ss0) (fun i => dv i * FloatOps.abs (fo.grad i) * vadd step.ss step.ss0 i) = fin 0)
    (ha' : dot (vadd step'.ss step'.ss0) (fun i => dv' i * FloatOps.abs (fo'.grad i) * vadd step'.ss step'.ss0 i) = fin 0)
    (hq : step.qpval = fin q) (hq' : step'.qpval = fin (c * q)) :
    updateTrRadius E' fo' step' dv' (unSt st fv fm g gm B ev) = ((updateTrRadius E fo step dv st).1, unSt (updateTrRadius E fo step dv st).2 fv fm g gm B ev) := by
  unfold updateTrRadius unSt
  simp only [ho, hn, hf, hf', ha, ha', hq, hq', hs, hs', un_ratio hc, unitOpts]
  simp only [fin_isFinite, Bool.not_true, Bool.false_eq_true, if_false]
  generalize (if le (-(fin q)) (lit 0 : Num) = true then (lit 0 : Num) else _) = r
  split
  · rfl
  split
  · rfl
  split <;> rfl

theorem un_conv {E E' : Env Num n} {c fa fr ga gr : ℝ} (hc : 0 < c) (ho : E'.opts = unitOpts c E.opts fa ga) (hfa : E.opts.fatol = fin fa) (hfr : E.opts.frtol = fin fr) (hga : E.opts.gatol = fin ga) (hgr : E.opts.grtol = fin gr)
    (fo fo' : Funout Num n) (step step' : Step Num n) (st : St Num n) (fv fm : Num) (g gm : Vec Num n) (B : Mat Num n n)
    (ev : List (EvalRec Num n)) (hn : norm (vadd step'.ss step'.ss0) = norm (vadd step.ss step.ss0)) {a b nm : ℝ} (hf : fo.fval = fin b) (hf' : fo'.fval = fin (c * b))
    (hs : st.fval = fin a) (hs' : fv = fin (c * a)) (hg : norm fo.grad = fin nm) (hg' : norm fo'.grad = fin (c * nm)) :
    checkConvergence E' step' fo' (unSt st fv fm g gm B ev) = unSt (checkConvergence E step fo st) fv fm g gm B ev := by
  have e1 : lt (FloatOps.abs (fin (c * b) - fin (c * a))) (fin (c * fa) + fin fr * FloatOps.abs (fin (c * a))) = lt (FloatOps.abs (fin b - fin a)) (fin fa + fin fr * FloatOps.abs (fin a)) := by
    simp only [fin_sub, fin_abs, fin_mul, fin_add, fin_lt, decide_eq_decide]
    rw [← mul_sub, abs_mul, abs_mul, abs_of_pos hc, show c * fa + fr * (c * |a|) = c * (fa + fr * |a|) by ring]
    exact mul_lt_mul_iff_right₀ hc
  have e2 : le (fin (c * nm)) (fin (c * ga)) = le (fin nm) (fin ga) := by
    simp only [fin_le, decide_eq_decide]
    exact mul_le_mul_iff_right₀ hc
  have e3 : le (fin (c * nm)) (fin gr * FloatOps.abs (fin (c * a))) = le (fin nm) (fin gr * FloatOps.abs (fin a)) := by
    simp only [fin_le, fin_abs, fin_mul, decide_eq_decide]
    rw [abs_mul, abs_of_pos hc, show gr * (c * |a|) = c * (gr * |a|) by ring]
    exact mul_le_mul_iff_right₀ hc
  unfold checkConvergence unSt
  simp only [ho, hn, hf, hf', hg, hg', hs, hs', unitOpts, hfa, hfr, hga, hgr, e1, e2, e3]
  split
  · rfl
  split
  · rfl
  split
  · rfl
  split <;> rfl

theorem un_track {c : ℝ} (hc : 0 < c) (fo fo' : Funout Num n) (st : St Num n) (fv fm : Num) (g gm : Vec Num n) (B : Mat Num n n)
    (ev : List (EvalRec Num n)) (hf : NumTimes c fo.fval fo'.fval) (hi : fo'.xId = fo.xId) (hx : fo'.x = fo.x) (hg : ∀ i, NumTimes c (fo.grad i) (fo'.grad i)) (hfm : NumTimes c st.fvalMin fm)
    (hgm : ∀ i, NumTimes c (st.gradMin i) (gm i)) :
    ∃ fm' gm', trackMinimum fo' (unSt st fv fm g gm B ev) = unSt (trackMinimum fo st) fv fm' g gm' B ev ∧ NumTimes c (trackMinimum fo st).fvalMin fm' ∧ ∀ i, NumTimes c ((trackMinimum fo st).gradMin i) (gm' i) := by
  obtain ⟨a, ha, ha'⟩ := hf
  obtain ⟨b, hb, hb'⟩ := hfm
  have e : (isFinite (fin (c * a)) && lt (fin (c * a)) (fin (c * b))) = (isFinite (fin a) && lt (fin a) (fin b)) := by
    simp only [fin_lt, fin_isFinite, Bool.true_and, decide_eq_decide]
    exact mul_lt_mul_iff_right₀ hc
  unfold trackMinimum unSt
  simp only [ha, ha', hb, hb', hi, hx, e]
  split
  · exact ⟨_, _, rfl, ⟨a, rfl, rfl⟩, hg⟩
  · exact ⟨_, _, rfl, ⟨b, hb, rfl⟩, hgm⟩

/-- two loop heads, the second one with the objective in other units -/
structure UnAt (c : ℝ) (f : (Fin n → ℝ) → ℝ) (g : (Fin n → ℝ) → Fin n → ℝ) (H : (Fin n → ℝ) → Fin n → Fin n → ℝ) (st st' : St Num n) (y : Fin n → ℝ) : Prop where
  x : st.x = ofV y
  fval : st.fval = fin (f y)
  grad : st.grad = ofV (g y)
  hess : st.hess = ofM (H y)
  happ : st.happ = none
  delta : ∃ d, st.delta = fin d
  live : st.converged = true ∨ g y ≠ 0
  fval' : st'.fval = fin (c * f y)
  grad' : st'.grad = ofV (c • g y)
  hess' : st'.hess = ofM (c • H y)
  fvalMin : NumTimes c st.fvalMin st'.fvalMin
  gradMin : ∀ i, NumTimes c (st.gradMin i) (st'.gradMin i)
  evals : List.Forall₂ (fun e e' => e'.arg = e.arg) st.evals st'.evals
  rest : st' = unSt st st'.fval st'.fvalMin st'.grad st'.gradMin st'.hess st'.evals

theorem UnAt.st {c : ℝ} {f : (Fin n → ℝ) → ℝ} {g : (Fin n → ℝ) → Fin n → ℝ} {H : (Fin n → ℝ) → Fin n → Fin n → ℝ} {st st' : St Num n} {x : Fin n → ℝ} (h : UnAt c f g H st st' x) : StTimes c st st' :=
  ⟨⟨f x, h.fval, h.fval'⟩, fun i => ⟨g x i, by rw [h.grad]; rfl, by rw [h.grad']; rfl⟩, fun i j => ⟨H x i j, by rw [h.hess]; rfl, by rw [h.hess']; rfl⟩, h.fvalMin, h.gradMin, h.evals, h.rest⟩

/-- an environment for which a theorem about the proposals is available: same options and clock (up to the units), no bounds -/
structure UnEnv (c : ℝ) (E E' : Env Num n) (f : (Fin n → ℝ) → ℝ) (g : (Fin n → ℝ) → Fin n → ℝ) (H : (Fin n → ℝ) → Fin n → Fin n → ℝ) (fa fr ga gr : ℝ) : Prop where
  pos : 0 < c
  ret : Returns E f g H
  ret' : Returns E' (fun x => c * f x) (fun x => c • g x) (fun x => c • H x)
  opts : E'.opts = unitOpts c E.opts fa ga
  clock : E'.clock = E.clock
  free : NoBounds E.lb E.ub
  free' : NoBounds E'.lb E'.ub
  history : E.opts.history = false
  fatol : E.opts.fatol = fin fa
  frtol : E.opts.frtol = fin fr
  gatol : E.opts.gatol = fin ga
  gatol0 : 0 ≤ ga
  grtol : E.opts.grtol = fin gr
  theta : ∃ tm : ℝ, E.opts.thetaMax = fin tm ∧ 0 < tm ∧ tm ≤ 1
  gamma1 : ∃ c, E.opts.gamma1 = fin c
  gamma2 : ∃ c, E.opts.gamma2 = fin c
  deltaInit : ∃ c, E.opts.deltaInit = fin c
  sym : ∀ x, Sym (H x)
  tr : ∀ k (I I' : TRIn Num n) (x : Fin n → ℝ) (D : ℝ), g x ≠ 0 → PlainInput I x (g x) (H x) D → PlainInput I' x (c • g x) (c • H x) D →
    ∃ r r' p, E.tr k I = .ok r ∧ E'.tr k I' = .ok r' ∧ Proposes1 r x (g x) (H x) p ∧ Proposes1 r' x (c • g x) (c • H x) p

theorem un_rmv (c : ℝ) (B : Fin n → Fin n → ℝ) (v : Fin n → ℝ) : rmv (c • B) v = c • rmv B v := by
  funext i
  simp only [rmv, rdot, Pi.smul_apply, smul_eq_mul, Finset.mul_sum]
  exact Finset.sum_congr rfl fun j _ => by ring

theorem un_quad (c : ℝ) (B : Fin n → Fin n → ℝ) (g p : Fin n → ℝ) : quad (c • B) (c • g) p = c * quad B g p := by
  simp only [quad, un_rmv, rdot_smul, smul_rdot]
  ring

theorem un_sym {c : ℝ} {B : Fin n → Fin n → ℝ} (hS : Sym B) : Sym (c • B) := fun i j => by
  simp only [Pi.smul_apply, hS i j]

theorem un_pd {c : ℝ} (hc : 0 < c) {B : Fin n → Fin n → ℝ} (h : PD B) : PD (c • B) := by
  intro v hv
  rw [un_rmv, rdot_smul]
  exact mul_pos hc (h v hv)

theorem un_norm {c : ℝ} (hc : 0 < c) (u : Fin n → ℝ) : rnorm (c • u) = c * rnorm u := by
  rw [rnorm_smul, abs_of_pos hc]

section
variable {c : ℝ} {f : (Fin n → ℝ) → ℝ} {g : (Fin n → ℝ) → Fin n → ℝ} {H : (Fin n → ℝ) → Fin n → Fin n → ℝ} {E E' : Env Num n} {fa fr ga gr : ℝ}

theorem un_iterate (hE : UnEnv c E E' f g H fa fr ga gr) {st st' : St Num n} {x : Fin n → ℝ} (h : UnAt c f g H st st' x) (hd : lt st.delta spacing1 = false) (hc : st.converged = false)
    (cur cur' : Funout Num n) :
    ∃ s s' o o' y, iterate E st cur = .ok (s, o) ∧ iterate E' st' cur' = .ok (s', o') ∧ UnAt c f g H s s' y := by
  have hgx : g x ≠ 0 := by
    rcases h.live with h1 | h1
    · rw [hc] at h1; cases h1
    · exact h1
  obtain ⟨D, hD⟩ := h.delta
  have hDp : 0 < D := by
    rw [hD] at hd
    have : (spacing1 : Num) = fin (1 / 4503599627370496) := by norm_num [spacing1]
    rw [this, fin_lt, decide_eq_false_iff_not, not_lt] at hd
    exact lt_of_lt_of_le (by norm_num) hd
  obtain ⟨tm, htm, ht0, ht1⟩ := hE.theta
  have hI : PlainInput (trInput E (preIter st)) x (g x) (H x) D := C85_inputs hE.free htm ht0 ht1 (preIter st) h.x h.grad h.hess (hE.sym x) hD hDp
  have hd' : st'.delta = st.delta := by rw [h.rest]; rfl
  have hx' : st'.x = ofV x := by rw [h.rest]; exact h.x
  have hI' : PlainInput (trInput E' (preIter st')) x (c • g x) (c • H x) D :=
    C85_inputs hE.free' (by rw [hE.opts]; exact htm) ht0 ht1 (preIter st') hx' h.grad' h.hess' (un_sym (hE.sym x)) (hd'.trans hD) hDp
  have hpr : st'.proposals = st.proposals := by rw [h.rest]; rfl
  have hid : st'.nextId = st.nextId := by rw [h.rest]; rfl
  have hf : allFinite st.fval st.grad (some st.hess) = true := by rw [h.fval, h.grad, h.hess]; simp [allFinite, vfinite, mfinite]
  have hf' : allFinite st'.fval st'.grad (some st'.hess) = true := by rw [h.fval', h.grad', h.hess']; simp [allFinite, vfinite, mfinite]
  obtain ⟨step, step', p, e1, e2, k, k'⟩ := hE.tr st.proposals _ _ x D hgx hI hI'
  rw [← hpr] at e2
  have hp : trialPoint st step = ofV (x + p) := by
    show vadd (vadd st.x step.s) step.s0 = _
    rw [h.x]; exact k.moves
  have hp' : trialPoint st' step' = ofV (x + p) := by
    show vadd (vadd st'.x step'.s) step'.s0 = _
    rw [hx', k'.moves]
  obtain ⟨raw, r1, -, -, r4⟩ := hE.ret.eval st.evals.length (x + p)
  obtain ⟨raw', r1', -, -, r4'⟩ := hE.ret'.eval st'.evals.length (x + p)
  set new : Funout Num n := { x := ofV (x + p), xId := st.nextId, fval := fin (f (x + p)), grad := ofV (g (x + p)), hess := some (ofM (H (x + p))), res := none } with hnew
  set new' : Funout Num n := { x := ofV (x + p), xId := st'.nextId, fval := fin (c * f (x + p)), grad := ofV (c • g (x + p)), hess := some (ofM (c • H (x + p))), res := none } with hnew'
  have o1 : trialOut E st step = .ok new := trialOut_forward E st step raw new (by rw [hp]; exact r1) (by rw [hp]; exact r4 _)
  have o2 : trialOut E' st' step' = .ok new' := trialOut_forward E' st' step' raw' new' (by rw [hp']; exact r1') (by rw [hp']; exact r4' _)
  have hfn : allFinite new.fval new.grad new.hess = true := by simp [hnew, allFinite, vfinite, mfinite]
  have hfn' : allFinite new'.fval new'.grad new'.hess = true := by
    simp only [hnew', allFinite, vfinite, mfinite, fin_isFinite, Bool.true_and, Bool.and_eq_true, decide_eq_true_eq]
    exact ⟨fun i => rfl, fun i j => rfl⟩
  have hnn : norm (vadd step'.ss step'.ss0) = norm (vadd step.ss step.ss0) := by rw [k'.scaled, k.scaled]
  have hdv : (trInput E (preIter st)).dv = ofV 0 := funext hI.dv
  have hdv' : (trInput E' (preIter st')).dv = ofV 0 := funext hI'.dv
  set ev' : List (EvalRec Num n) := { arg := ofV (x + p), out := .ok new' } :: st'.evals with hev'
  have hae : afterEval st' step' (.ok new') = unSt (afterEval st step (.ok new)) st'.fval st'.fvalMin st'.grad st'.gradMin st'.hess ev' := by
    have := h.rest
    unfold afterEval preIter
    rw [hp']
    conv_lhs => rw [show st'.proposals = st.proposals from hpr, hid, this]
    rfl
  have hrad : radiusStep E' st' step' new' = ((radiusStep E st step new).1, unSt (radiusStep E st step new).2 st'.fval st'.fvalMin st'.grad st'.gradMin st'.hess ev') := by
    unfold radiusStep
    rw [hae]
    refine un_radius (c := c) hE.pos hE.opts new new' step step' _ _ (afterEval st step (.ok new)) _ _ _ _ _ _ hnn (a := f x) (b := f (x + p)) (q := quad (H x) (g x) p) rfl rfl h.fval h.fval' ?_ ?_ k.predicts
      (by rw [k'.predicts, un_quad])
    · rw [hdv, k.scaled]
      exact aug_zero p (g (x + p))
    · rw [hdv', k'.scaled]
      exact aug_zero p (c • g (x + p))
  obtain ⟨tr, dl, it, mi, hr2⟩ := updateTrRadius_frame E new step (trInput E (preIter st)).dv (afterEval st step (.ok new))
  obtain ⟨ef, cv, hc2⟩ := checkConvergence_frame E step new (radiusStep E st step new).2
  have hck : NumTimes c (checkConvergence E step new (radiusStep E st step new).2).fvalMin st'.fvalMin ∧ ∀ i, NumTimes c ((checkConvergence E step new (radiusStep E st step new).2).gradMin i) (st'.gradMin i) := by
    rw [hc2]; unfold radiusStep; rw [hr2]
    exact ⟨h.fvalMin, h.gradMin⟩
  have hgt : ∀ i, NumTimes c (new.grad i) (new'.grad i) := fun i => ⟨g (x + p) i, rfl, rfl⟩
  obtain ⟨fm, gm, hpost, hfm, hgm⟩ := un_track (c := c) hE.pos new new' (checkConvergence E step new (radiusStep E st step new).2) st'.fval st'.fvalMin st'.grad st'.gradMin st'.hess ev' ⟨f (x + p), rfl, rfl⟩ hid rfl
    hgt hck.1 hck.2
  have hpc : postCheck E' st' step' new' = unSt (postCheck E st step new) st'.fval fm st'.grad gm st'.hess ev' := by
    unfold postCheck
    rw [hrad, un_conv (c := c) hE.pos hE.opts hE.fatol hE.frtol hE.gatol hE.grtol new new' step step' _ _ _ _ _ _ _ hnn (a := f x) (b := f (x + p)) (nm := rnorm (g (x + p))) rfl rfl ?_ h.fval' ?_ ?_]
    · exact hpost
    · unfold radiusStep; rw [hr2]; exact h.fval
    · exact norm_ofV _
    · show norm (ofV _) = _
      rw [norm_ofV, un_norm hE.pos]
  have hdel : ∃ d, (postCheck E st step new).delta = fin d := by
    obtain ⟨d, hdd⟩ := radius_real hE.gamma1 hE.gamma2 new step (trInput E (preIter st)).dv (afterEval st step (.ok new)) p k.scaled ⟨D, hD⟩
    obtain ⟨a1, a2, a3, a4, ht⟩ := trackMinimum_frame new (checkConvergence E step new (radiusStep E st step new).2)
    refine ⟨d, ?_⟩
    unfold postCheck
    rw [ht, hc2]
    exact hdd
  have hconv : (postCheck E st step new).converged = true ∨ g (x + p) ≠ 0 := by
    by_cases hg0 : g (x + p) = 0
    · left
      obtain ⟨a1, a2, a3, a4, ht⟩ := trackMinimum_frame new (checkConvergence E step new (radiusStep E st step new).2)
      unfold postCheck
      rw [ht]
      have hle : le (norm new.grad) E.opts.gatol = true := by
        show le (norm (ofV (g (x + p)))) _ = true
        rw [hg0, norm_ofV, rnorm_eq_zero.mpr rfl, hE.gatol, fin_le]; exact decide_eq_true hE.gatol0
      show (checkConvergence E step new (radiusStep E st step new).2).converged = true
      unfold checkConvergence
      simp only [hle, if_true]
      split
      · rfl
      split <;> rfl
    · exact Or.inr hg0
  obtain ⟨b1, b2, b3, b4, b5, b6, b7, b8, b9, b10, hfr⟩ := postCheck_frame E st step new
  have hev : List.Forall₂ (fun e e' => e'.arg = e.arg) (postCheck E st step new).evals ev' := by
    rw [hfr]
    exact List.Forall₂.cons hp.symm h.evals
  cases hb : (radiusStep E st step new).1 with
  | false =>
    refine ⟨_, _, _, _, x, iterate_reject E st cur step new hE.history hf e1 o1 (fun _ => hfn) hb,
      iterate_reject E' st' cur' step' new' (by rw [hE.opts]; exact hE.history) hf' e2 o2 (fun _ => hfn') (by rw [hrad]; exact hb), ?_⟩
    rw [hpc]
    refine ⟨?_, ?_, ?_, ?_, ?_, hdel, Or.inr hgx, h.fval', h.grad', h.hess', hfm, hgm, hev, rfl⟩ <;> rw [hfr]
    · exact h.x
    · exact h.fval
    · exact h.grad
    · exact h.hess
    · exact h.happ
  | true =>
    have hhp : (postCheck E st step new).happ = none := by rw [hfr]; exact h.happ
    have u1 := update_none E step new cur (postCheck E st step new) (ofM (H (x + p))) hhp rfl (inBounds_real _ _ _ (hE.free.inBox (x + p)))
    have u2 := update_none E' step' new' cur' (postCheck E' st' step' new') (ofM (c • H (x + p))) (by rw [hpc]; exact hhp) rfl (inBounds_real _ _ _ (hE.free'.inBox (x + p)))
    refine ⟨_, _, _, _, x + p, iterate_accept E st _ cur step new hE.history hf e1 o1 hfn hb u1,
      iterate_accept E' st' _ cur' step' new' (by rw [hE.opts]; exact hE.history) hf' e2 o2 hfn' (by rw [hrad]; exact hb) u2, ?_⟩
    rw [hpc]
    unfold makeNonDegenerate
    simp only [C51_nudge _ _ _ hE.free, C51_nudge _ _ _ hE.free']
    refine ⟨rfl, rfl, rfl, rfl, hhp, hdel, hconv, rfl, rfl, rfl, hfm, hgm, hev, ?_⟩
    simp only [unSt]
    rw [show new'.xId = new.xId from hid, show new'.x = new.x from rfl]
    congr 1

theorem un_loop (hE : UnEnv c E E' f g H fa fr ga gr) (fuel : ℕ) : ∀ {st st' : St Num n} {x : Fin n → ℝ} (_ : UnAt c f g H st st' x) (cur cur' : Funout Num n),
    (∃ s s', loop E fuel st cur = .error (.diverges, s) ∧ loop E' fuel st' cur' = .error (.diverges, s') ∧ StTimes c s s') ∨
    ∃ s s', loop E fuel st cur = .ok s ∧ loop E' fuel st' cur' = .ok s' ∧ StTimes c s s' := by
  have key : ∀ {st st' : St Num n} {x : Fin n → ℝ} (_ : UnAt c f g H st st' x), StTimes c (checkContinue E st).2 (unSt (checkContinue E st).2 st'.fval st'.fvalMin st'.grad st'.gradMin st'.hess st'.evals) := by
    intro st st' x h
    obtain ⟨t, e, hfr⟩ := rot_frame E st
    rw [hfr]
    have := h.st
    exact ⟨this.fval, this.grad, this.hess, h.fvalMin, h.gradMin, h.evals, rfl⟩
  induction fuel with
  | zero =>
    intro st st' x h cur cur'
    have hcc := un_continue hE.opts hE.clock st st'.fval st'.fvalMin st'.grad st'.gradMin st'.hess st'.evals
    rw [← h.rest] at hcc
    cases hb : (checkContinue E st).1 with
    | false =>
      right
      refine ⟨_, _, loop_stop E 0 st _ cur (Prod.ext hb rfl), loop_stop E' 0 st' _ cur' (by rw [hcc, hb]), key h⟩
    | true =>
      left
      exact ⟨_, _, loop_empty E st _ cur (Prod.ext hb rfl), loop_empty E' st' _ cur' (by rw [hcc, hb]), key h⟩
  | succ fuel ih =>
    intro st st' x h cur cur'
    have hcc := un_continue hE.opts hE.clock st st'.fval st'.fvalMin st'.grad st'.gradMin st'.hess st'.evals
    rw [← h.rest] at hcc
    cases hb : (checkContinue E st).1 with
    | false =>
      right
      exact ⟨(checkContinue E st).2, _, loop_stop E _ st _ cur (Prod.ext hb rfl), loop_stop E' _ st' _ cur' (by rw [hcc, hb]), key h⟩
    | true =>
      have hc1 : checkContinue E st = (true, (checkContinue E st).2) := Prod.ext hb rfl
      have hc1' : checkContinue E' st' = (true, unSt (checkContinue E st).2 st'.fval st'.fvalMin st'.grad st'.gradMin st'.hess st'.evals) := by rw [hcc, hb]
      obtain ⟨hst1, hcv, -, -, hdl⟩ := checkContinue_true E st _ hc1
      rw [hst1] at hc1 hc1'
      have hA : UnAt c f g H { st with ticks := st.ticks + 1 } (unSt { st with ticks := st.ticks + 1 } st'.fval st'.fvalMin st'.grad st'.gradMin st'.hess st'.evals) x :=
        ⟨h.x, h.fval, h.grad, h.hess, h.happ, h.delta, h.live, h.fval', h.grad', h.hess', h.fvalMin, h.gradMin, h.evals, rfl⟩
      obtain ⟨s, s', o, o', y, i1, i2, i3⟩ := un_iterate hE hA hdl hcv cur cur'
      rw [loop_step E fuel st _ s cur o hc1 i1, loop_step E' fuel st' _ s' cur' o' hc1' i2]
      exact ih i3 o o'

theorem un_minimize (hE : UnEnv c E E' f g H fa fr ga gr) (x0 : Fin n → ℝ) (hg : g x0 ≠ 0) (startId : String) (hess0 hess0' : Hess0 Num) (fuel : ℕ) :
    (∃ s s', minimize E fuel (ofV x0) startId hess0 (St.new E.opts none) = .error (.diverges, s) ∧
      minimize E' fuel (ofV x0) startId hess0' (St.new E'.opts none) = .error (.diverges, s') ∧ StTimes c s s') ∨
    ∃ s s', minimize E fuel (ofV x0) startId hess0 (St.new E.opts none) = .ok s ∧
      minimize E' fuel (ofV x0) startId hess0' (St.new E'.opts none) = .ok s' ∧ StTimes c s s' := by
  have hn : n ≠ 0 := by
    rintro rfl
    exact hg (funext fun i => i.elim0)
  have hx : (startState E (ofV x0) startId (St.new E.opts none)).x = ofV x0 := C51_nudge _ _ _ hE.free
  have hx' : (startState E' (ofV x0) startId (St.new E'.opts none)).x = ofV x0 := C51_nudge _ _ _ hE.free'
  have hA : UnAt c f g H (firstHead E x0 startId (f x0) (g x0) (H x0)) (firstHead E' x0 startId (c * f x0) (c • g x0) (c • H x0)) x0 := by
    refine ⟨hx, rfl, rfl, rfl, rfl, hE.deltaInit, Or.inr hg, rfl, rfl, rfl, ⟨f x0, rfl, rfl⟩, fun i => ⟨g x0 i, rfl, rfl⟩, List.Forall₂.cons (hx'.trans hx.symm) List.Forall₂.nil, ?_⟩
    simp only [unSt, firstHead, logStart, startState, makeNonDegenerate, reset, St.new, hE.opts, hE.clock, unitOpts, C51_nudge _ _ _ hE.free, C51_nudge _ _ _ hE.free']
  have k1 := minimize_from_head E (ofV x0) startId hess0 _ _ _ 0 hn (first_head hE.ret hE.free x0 startId hess0) fuel
  have k2 := minimize_from_head E' (ofV x0) startId hess0' _ _ _ 0 hn (first_head hE.ret' hE.free' x0 startId hess0') fuel
  rw [Nat.zero_add] at k1 k2
  rw [k1, k2]
  rcases un_loop hE fuel hA (firstOut E x0 startId (f x0) (g x0) (H x0)) (firstOut E' x0 startId (c * f x0) (c • g x0) (c • H x0)) with ⟨s, s', l1, l2, l3⟩ | ⟨s, s', l1, l2, l3⟩
  · left
    exact ⟨s, s', by rw [l1], by rw [l2], l3⟩
  · right
    refine ⟨s, s', ?_, ?_, l3⟩
    · rw [l1]; simp [writeHistory, hE.history]
    · rw [l2]; simp [writeHistory, hE.opts, hE.history, unitOpts]

end
end Fides
