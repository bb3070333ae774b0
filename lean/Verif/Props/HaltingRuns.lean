import Verif.Props.Halting
import Verif.Props.Scaling
import Verif.Props.Predicted
import Verif.Props.NewtonExamples

/-!
# C64: runs whose ratios are numbers
-/

namespace Fides
open Num Spec
variable {n : ℕ}

variable {E : Env Num n} {fa g1 g2 D0 : ℝ}

/-- the problem handed to the step computation is finite -/
theorem pass_data (hE : HaltParams E fa g1 g2 D0) (tm : ℝ) (htm : E.opts.thetaMax = fin tm) (ht0 : 0 < tm) (ht1 : tm ≤ 1)
    (x0 : Vec Num n) (startId : String) (hess0 : Hess0 Num) (st0 : St Num n) (k : ℕ) (prev : St Num n) (cur : Funout Num n)
    (hh : LoopHead E x0 startId hess0 st0 k prev cur) (hcont : lt prev.delta spacing1 = false) (hfin : allFinite prev.fval prev.grad (some prev.hess) = true)
    (hsym : ∀ H, prev.hess = ofM H → Sym H) :
    ∃ (x d g dv : Fin n → ℝ) (H : Fin n → Fin n → ℝ) (D th : ℝ),
      RealData (trInput E { prev with iteration := prev.iteration + 1, deltaIter := prev.delta, ticks := prev.ticks + 1 }) x d g dv H D th ∧
        0 < th ∧ th ≤ 1 ∧ InBox E.lb E.ub x ∧ 0 < D ∧ prev.x = ofV x ∧ prev.grad = ofV g := by
  obtain ⟨x, d, th, hx, hbox, hd, hth, h0, h1⟩ := trInput_real E x0 startId hess0 st0 tm htm ht0 ht1 k prev cur hh
    { prev with iteration := prev.iteration + 1, deltaIter := prev.delta, ticks := prev.ticks + 1 } rfl rfl
  obtain ⟨_, hg, hH⟩ := (allFinite_iff _ _ _).mp hfin
  obtain ⟨g, hg⟩ := (vfinite_iff prev.grad).mp (by simpa [vfinite] using hg)
  obtain ⟨H, hH⟩ := (mfinite_iff prev.hess).mp (by simpa [mfinite] using hH prev.hess rfl)
  obtain ⟨D, hD, hD0, _⟩ := C16_bound E x0 startId hess0 st0 D0 g1 g2 hE.deltaInit hE.gamma1 hE.gamma2 hE.D0_pos.le hE.g1_pos.le hE.g1_lt.le hE.g2_ge k prev cur hh
  have hdv : ∀ i, ∃ v : ℝ, affineDv E.lb E.ub prev.grad i = fin v := by
    intro i
    rcases affineDv_cases E.lb E.ub prev.grad i with h | h <;> rw [h] <;> exact ⟨_, rfl⟩
  choose dv hdv using hdv
  rw [hD, show (spacing1 : Num) = fin (1 / 4503599627370496) by norm_num [spacing1]] at hcont
  simp only [fin_lt, decide_eq_false_iff_not, not_lt] at hcont
  exact ⟨x, d, g, dv, H, D, th, ⟨hx, hd, hg, funext hdv, hH, hD, hth, hsym H hH⟩, h0, h1, hbox, by linarith [show (0:ℝ) < 1 / 4503599627370496 by norm_num], hx, hg⟩

/-- with a real step the recorded ratio is a real number -/
theorem ratio_of_real (O : ℕ → Oracles Num) (sf : ℕ)
    (hO : ∀ k I, E.tr k I = trustRegion (O k) sf E.opts.subspaceDim E.opts.stepbackStrat I)
    (x0 : Vec Num n) (startId : String) (hess0 : Hess0 Num) (st0 : St Num n) (k : ℕ) (prev next : St Num n) (cur cur' new : Funout Num n) (step : Step Num n)
    (hp : Pass E prev cur step new next cur') {x d g dv : Fin n → ℝ} {H : Fin n → Fin n → ℝ} {D th : ℝ}
    (hI : RealData (trInput E { prev with iteration := prev.iteration + 1, deltaIter := prev.delta, ticks := prev.ticks + 1 }) x d g dv H D th)
    (h0 : 0 < th) (h1 : th ≤ 1) (hbox : InBox E.lb E.ub x) {p : Fin n → ℝ} (hp' : vadd step.ss step.ss0 = ofV p) :
    ∃ r : ℝ, next.trRatio = fin r := by
  have hF := pass_facts E _ _ _ _ _ _ hp
  have hpr := hp.proposal
  rw [hO] at hpr
  have hval := C25_value _ _ _ _ _ _ hpr
  have hP := RealData.prob hI h0 h1 hbox
  rw [hp', hP.shess, hP.sg, quadraticForm_ofV] at hval
  have hratio := hF.ratio
  rw [show radiusStep E prev step new = updateTrRadius E new step (trInput E (preIter prev)).dv (afterEval prev step (.ok new)) from rfl] at hratio
  have key : isFinite new.fval = true → ∃ r : ℝ, ratioOf (afterEval prev step (.ok new)).fval new step (trInput E (preIter prev)).dv = fin r := by
    intro hnf
    obtain ⟨hv1, hg1, _⟩ := (allFinite_iff _ _ _).mp (hF.finite1 hnf)
    obtain ⟨hv0, _, _⟩ := (allFinite_iff _ _ _).mp hF.finite0
    obtain ⟨g', hg'⟩ := (vfinite_iff new.grad).mp (by simpa [vfinite] using hg1)
    have hfv : ∀ a : Num, isFinite a = true → ∃ r : ℝ, a = fin r := by
      intro a ha; cases a with
      | fin r => exact ⟨r, rfl⟩
      | pinf => cases ha
      | ninf => cases ha
      | nan => cases ha
    obtain ⟨v0, hv0⟩ := hfv _ hv0
    obtain ⟨v1, hv1⟩ := hfv _ hv1
    have hdv : (trInput E (preIter prev)).dv = ofV dv := hI.dv
    have hdot : dot (vadd step.ss step.ss0) (fun i => (trInput E (preIter prev)).dv i * FloatOps.abs (new.grad i) * vadd step.ss step.ss0 i) =
        fin (rdot p fun i => dv i * |g' i| * p i) := by
      rw [hp', hdv, hg', ← dot_ofV]
      congr 1
    unfold ratioOf
    rw [hdot, hval, show (afterEval prev step (.ok new)).fval = prev.fval from rfl, hv0, hv1]
    split
    · exact ⟨0, by simp⟩
    · rename_i hle
      simp only [fin_neg, lit_def, fin_le, Rat.cast_zero, decide_eq_true_eq, not_le] at hle
      simp only [fin_neg, lit_def, fin_mul, fin_sub]
      rw [fin_div _ _ hle.ne']
      exact ⟨_, rfl⟩
  rcases updateTrRadius_cases E new step (trInput E (preIter prev)).dv (afterEval prev step (.ok new)) with
    ⟨_, h⟩ | ⟨hnf, r, hr, ⟨_, _, h⟩ | ⟨_, _, h⟩ | ⟨_, _, m, h⟩⟩
  · rw [hratio, h]; exact ⟨0, by simp⟩
  all_goals
    obtain ⟨r', hr'⟩ := key hnf
    exact ⟨r', by rw [hratio, h]; show r = _; rw [hr, hr']⟩

/-- with finite data the recorded ratio is a real number -/
theorem pass_ratio (hE : HaltParams E fa g1 g2 D0) (hn : 1 < n) (O : ℕ → Oracles Num) (sf : ℕ)
    (hO : ∀ k I, E.tr k I = trustRegion (O k) sf E.opts.subspaceDim E.opts.stepbackStrat I) (hfin : ∀ k, FiniteOracles (O k))
    (hstrat : E.opts.stepbackStrat = .refine ∨ NoBounds E.lb E.ub)
    (tm : ℝ) (htm : E.opts.thetaMax = fin tm) (ht0 : 0 < tm) (ht1 : tm ≤ 1)
    (x0 : Vec Num n) (startId : String) (hess0 : Hess0 Num) (st0 : St Num n) (k : ℕ) (prev next : St Num n) (cur cur' new : Funout Num n) (step : Step Num n)
    (hh : LoopHead E x0 startId hess0 st0 k prev cur) (hp : Pass E prev cur step new next cur')
    (hsym : ∀ H, prev.hess = ofM H → Sym H)
    (hst : E.opts.subspaceDim = .steihaug → ∀ x g, prev.x = ofV x → prev.grad = ofV g → ¬ Stationary E.lb E.ub x g) :
    ∃ r : ℝ, next.trRatio = fin r := by
  have hF := pass_facts E _ _ _ _ _ _ hp
  obtain ⟨x, d, g, dv, H, D, th, hI, h0, h1, hbox, hD, hx, hg⟩ := pass_data hE tm htm ht0 ht1 x0 startId hess0 st0 k prev cur hh
    (checkContinue_true E prev _ hp.continues).2.2.2.2 hF.finite0 hsym
  have hpr := hp.proposal
  rw [hO] at hpr
  have hdim : E.opts.subspaceDim = .steihaug → ∃ i, d i * g i ≠ 0 := by
    intro hs
    by_contra hcon
    push Not at hcon
    refine hst hs x g hx hg ((C29_stationary E { prev with iteration := prev.iteration + 1, deltaIter := prev.delta, ticks := prev.ticks + 1 } x g hx hg hbox).1.mp ?_)
    have := (RealData.prob hI h0 h1 hbox).sg
    rw [this, ofV_inj]
    funext i
    exact hcon i
  have hstr : E.opts.stepbackStrat = .refine ∨ ∀ i, (trInput E { prev with iteration := prev.iteration + 1, deltaIter := prev.delta, ticks := prev.ticks + 1 }).lb i = ninf ∧
      (trInput E { prev with iteration := prev.iteration + 1, deltaIter := prev.delta, ticks := prev.ticks + 1 }).ub i = pinf := hstrat
  obtain ⟨hfs, r, hr⟩ := finite_og hI hn h0 h1 hbox hD (O prev.proposals) (hfin _) sf E.opts.subspaceDim E.opts.stepbackStrat hdim hstr step hpr
  obtain ⟨a, ha, _⟩ := hfs.alpha
  obtain ⟨q, hq⟩ := hfs.ss0
  have hp' : vadd step.ss step.ss0 = ofV (fun i => r i * a + q i) := by
    funext i
    rw [hfs.ss, hr, ha, hq]; simp [vadd]
  exact ratio_of_real O sf hO x0 startId hess0 st0 k prev next cur cur' new step hp hI h0 h1 hbox hp'

/-- **C64** for the solvers of the package: no recorded ratio is NaN.  More than one variable, external routines that return finite numbers, symmetric
Hessians; no bounds, or the step-back strategy `refine`; with Steihaug's solver under the condition that no iteration starts at a point that is exactly
stationary (`C17_counterexample` shows what happens there). -/
theorem C64_ratios (hE : HaltParams E fa g1 g2 D0) (hn : 1 < n) (O : ℕ → Oracles Num) (sf : ℕ)
    (hO : ∀ k I, E.tr k I = trustRegion (O k) sf E.opts.subspaceDim E.opts.stepbackStrat I) (hfin : ∀ k, FiniteOracles (O k))
    (hstrat : E.opts.stepbackStrat = .refine ∨ NoBounds E.lb E.ub)
    (tm : ℝ) (htm : E.opts.thetaMax = fin tm) (ht0 : 0 < tm) (ht1 : tm ≤ 1)
    (x0 : Vec Num n) (startId : String) (hess0 : Hess0 Num) (st0 : St Num n)
    (hsym : ∀ k st cur H, LoopHead E x0 startId hess0 st0 k st cur → st.hess = ofM H → Sym H)
    (hst : E.opts.subspaceDim = .steihaug → ∀ k st cur x g, LoopHead E x0 startId hess0 st0 k st cur → st.converged = false → st.x = ofV x → st.grad = ofV g →
      ¬ Stationary E.lb E.ub x g)
    (j : ℕ) (prev next : St Num n) (cur cur' new : Funout Num n) (step : Step Num n) (hh : LoopHead E x0 startId hess0 st0 j prev cur)
    (hp : Pass E prev cur step new next cur') : isNaN next.trRatio = false := by
  obtain ⟨r, hr⟩ := pass_ratio hE hn O sf hO hfin hstrat tm htm ht0 ht1 x0 startId hess0 st0 j prev next cur cur' new step hh hp
    (fun H hH => hsym j prev cur H hh hH) (fun hs x g hx hg => hst hs j prev cur x g hh (continues_live E _ _ hp.continues) hx hg)
  rw [hr]; simp

/-- **C64** for the 2D and the full-space solver, no hypothesis on the ratios. -/
theorem C64_solvers (hE : HaltParams E fa g1 g2 D0) (hn : 1 < n) (O : ℕ → Oracles Num) (sf : ℕ)
    (hO : ∀ k I, E.tr k I = trustRegion (O k) sf E.opts.subspaceDim E.opts.stepbackStrat I) (hfin : ∀ k, FiniteOracles (O k))
    (hdim : E.opts.subspaceDim ≠ .steihaug) (hstrat : E.opts.stepbackStrat = .refine ∨ NoBounds E.lb E.ub)
    (tm : ℝ) (htm : E.opts.thetaMax = fin tm) (ht0 : 0 < tm) (ht1 : tm ≤ 1) (fmin : ℝ) (hmin : BoundedBelow E fmin)
    (x0 : Vec Num n) (startId : String) (hess0 : Hess0 Num) (st0 : St Num n)
    (hsym : ∀ k st cur H, LoopHead E x0 startId hess0 st0 k st cur → st.hess = ofM H → Sym H)
    (s : St Num n) (c : Funout Num n) (h0 : LoopHead E x0 startId hess0 st0 0 s c) (v0 : ℝ) (hv0 : s.fval = fin v0)
    (k : ℕ) (st : St Num n) (cur : Funout Num n) (h : LoopHead E x0 startId hess0 st0 k st cur) :
    k < passBound g1 g2 D0 (v0 - fmin) (1 / 4503599627370496) fa :=
  C64_stops hE fmin hmin x0 startId hess0 st0 (fun j prev cur step new next cur' hh hp =>
    C64_ratios hE hn O sf hO hfin hstrat tm htm ht0 ht1 x0 startId hess0 st0 hsym (fun hs => absurd hs hdim) j prev next cur cur' new step hh hp) s c h0 v0 hv0 k st cur h

/-- **C64** for Steihaug's solver without bounds: it is enough that the gradient at the start is longer than `gatol ≥ 0`. -/
theorem C64_steihaug (hE : HaltParams E fa g1 g2 D0) (hn : 1 < n) (O : ℕ → Oracles Num) (sf : ℕ)
    (hO : ∀ k I, E.tr k I = trustRegion (O k) sf E.opts.subspaceDim E.opts.stepbackStrat I) (hfin : ∀ k, FiniteOracles (O k))
    (hU : NoBounds E.lb E.ub)
    (tm : ℝ) (htm : E.opts.thetaMax = fin tm) (ht0 : 0 < tm) (ht1 : tm ≤ 1) (fmin : ℝ) (hmin : BoundedBelow E fmin)
    (x0 : Vec Num n) (startId : String) (hess0 : Hess0 Num) (st0 : St Num n)
    (hsym : ∀ k st cur H, LoopHead E x0 startId hess0 st0 k st cur → st.hess = ofM H → Sym H)
    (ga : ℝ) (hga : E.opts.gatol = fin ga) (hga0 : 0 ≤ ga)
    (s : St Num n) (c : Funout Num n) (h0 : LoopHead E x0 startId hess0 st0 0 s c) (v0 : ℝ) (hv0 : s.fval = fin v0)
    (gr0 : Fin n → ℝ) (hg0 : s.grad = ofV gr0) (hstart : ga < rnorm gr0)
    (k : ℕ) (st : St Num n) (cur : Funout Num n) (h : LoopHead E x0 startId hess0 st0 k st cur) :
    k < passBound g1 g2 D0 (v0 - fmin) (1 / 4503599627370496) fa := by
  refine C64_stops hE fmin hmin x0 startId hess0 st0 (fun j prev cur step new next cur' hh hp =>
    C64_ratios hE hn O sf hO hfin (Or.inr hU) tm htm ht0 ht1 x0 startId hess0 st0 hsym ?_ j prev next cur cur' new step hh hp) s c h0 v0 hv0 k st cur h
  intro _ j st cur x g hh hc hx hg hstat
  have hpos := head_gradient x0 startId hess0 st0 ga hga (fun s' c' gr hs hgr => by
    obtain ⟨rfl, rfl⟩ := loopHead_unique E x0 startId hess0 st0 0 _ _ _ _ hs h0
    rw [hg0, ofV_inj] at hgr
    rw [← hgr]; exact hstart) j st cur hh hc g hg
  have hkkt := (C29_stationary E st x g hx hg (hU.inBox x)).2.mp hstat
  have hz : g = 0 := by
    funext i
    rcases hkkt i with h | ⟨_, h⟩ | ⟨_, h⟩
    · exact h
    · rw [(hU i).1] at h; cases h
    · rw [(hU i).2] at h; cases h
  rw [rnorm_eq_zero.mpr hz] at hpos
  linarith

/-- the default options with another limit on the number of iterations -/
noncomputable def longEnv (n : ℕ) (obj : Vec Num n → Ret Num) (O : ℕ → Oracles Num) (N : ℕ) : Env Num n :=
  { plainEnv n obj O with opts := { (resolveOpts [] : Opts Num) with maxiter := N } }

/-- what the default options say -/
theorem long_halt (n : ℕ) (obj : Vec Num n → Ret Num) (O : ℕ → Oracles Num) (N : ℕ) :
    HaltParams (longEnv n obj O N) (1 / 100000000) (1 / 4) 2 1 := by
  constructor <;> try (simp only [longEnv, demo_opts])
  · exact ⟨1 / 100000000, by simp, by norm_num⟩
  · exact ⟨1 / 4, 3 / 4, by simp, by simp, by norm_num, by norm_num⟩
  all_goals norm_num

/-- **C64** for the default options with any `maxiter`: no bounds, more than one variable, any real functions `f ≥ fmin`, `g` and symmetric `H` in the
place of the objective, its gradient and its Hessian; they need not be related to each other, continuous or measurable.  A number that depends on
`f x0 - fmin` only bounds the iterations, and with `maxiter` as large as that a run that returns has the flag FTOL, XTOL, GTOL or DELTA_TOO_SMALL. -/
theorem C64_default (hn : 1 < n) (obj : Vec Num n → Ret Num) (O : ℕ → Oracles Num) (hO : ∀ k, FiniteOracles (O k)) (N : ℕ) (f : (Fin n → ℝ) → ℝ)
    (g : (Fin n → ℝ) → Fin n → ℝ) (H : (Fin n → ℝ) → Fin n → Fin n → ℝ) (hR : Returns (longEnv n obj O N) f g H) (hsym : ∀ x, Sym (H x)) (fmin : ℝ) (hmin : ∀ x, fmin ≤ f x)
    (x0 : Fin n → ℝ) (startId : String) (hess0 : Hess0 Num) (st0 : St Num n) (happ : st0.happ = none) (fuel : ℕ) (st' : St Num n)
    (h : minimize (longEnv n obj O N) fuel (ofV x0) startId hess0 st0 = .ok st') :
    st'.iteration < passBound (1 / 4) 2 1 (f x0 - fmin) (1 / 4503599627370496) (1 / 100000000) ∧
      (passBound (1 / 4) 2 1 (f x0 - fmin) (1 / 4503599627370496) (1 / 100000000) ≤ N →
        st'.exitflag = .ftol ∨ st'.exitflag = .xtol ∨ st'.exitflag = .gtol ∨ st'.exitflag = .deltaTooSmall) := by
  have hU : NoBounds (longEnv n obj O N).lb (longEnv n obj O N).ub := fun _ => ⟨rfl, rfl⟩
  have key := C64_flag (long_halt n obj O N) fmin ?_ (ofV x0) startId hess0 st0 ?_ (f x0)
    (fun s c h0 => (start_values hU hR.evaluates x0 startId hess0 st0 s c h0).2.1) fuel st' h
  · refine ⟨key.1, fun hN => key.2 ?_ ?_ (fun _ => ⟨0, rfl⟩)⟩
    · show (_ : ℤ) ≤ (N : ℤ)
      exact_mod_cast hN
    · simp only [longEnv, demo_opts]
  · intro m x xId raw fo _ h1 h2 v hv
    have := (hR.evaluates m x xId raw fo h1 h2).1
    rw [this, fin_inj] at hv
    rw [← hv]; exact hmin x
  · intro j prev cur step new next cur' hh hp
    refine C64_ratios (long_halt n obj O N) hn O n ?_ hO (Or.inr hU) (19 / 20) (by simp only [longEnv, demo_opts]) (by norm_num) (by norm_num) (ofV x0) startId
      hess0 st0 ?_ ?_ j prev next cur cur' new step hh hp
    · intro k I; simp only [longEnv, plainEnv, demo_opts]
    · intro j st' cur' B hh hB
      obtain ⟨x, hx, _⟩ := C01_current _ (ofV x0) startId hess0 st0 j st' cur' hh
      rw [returned_hess hU hR (ofV x0) startId hess0 st0 happ j st' cur' hh x hx] at hB
      rw [← ofM_inj hB]; exact hsym x
    · intro hs; simp only [longEnv, demo_opts] at hs; cases hs

open Classical in
/-- any three real functions can be handed to the optimizer as objective, gradient and Hessian -/
theorem long_returns (O : ℕ → Oracles Num) (N : ℕ) (f : (Fin n → ℝ) → ℝ) (g : (Fin n → ℝ) → Fin n → ℝ) (H : (Fin n → ℝ) → Fin n → Fin n → ℝ) :
    ∃ obj : Vec Num n → Ret Num, Returns (longEnv n obj O N) f g H := by
  refine ⟨fun v => if h : ∃ x, v = ofV x then
    .tuple [.scalar (fin (f h.choose)), .ofVec (ofV (g h.choose)), .ofMat (ofM (H h.choose))] else .tuple [], Returns.mk rfl rfl ?_⟩
  intro k x
  have hex : ∃ x', (ofV x : Vec Num n) = ofV x' := ⟨x, rfl⟩
  have hx : hex.choose = x := (ofV_inj.mp hex.choose_spec).symm
  show (if h : ∃ x', (ofV x : Vec Num n) = ofV x' then _ else _) = _
  rw [dif_pos hex, hx]

open Classical in
/-- a function without any regularity, with a "gradient" and a "Hessian" that are not its derivatives: the hypotheses of `C64_default` are met and
the run exists -/
example (N : ℕ) : ∃ obj : Vec Num 2 → Ret Num, (∀ k : ℕ, FiniteOracles ((fun _ => exactOracles) k)) ∧
    Returns (longEnv 2 obj (fun _ => exactOracles) N) (fun x => if ∃ q : ℚ, x 0 = q then 1 else 0)
      (fun x => if ∃ q : ℚ, x 1 = q then x else -x) (fun x i j => if x 0 = x 1 then 1 else -3) ∧
    (∀ x : Fin 2 → ℝ, Sym (fun _ _ : Fin 2 => if x 0 = x 1 then (1 : ℝ) else -3)) ∧
    ∃ s c, LoopHead (longEnv 2 obj (fun _ => exactOracles) N) (ofV 1) "0" .hessStr (St.new (longEnv 2 obj (fun _ => exactOracles) N).opts none) 0 s c := by
  obtain ⟨obj, hR⟩ := long_returns (n := 2) (fun _ => exactOracles) N (fun x => if ∃ q : ℚ, x 0 = q then 1 else 0)
      (fun x => if ∃ q : ℚ, x 1 = q then x else -x) (fun x i j => if x 0 = x 1 then 1 else -3)
  obtain ⟨s, c, h⟩ := returns_head (fun _ => ⟨rfl, rfl⟩) hR 1 "0" .hessStr (St.new (longEnv 2 obj (fun _ => exactOracles) N).opts none) rfl
  exact ⟨obj, fun _ => exact_finite, hR, fun _ _ _ => rfl, s, c, h⟩

end Fides
