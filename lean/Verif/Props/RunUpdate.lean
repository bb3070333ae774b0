import Verif.Lemmas.Converge
import Verif.Props.Run
import Verif.Lemmas.RunUpdate
import Verif.Lemmas.BfgsDemo
import Verif.Props.Initial
import Verif.Props.Quasi
import Verif.Lemmas.NumLawful

/-!
# C56: the Hessian approximation during a run

What the optimizer passes to the approximation object when a step is accepted, and what follows for whole runs.
-/

set_option linter.unusedSectionVars false

namespace Fides
open Spec

section pairs
variable {F : Type} [FloatOps F] [LawfulFloat F] {n : ℕ}

/-- the change of the Jacobian applied to the new residuals, `rᵀ (J - J_prev)` -/
def yBar {m : ℕ} (r : Vec F m) (J Jprev : Mat F m n) : Vec F n := vecMul r (msub J Jprev)

/-- C56: on an accepted step the approximation object is updated once, with the step `s + s0` taken, the change of the gradient between
the evaluation at the previous point (`cur`) and at the new point (`new`), and (by scheme) the new Hessian, the counters of this
optimizer, or the residuals and sensitivities of exactly these two evaluations; the result is the Hessian used next. -/
theorem C56_update (E : Env F n) (x0 : Vec F n) (startId : String) (hess0 : Hess0 F) (st0 : St F n) (k : ℕ) (prev next : St F n)
    (cur cur' new : Funout F n) (step : Step F n) (hh : LoopHead E x0 startId hess0 st0 k prev cur)
    (h : Pass E prev cur step new next cur') (hacc : lt next.fval prev.fval = true) (g : Happ F n) (hg : prev.happ = some g) :
    ∃ g', next.happ = some g' ∧ next.hess = g'.getMat ∧ prev.hess = g.getMat ∧
      let s := vadd step.s step.s0
      let y := vsub new.grad cur.grad
      (∀ a, g = .iter a → g' = .iter (a.update s y)) ∧
      (∀ j sw a, g = .hybridFixed j sw a →
        ∃ hm, new.hess = some hm ∧ g' = Happ.updateFixed j sw a s y hm next.iterSinceTr) ∧
      (∀ t sw a, g = .hybridFraction t sw a →
        ∃ hm, new.hess = some hm ∧ g' = Happ.updateFraction t sw a s y hm next.nIntermediate next.iteration) ∧
      (∀ t a, g = .fx t a → ∃ hm m r J rp Jp, new.hess = some hm ∧ new.res = some ⟨m, r, J⟩ ∧ cur.res = some ⟨m, rp, Jp⟩ ∧
        g' = .fx t (a.updateFX t s (vadd (mulVec hm s) (yBar r J Jp)) r rp hm)) ∧
      (∀ a, g = .ssm a → ∃ hm m r J rp Jp, new.hess = some hm ∧ new.res = some ⟨m, r, J⟩ ∧ cur.res = some ⟨m, rp, Jp⟩ ∧
        g' = .ssm (a.updateSSM s y hm (yBar r J Jp))) ∧
      (∀ a, g = .tssm a → ∃ hm m r J rp Jp, new.hess = some hm ∧ new.res = some ⟨m, r, J⟩ ∧ cur.res = some ⟨m, rp, Jp⟩ ∧
        g' = .tssm (a.updateTSSM s y (norm r) hm (fun i => yBar r J Jp i * (norm r / norm rp)))) ∧
      (∀ t a, g = .gnsbfgs t a → ∃ hm m r J rp Jp, new.hess = some hm ∧ new.res = some ⟨m, r, J⟩ ∧ cur.res = some ⟨m, rp, Jp⟩ ∧
        g' = .gnsbfgs t (a.updateGNSBFGS t s y (norm r) hm (fun i => yBar r J Jp i * (norm r / norm rp)))) := by
  have hp := pass_facts E _ _ _ _ _ _ h
  have hi := headInv E x0 startId hess0 st0 k prev cur hh
  have hacc' : (radiusStep E prev step new).1 = true := by
    rcases hp.cases with ⟨h1, _⟩ | ⟨_, _, _, h1, _⟩
    · exact h1
    · rw [h1] at hacc
      have := (LawfulFloat.lt_iff _ _).mp hacc
      simp [this.1] at this
  rcases pass_update E prev next cur cur' new step h hacc' with ⟨g0, g', h1, h2, h3, h4⟩ | ⟨h1, _⟩
  · rw [hg] at h1
    cases h1
    refine ⟨g', h3, h4, head_hess E x0 startId hess0 st0 k prev cur hh g hg, ?_⟩
    have hgr : prev.grad = cur.grad := hi.grad
    rw [hgr] at h2
    clear hacc hacc' h3 h4 hg hgr
    have hcast : ∀ (a b : ResData F n) (v : Vec F a.m) (w : Mat F a.m n), b.castTo a.m = some (v, w) → b = ⟨a.m, v, w⟩ := by
      intro a b v w hc
      unfold ResData.castTo at hc
      split at hc
      · rename_i hm
        cases b with
        | mk bm br bs =>
          simp only at hm
          subst hm
          simp only [Option.some.injEq, Prod.mk.injEq] at hc
          obtain ⟨rfl, rfl⟩ := hc
          rfl
      · cases hc
    refine ⟨?_, ?_, ?_, ?_, ?_, ?_, ?_⟩
    · rintro a rfl
      simp only [updateHapp, Except.ok.injEq] at h2
      exact h2.symm
    · rintro j sw a rfl
      simp only [updateHapp] at h2
      split at h2
      · cases h2
      · rename_i hm hhm
        cases h2
        exact ⟨hm, hhm, rfl⟩
    · rintro t sw a rfl
      simp only [updateHapp] at h2
      split at h2
      · cases h2
      · rename_i hm hhm
        cases h2
        exact ⟨hm, hhm, rfl⟩
    · rintro t a rfl
      simp only [updateHapp] at h2
      split at h2
      · rename_i hm rn ro hhm hrn hro
        split at h2
        · cases h2
        · rename_i rp sp hc
          cases h2
          exact ⟨hm, rn.m, rn.res, rn.sres, rp, sp, hhm, hrn, by rw [hro, hcast _ _ _ _ hc], rfl⟩
      · cases h2
    · rintro a rfl
      simp only [updateHapp] at h2
      split at h2
      · rename_i hm rn ro hhm hrn hro
        split at h2
        · cases h2
        · rename_i rp sp hc
          cases h2
          exact ⟨hm, rn.m, rn.res, rn.sres, rp, sp, hhm, hrn, by rw [hro, hcast _ _ _ _ hc], rfl⟩
      · cases h2
    · rintro a rfl
      simp only [updateHapp] at h2
      split at h2
      · rename_i hm rn ro hhm hrn hro
        split at h2
        · cases h2
        · rename_i rp sp hc
          cases h2
          exact ⟨hm, rn.m, rn.res, rn.sres, rp, sp, hhm, hrn, by rw [hro, hcast _ _ _ _ hc], rfl⟩
      · cases h2
    · rintro t a rfl
      simp only [updateHapp] at h2
      split at h2
      · rename_i hm rn ro hhm hrn hro
        split at h2
        · cases h2
        · rename_i rp sp hc
          cases h2
          exact ⟨hm, rn.m, rn.res, rn.sres, rp, sp, hhm, hrn, by rw [hro, hcast _ _ _ _ hc], rfl⟩
      · cases h2
  · rw [hg] at h1; cases h1

end pairs

open Num
variable {n : ℕ}

/-- in an accepted pass everything is finite: the previous point and gradient, the step, the new gradient -/
theorem accepted_finite (E : Env Num n) (x0 : Vec Num n) (startId : String) (hess0 : Hess0 Num) (st0 : St Num n) (k : ℕ)
    (prev next : St Num n) (cur cur' new : Funout Num n) (step : Step Num n) (hh : LoopHead E x0 startId hess0 st0 k prev cur)
    (h : Pass E prev cur step new next cur') (hacc : (radiusStep E prev step new).1 = true) :
    ∃ x s gc gn : Fin n → ℝ, prev.x = ofV x ∧ vadd step.s step.s0 = ofV s ∧ new.x = ofV (x + s) ∧ cur.grad = ofV gc ∧
      new.grad = ofV gn := by
  have hp := pass_facts E _ _ _ _ _ _ h
  have hi := headInv E x0 startId hess0 st0 k prev cur hh
  have hnew := accepted_lt E prev step new hacc hp.finite1
  have hb : inBounds E.lb E.ub new.x = true := by
    rcases hp.cases with ⟨_, _, h2, _⟩ | ⟨h2, _⟩
    · exact h2
    · rw [hacc] at h2; cases h2
  have hxf : vfinite new.x = true := by
    simp only [vfinite, decide_eq_true_eq]
    exact fun i => (inBounds_spec _ _ _ hb i).2.2
  obtain ⟨xn, hxn⟩ := (vfinite_iff _).mp hxf
  have hgn : vfinite new.grad = true := by
    simp only [vfinite, decide_eq_true_eq]; exact ((allFinite_iff _ _ _).mp hnew.2.1).2.1
  have hgc : vfinite cur.grad = true := by
    simp only [vfinite, decide_eq_true_eq]; exact ((allFinite_iff _ _ _).mp hi.finite).2.1
  obtain ⟨gn, hgn⟩ := (vfinite_iff _).mp hgn
  obtain ⟨gc, hgc⟩ := (vfinite_iff _).mp hgc
  have hadd : ∀ a b : Num, (∃ r, a + b = fin r) → ∃ p q, a = fin p ∧ b = fin q := by
    rintro a b ⟨r, hr⟩
    cases a <;> cases b <;> simp_all
  have hpt : ∀ i, ∃ p q r, prev.x i = fin p ∧ step.s i = fin q ∧ step.s0 i = fin r ∧ xn i = p + q + r := by
    intro i
    have h1 : (prev.x i + step.s i) + step.s0 i = fin (xn i) := by
      have := congrFun h.point i
      rw [hxn] at this
      exact this.symm
    obtain ⟨a, r, ha, hr⟩ := hadd _ _ ⟨_, h1⟩
    obtain ⟨p, q, hp', hq⟩ := hadd _ _ ⟨_, ha⟩
    refine ⟨p, q, r, hp', hq, hr, ?_⟩
    rw [hp', hq, hr] at h1
    simp only [fin_add, fin_inj] at h1
    exact h1.symm
  choose p q r h1 h2 h3 h4 using hpt
  refine ⟨p, fun i => q i + r i, gc, gn, funext h1, ?_, ?_, hgc, hgn⟩
  · funext i; simp [vadd, h2, h3]
  · rw [hxn]; funext i; simp [h4, add_assoc]

/-- C56: along every run with a Broyden-class scheme, each accepted step with positive curvature (and nonzero `s·B·s`) makes the
Hessian used next satisfy the secant equation for the move just made: it maps `x_new - x_old` to `grad_new - grad_old`.  With
`enforce_curv_cond`, a step of non-positive curvature leaves the Hessian as it was. -/
theorem C56_secant (E : Env Num n) (x0 : Vec Num n) (startId : String) (hess0 : Hess0 Num) (st0 : St Num n) (k : ℕ)
    (prev next : St Num n) (cur cur' new : Funout Num n) (step : Step Num n) (hh : LoopHead E x0 startId hess0 st0 k prev cur)
    (h : Pass E prev cur step new next cur') (hacc : lt next.fval prev.fval = true) (a : IterApprox Num n) (hg : prev.happ = some (.iter a))
    (phi : ℝ) (e : Bool) (hsch : a.scheme = .broyden (fin phi) e) :
    ∃ (x x' g g' : Fin n → ℝ) (B : Fin n → Fin n → ℝ), prev.x = ofV x ∧ new.x = ofV x' ∧ prev.grad = ofV g ∧ next.grad = ofV g' ∧
      prev.hess = ofM B ∧
      (0 < rdot (g' - g) (x' - x) → rdot (rmv B (x' - x)) (x' - x) ≠ 0 →
        ∃ B', next.hess = ofM B' ∧ rmv B' (x' - x) = g' - g) ∧
      (rdot (g' - g) (x' - x) ≤ 0 → e = true → next.hess = prev.hess) := by
  have hp := pass_facts E _ _ _ _ _ _ h
  have hi := headInv E x0 startId hess0 st0 k prev cur hh
  have hacc' : (radiusStep E prev step new).1 = true ∧ next.grad = new.grad := by
    rcases hp.cases with ⟨h1, _, _, _, _, h2⟩ | ⟨_, _, _, h1, _⟩
    · exact ⟨h1, h2⟩
    · rw [h1] at hacc
      have := (LawfulFloat.lt_iff _ _).mp hacc
      simp [this.1] at this
  obtain ⟨x, s, gc, gn, hx, hs, hxn, hgc, hgn⟩ := accepted_finite E x0 startId hess0 st0 k prev next cur cur' new step hh h hacc'.1
  obtain ⟨g', h1, h2, h3, h4⟩ := C56_update E x0 startId hess0 st0 k prev next cur cur' new step hh h hacc _ hg
  have hm : mfinite prev.hess = true := by
    have := ((allFinite_iff _ _ _).mp hp.finite0).2.2
    simp only [mfinite, decide_eq_true_eq]
    exact this _ rfl
  obtain ⟨B, hB⟩ := (mfinite_iff _).mp hm
  have hu := h4.1 a rfl
  have hge : g' = .iter (a.update (ofV s) (ofV (gn - gc))) := by
    rw [hu, hs, hgn, hgc, vsub_ofV]
  have haB : a.getMat = ofM B := by rw [← hB, h3]; rfl
  have hnh : next.hess = (a.update (ofV s) (ofV (gn - gc))).getMat := by rw [h2, hge]; rfl
  refine ⟨x, x + s, gc, gn, B, hx, hxn, by rw [← hgc]; exact hi.grad, by rw [hacc'.2, hgn], hB, ?_, ?_⟩
  · intro hb hc
    rw [add_sub_cancel_left] at *
    obtain ⟨B', h5, h6⟩ := C31_secant a phi e B s (gn - gc) hsch haB hb.ne' hc (fun _ => hb)
    exact ⟨B', by rw [hnh, h5], h6⟩
  · intro hb he
    subst he
    rw [add_sub_cancel_left] at hb
    rw [hnh, C31_skip a _ B s (gn - gc) hsch haB hb, hB]

/-- C56 (run form of C33): in every run with `BFGS()`, `DFP()` or `Broyden(phi)`, `phi ≥ 0` and the curvature condition enforced, started from the
identity or a symmetric positive definite `hess0`, the Hessian used in every iteration and the returned one are finite, symmetric and
positive definite, whatever the objective and the step proposals do. -/
theorem C56_positive_definite (E : Env Num n) (x0 : Vec Num n) (startId : String) (hess0 : Hess0 Num) (st0 : St Num n) (a0 : IterApprox Num n)
    (hg : st0.happ = some (.iter a0)) (phi : ℝ) (hphi : 0 ≤ phi) (hsch : a0.scheme = .broyden (fin phi) true)
    (h0 : hess0 = .val .none ∨ ∃ m : Mat Num n n, hess0 = .val (.ofMat m) ∧ FinSPD m) (k : ℕ) (st : St Num n) (cur : Funout Num n)
    (h : LoopHead E x0 startId hess0 st0 k st cur) :
    FinSPD st.hess ∧ ∃ a, st.happ = some (.iter a) ∧ a.scheme = .broyden (fin phi) true := by
  induction k generalizing st cur with
  | zero =>
    have h41 := (C41_run E x0 startId hess0 st0 st cur h).2 _ hg
    refine ⟨?_, ?_⟩
    · rcases h0 with h0 | ⟨m, h0, hm⟩
      · rw [h41.1 h0, meye_ofM]
        exact ⟨_, rfl, Sym_idM, PD_idM⟩
      · rw [h41.2.1 m h0]; exact hm
    · cases h with
      | start s _ _ hb hs =>
        obtain ⟨rfl, _⟩ := checkInBounds_ok _ _ _ _ hb
        obtain ⟨raw, happ, _, h2, _, h4, _, _, _, h8⟩ := setup_ok _ _ _ _ _ hs
        have h2' : initialHapp st0.happ hess0 raw = .ok happ := h2
        rw [hg] at h2'
        obtain ⟨g', rfl, hi1, hi2⟩ := initialHapp_some _ _ _ _ h2'
        obtain ⟨b, c, d, e, hf⟩ := setupState_frame (startState E x0 startId st0) cur (some g')
        have hh : st.happ = some g' := by
          rw [h8]
          show (setupState (startState E x0 startId st0) cur (some g')).happ = _
          rw [hf]
        rw [hh]
        have : ∃ v, hess0 = .val v := by
          rcases h0 with h | ⟨m, h, _⟩
          · exact ⟨_, h⟩
          · exact ⟨_, h⟩
        obtain ⟨v, hv⟩ := this
        rcases initHapp_ok _ _ _ (hi2 _ hv) with ⟨_, rfl⟩ | ⟨_, m, _, rfl⟩
        · exact ⟨_, rfl, hsch⟩
        · exact ⟨_, rfl, hsch⟩
  | succ k ih =>
    obtain ⟨prev, cur0, step, new, hh, hp⟩ := loopHead_pass E x0 startId hess0 st0 k st cur h
    obtain ⟨ihm, a, iha, ihs⟩ := ih prev cur0 hh
    have hf := pass_facts E _ _ _ _ _ _ hp
    rcases hf.cases with ⟨hacc, h1, _, _, h2, h3⟩ | ⟨_, _, _, _, _, h5, h6⟩
    · obtain ⟨hlt, _⟩ := accepted_lt E prev step new hacc hf.finite1
      have hlt' : lt st.fval prev.fval = true := by rw [h2]; exact hlt
      obtain ⟨x, s, gc, gn, hx, hs, hxn, hgc, hgn⟩ := accepted_finite E x0 startId hess0 st0 k prev st cur0 cur new step hh hp hacc
      obtain ⟨g', h1, h2, h3, h4⟩ := C56_update E x0 startId hess0 st0 k prev st cur0 cur new step hh hp hlt' _ iha
      have hu := h4.1 a rfl
      rw [hs, hgn, hgc, vsub_ofV] at hu
      subst hu
      refine ⟨?_, _, h1, ?_⟩
      · rw [h2]
        refine C33_step a phi hphi ihs ?_ s (gn - gc)
        rw [← show prev.hess = a.getMat from h3]; exact ihm
      · simp only [IterApprox.update, ihs]
    · exact ⟨by rw [h5]; exact ihm, a, by rw [h6]; exact iha, ihs⟩

/-- a run with BFGS in which a step is accepted with positive curvature: the hypotheses of the three theorems hold and the model Hessian goes
from 1 to 2 -/
example : ∃ (a : IterApprox Num 1) (step : Step Num 1) (new next cur' : _),
    LoopHead bfgsEnv (v1 1) "run" (.val .none) bfgsSt0 0 bfgsHead bfgsFirst ∧ Pass bfgsEnv bfgsHead bfgsFirst step new next cur' ∧
    lt next.fval bfgsHead.fval = true ∧ bfgsHead.happ = some (.iter a) ∧ a.scheme = .broyden (fin 0) true ∧
    next.hess = (fun _ _ => fin 2) ∧ new.x = v1 0 ∧ bfgsHead.x = v1 1 ∧ next.grad = v1 (-1) ∧ bfgsHead.grad = v1 1 := by
  obtain ⟨step, new, next, cur', h1, h2, h3, h4, h5, h6, h7, h8, h9⟩ := bfgs_pass
  refine ⟨_, step, new, next, cur', bfgs_start, h1, ?_, h5, ?_, h3, h6, h9, h7, h8⟩
  · rw [h2, h4]; norm_num
  · simp [IterApprox.initMat, IterApprox.new, IterScheme.bfgs]

/-- C34 in a run: with `SR1()`, an accepted step along which the current approximation already satisfies the secant equation (for instance every accepted step on a
quadratic function whose Hessian was given as `hess0`) makes every entry of the Hessian NaN.  The run does not survive that: it raises an exception in the next iteration,
or, if it stops at just this point, returns a Hessian of NaN. -/
theorem C34_run_counterexample (hn : 0 < n) (E : Env Num n) (x0 : Vec Num n) (startId : String) (hess0 : Hess0 Num) (st0 : St Num n) (k : ℕ)
    (prev next : St Num n) (cur cur' new : Funout Num n) (step : Step Num n) (hh : LoopHead E x0 startId hess0 st0 k prev cur)
    (h : Pass E prev cur step new next cur') (hacc : lt next.fval prev.fval = true) (a : IterApprox Num n) (hg : prev.happ = some (.iter a)) (hsch : a.scheme = .sr1)
    (x x' g g' : Fin n → ℝ) (B : Fin n → Fin n → ℝ) (hx : prev.x = ofV x) (hx' : new.x = ofV x') (hgr : prev.grad = ofV g) (hgr' : next.grad = ofV g')
    (hB : prev.hess = ofM B) (hsec : rmv B (x' - x) = g' - g) :
    (∀ i j, next.hess i j = nan) ∧
    (iterate E { next with ticks := next.ticks + 1 } cur' = .error (.runtimeError, { preIter { next with ticks := next.ticks + 1 } with exitflag := .notFinite })) ∧
    ∀ fuel st', minimize E fuel x0 startId hess0 st0 = .ok st' → st'.iteration = k + 1 ∧ ∀ i j, st'.hess i j = nan := by
  have hp := pass_facts E _ _ _ _ _ _ h
  have hi := headInv E x0 startId hess0 st0 k prev cur hh
  have hacc' : (radiusStep E prev step new).1 = true ∧ next.grad = new.grad := by
    rcases hp.cases with ⟨h1, _, _, _, _, h2⟩ | ⟨_, _, _, h1, _⟩
    · exact ⟨h1, h2⟩
    · rw [h1] at hacc
      have := (LawfulFloat.lt_iff _ _).mp hacc
      simp [this.1] at this
  obtain ⟨y, s, gc, gn, e1, hs, e2, hgc, hgn⟩ := accepted_finite E x0 startId hess0 st0 k prev next cur cur' new step hh h hacc'.1
  obtain ⟨b, h1, h2, h3, h4⟩ := C56_update E x0 startId hess0 st0 k prev next cur cur' new step hh h hacc _ hg
  have hu := h4.1 a rfl
  rw [hx] at e1; obtain rfl := ofV_inj.mp e1
  rw [hx'] at e2; obtain rfl := ofV_inj.mp e2
  have h5 : ofV g = ofV gc := by rw [← hgr, ← hgc]; exact hi.grad
  obtain rfl := ofV_inj.mp h5
  have h6 : ofV g' = ofV gn := by rw [← hgr', ← hgn]; exact hacc'.2
  obtain rfl := ofV_inj.mp h6
  rw [add_sub_cancel_left] at hsec
  have hnan : ∀ i j, next.hess i j = nan := by
    intro i j
    rw [h2, hu, hs, hgn, hgc, vsub_ofV]
    exact C34_counterexample a B s (g' - g) hsch (by rw [← hB, h3]; rfl) hsec i j
  have hhead : LoopHead E x0 startId hess0 st0 (k + 1) next cur' := .next _ _ _ _ _ _ hh h.continues h.body
  have hfin : allFinite next.fval next.grad (some next.hess) = false := by
    by_contra hne
    have hne' : allFinite next.fval next.grad (some next.hess) = true := by simpa using hne
    have h7 := ((allFinite_iff _ _ _).mp hne').2.2 _ rfl ⟨0, hn⟩ ⟨0, hn⟩
    rw [hnan] at h7
    simp at h7
  have hit : iterate E { next with ticks := next.ticks + 1 } cur' = .error (.runtimeError, { preIter { next with ticks := next.ticks + 1 } with exitflag := .notFinite }) := by
    unfold iterate
    have h8 : allFinite (preIter { next with ticks := next.ticks + 1 }).fval (preIter { next with ticks := next.ticks + 1 }).grad
      (some (preIter { next with ticks := next.ticks + 1 }).hess) = false := hfin
    simp only [checkFinite]
    rw [if_neg (by simp [hfin])]
    rfl
  refine ⟨hnan, hit, fun fuel st' hm => ?_⟩
  obtain ⟨j, st1, c, st2, f, -, hj, hc, rfl⟩ := run_end E x0 startId hess0 st0 fuel st' hm
  have hst2 : st2.hess = st1.hess ∧ st2.iteration = st1.iteration := by
    rcases checkContinue_false E st1 st2 hc with ⟨_, rfl⟩ | ⟨_, _, rfl⟩ | ⟨_, _, _, rfl⟩ | ⟨_, _, _, rfl⟩ <;> exact ⟨rfl, rfl⟩
  rcases Nat.lt_trichotomy j (k + 1) with hlt | rfl | hgt
  · exfalso
    obtain ⟨s', c', hs'⟩ := loopHead_prefix E x0 startId hess0 st0 (k + 1) next cur' hhead (j + 1) hlt
    obtain ⟨p, c0, step', new', hp1, hp2⟩ := loopHead_pass E x0 startId hess0 st0 j s' c' hs'
    obtain ⟨rfl, -⟩ := loopHead_unique E x0 startId hess0 st0 j _ _ _ _ hj hp1
    rw [hp2.continues] at hc
    cases hc
  · obtain ⟨rfl, -⟩ := loopHead_unique E x0 startId hess0 st0 (k + 1) _ _ _ _ hj hhead
    refine ⟨?_, fun i j => ?_⟩
    · show st2.iteration = _
      rw [hst2.2, hp.iteration, hi.iteration]
    · show st2.hess i j = _
      rw [hst2.1]; exact hnan i j
  · exfalso
    obtain ⟨s', c', hs'⟩ := loopHead_prefix E x0 startId hess0 st0 j st1 c hj (k + 2) hgt
    obtain ⟨p, c0, step', new', hp1, hp2⟩ := loopHead_pass E x0 startId hess0 st0 (k + 1) s' c' hs'
    obtain ⟨rfl, rfl⟩ := loopHead_unique E x0 startId hess0 st0 (k + 1) _ _ _ _ hhead hp1
    rw [hp2.body] at hit
    cases hit

/-- it happens: half the square of `x`, from 1, with `SR1()`; the step from 1 to 0 is accepted (value 1/2 to 0, gradient 1 to 0, Hessian approximation 1) -/
example : ∃ (step : Step Num 1) (new next cur' : _), LoopHead (qnEnv 0) (v1 1) "run" (.val .none) (qnSt0 .sr1) 0 (qnHead 0 .sr1) (qnFirst 0 .sr1) ∧
    Pass (qnEnv 0) (qnHead 0 .sr1) (qnFirst 0 .sr1) step new next cur' ∧ lt next.fval (qnHead 0 .sr1).fval = true ∧
    (∃ a, (qnHead 0 .sr1).happ = some (.iter a) ∧ a.scheme = .sr1) ∧ (∀ i j, next.hess i j = nan) := by
  obtain ⟨step, new, next, cur', h1, h2, h3, h4, h5, h6, h7, h8, h9⟩ := qn_pass 0 .sr1
  have hB : (qnHead 0 .sr1).hess = ofM (idM : Fin 1 → Fin 1 → ℝ) := by
    rw [head_hess _ _ _ _ _ 0 _ _ (qn_start 0 .sr1) _ h5]; exact meye_ofM
  refine ⟨step, new, next, cur', qn_start _ _, h1, by rw [h2, h4]; norm_num, ⟨_, h5, rfl⟩, ?_⟩
  refine (C34_run_counterexample (by norm_num) _ _ _ _ _ 0 _ _ _ _ _ _ (qn_start 0 .sr1) h1 (by rw [h2, h4]; norm_num) _ h5 rfl (fun _ => 1) (fun _ => 0) (fun _ => 1)
    (fun _ => 0) idM h9 h6 h8 h7 hB ?_).1
  rw [idM_rmv]

end Fides
