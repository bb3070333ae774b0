import Verif.Props.HaltingRuns
import Verif.Props.OneStep
import Verif.Props.BoundedConvergence

/-!
# C64 in one variable: every step-back strategy, with and without bounds
-/

namespace Fides
open Num Spec

variable {E : Env Num 1} {fa g1 g2 D0 : ℝ}

/-- **C64, ratios in one variable.** With bounds or without, for every step-back strategy and solver and any external routines, no recorded ratio is NaN:
no iteration starts at a point that is exactly stationary, and with the default solver the Hessians are positive (`C52`: with a scaled Hessian that
is exactly zero it proposes NaN). -/
theorem C64_ratios_one (hE : HaltParams E fa g1 g2 D0) (O : ℕ → Oracles Num) (sf : ℕ)
    (hO : ∀ k I, E.tr k I = trustRegion (O k) sf E.opts.subspaceDim E.opts.stepbackStrat I)
    (tm : ℝ) (htm : E.opts.thetaMax = fin tm) (ht0 : 0 < tm) (ht1 : tm ≤ 1)
    (x0 : Vec Num 1) (startId : String) (hess0 : Hess0 Num) (st0 : St Num 1)
    (hcurv : E.opts.subspaceDim = .two → ∀ k st cur H, LoopHead E x0 startId hess0 st0 k st cur → st.hess = ofM H → 0 < H 0 0)
    (hst : ∀ k st cur x g, LoopHead E x0 startId hess0 st0 k st cur → st.converged = false → st.x = ofV x → st.grad = ofV g → ¬ Stationary E.lb E.ub x g)
    (j : ℕ) (prev next : St Num 1) (cur cur' new : Funout Num 1) (step : Step Num 1) (hh : LoopHead E x0 startId hess0 st0 j prev cur)
    (hp : Pass E prev cur step new next cur') : isNaN next.trRatio = false := by
  have hF := pass_facts E _ _ _ _ _ _ hp
  obtain ⟨x, d, g, dv, H, D, th, hI, h0, h1, hbox, hD, hx, hg⟩ := pass_data hE tm htm ht0 ht1 x0 startId hess0 st0 j prev cur hh
    (checkContinue_true E prev _ hp.continues).2.2.2.2 hF.finite0 (fun H _ i k => by rw [Subsingleton.elim i k])
  have hpr := hp.proposal
  rw [hO] at hpr
  have hdg : d 0 * g 0 ≠ 0 := by
    intro hz
    refine hst j prev cur x g hh (continues_live E _ _ hp.continues) hx hg
      ((C29_stationary E { prev with iteration := prev.iteration + 1, deltaIter := prev.delta, ticks := prev.ticks + 1 } x g hx hg hbox).1.mp ?_)
    have := (RealData.prob hI h0 h1 hbox).sg
    rw [this, ofV_inj]
    funext i
    rw [Subsingleton.elim i 0]
    exact hz
  have hdim : E.opts.subspaceDim = .two → d 0 * H 0 0 * d 0 + |g 0| * dv 0 ≠ 0 := by
    intro hd
    have hH : 0 < H 0 0 := hcurv hd j prev cur H hh hI.hess
    have hdv : 0 ≤ dv 0 := by
      have h2 : affineDv E.lb E.ub prev.grad 0 = fin (dv 0) := congrFun hI.dv 0
      rcases affineDv_cases E.lb E.ub prev.grad 0 with h | h <;> rw [h, lit_def, fin_inj] at h2 <;> rw [← h2] <;> norm_num
    have hd0 : 0 < d 0 * d 0 := mul_self_pos.mpr fun h => hdg (by rw [h, zero_mul])
    have : 0 < d 0 * H 0 0 * d 0 := by
      have e : d 0 * H 0 0 * d 0 = H 0 0 * (d 0 * d 0) := by ring
      rw [e]; exact mul_pos hH hd0
    have := mul_nonneg (abs_nonneg (g 0)) hdv
    linarith
  obtain ⟨st1, t, e1, e2, -, e4, e5, e6, e7, e8⟩ := one_base hI hD h0 h1 hbox hdg (O prev.proposals) sf hdim hpr
  obtain ⟨a, -, -, -, -, hss, -, -, -⟩ := C23_factor (trInput E { prev with iteration := prev.iteration + 1, deltaIter := prev.delta, ticks := prev.ticks + 1 }).prob st1 x _ th e1 e5 hI.theta h0 hbox
  have hss' : step.ss = ofV (a • t • (rnorm fun i => d i * g i)⁻¹ • fun i => d i * g i) := by
    rw [e8]
    refine hss.trans ?_
    rw [e4]; funext i
    show fin _ * fin a = _
    rw [fin_mul]; show fin _ = fin _
    rw [fin_inj]; simp only [Pi.smul_apply, smul_eq_mul]; ring
  have hss0 : step.ss0 = ofV 0 := by rw [e8]; exact e2
  have hp' : vadd step.ss step.ss0 = ofV (a • t • (rnorm fun i => d i * g i)⁻¹ • fun i => d i * g i) := by rw [hss', hss0, vadd_ofV, add_zero]
  obtain ⟨r, hr⟩ := ratio_of_real O sf hO x0 startId hess0 st0 j prev next cur cur' new step hp hI h0 h1 hbox hp'
  rw [hr]; simp

/-- **C64 in one variable**: the number of iterations, under the same conditions. -/
theorem C64_one (hE : HaltParams E fa g1 g2 D0) (O : ℕ → Oracles Num) (sf : ℕ)
    (hO : ∀ k I, E.tr k I = trustRegion (O k) sf E.opts.subspaceDim E.opts.stepbackStrat I)
    (tm : ℝ) (htm : E.opts.thetaMax = fin tm) (ht0 : 0 < tm) (ht1 : tm ≤ 1) (fmin : ℝ) (hmin : BoundedBelow E fmin)
    (x0 : Vec Num 1) (startId : String) (hess0 : Hess0 Num) (st0 : St Num 1)
    (hcurv : E.opts.subspaceDim = .two → ∀ k st cur H, LoopHead E x0 startId hess0 st0 k st cur → st.hess = ofM H → 0 < H 0 0)
    (hst : ∀ k st cur x g, LoopHead E x0 startId hess0 st0 k st cur → st.converged = false → st.x = ofV x → st.grad = ofV g → ¬ Stationary E.lb E.ub x g)
    (s : St Num 1) (c : Funout Num 1) (h0 : LoopHead E x0 startId hess0 st0 0 s c) (v0 : ℝ) (hv0 : s.fval = fin v0)
    (k : ℕ) (st : St Num 1) (cur : Funout Num 1) (h : LoopHead E x0 startId hess0 st0 k st cur) :
    k < passBound g1 g2 D0 (v0 - fmin) (1 / 4503599627370496) fa :=
  C64_stops hE fmin hmin x0 startId hess0 st0 (fun j prev cur step new next cur' hh hp =>
    C64_ratios_one hE O sf hO tm htm ht0 ht1 x0 startId hess0 st0 hcurv hst j prev next cur cur' new step hh hp) s c h0 v0 hv0 k st cur h

/-- **C64 in one variable** for the default options with any `maxiter` and no bounds: any real functions `f ≥ fmin`, `g` and `H > 0` in the place of the
objective, its derivative and its second derivative, with `|g|` at the start above the default of `gatol`.  A number that depends on `f x0 - fmin` only bounds the
iterations. -/
theorem C64_default_one (obj : Vec Num 1 → Ret Num) (O : ℕ → Oracles Num) (N : ℕ) (f : (Fin 1 → ℝ) → ℝ)
    (g : (Fin 1 → ℝ) → Fin 1 → ℝ) (H : (Fin 1 → ℝ) → Fin 1 → Fin 1 → ℝ) (hR : Returns (longEnv 1 obj O N) f g H) (hpos : ∀ x, 0 < H x 0 0) (fmin : ℝ)
    (hmin : ∀ x, fmin ≤ f x) (x0 : Fin 1 → ℝ) (hstart : 1 / 1000000 < |g x0 0|) (startId : String) (hess0 : Hess0 Num) (st0 : St Num 1) (happ : st0.happ = none)
    (fuel : ℕ) (st' : St Num 1) (h : minimize (longEnv 1 obj O N) fuel (ofV x0) startId hess0 st0 = .ok st') :
    st'.iteration < passBound (1 / 4) 2 1 (f x0 - fmin) (1 / 4503599627370496) (1 / 100000000) ∧
      (passBound (1 / 4) 2 1 (f x0 - fmin) (1 / 4503599627370496) (1 / 100000000) ≤ N →
        st'.exitflag = .ftol ∨ st'.exitflag = .xtol ∨ st'.exitflag = .gtol ∨ st'.exitflag = .deltaTooSmall) := by
  have hU : NoBounds (longEnv 1 obj O N).lb (longEnv 1 obj O N).ub := fun _ => ⟨rfl, rfl⟩
  have key := C64_flag (long_halt 1 obj O N) fmin ?_ (ofV x0) startId hess0 st0 ?_ (f x0)
    (fun s c h0 => (start_values hU hR.evaluates x0 startId hess0 st0 s c h0).2.1) fuel st' h
  · refine ⟨key.1, fun hN => key.2 ?_ ?_ (fun _ => ⟨0, rfl⟩)⟩
    · show (_ : ℤ) ≤ (N : ℤ)
      exact_mod_cast hN
    · simp only [longEnv, demo_opts]
  · intro m x xId raw fo _ h1 h2 v hv
    have := (hR.evaluates m x xId raw fo h1 h2).1
    rw [this, fin_inj] at hv
    rw [← hv]; exact hmin x
  · intro j prev cur step new next cur' hh hp
    refine C64_ratios_one (long_halt 1 obj O N) O 1 ?_ (19 / 20) (by simp only [longEnv, demo_opts]) (by norm_num) (by norm_num) (ofV x0) startId
      hess0 st0 ?_ ?_ j prev next cur cur' new step hh hp
    · intro k I; simp only [longEnv, plainEnv, demo_opts]
    · intro _ j st' cur' B hh hB
      obtain ⟨x, hx, _⟩ := C01_current _ (ofV x0) startId hess0 st0 j st' cur' hh
      rw [returned_hess hU hR (ofV x0) startId hess0 st0 happ j st' cur' hh x hx] at hB
      rw [← ofM_inj hB]; exact hpos x
    · intro j st cur x gr hh hc hx hg hstat
      have hlt := head_gradient (E := longEnv 1 obj O N) (ofV x0) startId hess0 st0 (1 / 1000000) (by simp only [longEnv, demo_opts]) (fun s c gr hs hgr => by
        rw [(start_values hU hR.evaluates x0 startId hess0 st0 s c hs).2.2, ofV_inj] at hgr
        rw [← hgr]
        exact hstart.trans_le (abs_coord_le _ 0)) j st cur hh hc gr hg
      have hkkt := (C29_stationary _ st x gr hx hg (hU.inBox x)).2.mp hstat
      have hz : gr = 0 := by
        funext i
        rcases hkkt i with h | ⟨_, h⟩ | ⟨_, h⟩
        · exact h
        · rw [(hU i).1] at h; cases h
        · rw [(hU i).2] at h; cases h
      rw [hz, rnorm_eq_zero.mpr rfl] at hlt
      norm_num at hlt

open Classical in
/-- a function without any regularity, with a "derivative" that is not its derivative: the hypotheses of `C64_default_one` are met and the run starts -/
example (O : ℕ → Oracles Num) (N : ℕ) : ∃ obj : Vec Num 1 → Ret Num,
    Returns (longEnv 1 obj O N) (fun x => if ∃ q : ℚ, x 0 = q then 1 else 0) (fun x => if ∃ q : ℚ, x 0 = q then fun _ => 1 else fun _ => -3) (fun _ _ _ => 2) ∧
    (∀ x : Fin 1 → ℝ, (0 : ℝ) ≤ if ∃ q : ℚ, x 0 = q then 1 else 0) ∧
    (1 : ℝ) / 1000000 < |(if ∃ q : ℚ, (1 : Fin 1 → ℝ) 0 = q then fun _ => 1 else fun _ => -3 : Fin 1 → ℝ) 0| ∧
    ∃ s c, LoopHead (longEnv 1 obj O N) (ofV 1) "0" .hessStr (St.new (longEnv 1 obj O N).opts none) 0 s c := by
  obtain ⟨obj, hR⟩ := long_returns (n := 1) O N (fun x => if ∃ q : ℚ, x 0 = q then 1 else 0)
    (fun x => if ∃ q : ℚ, x 0 = q then fun _ => 1 else fun _ => -3) (fun _ _ _ => 2)
  obtain ⟨s, c, h⟩ := returns_head (fun _ => ⟨rfl, rfl⟩) hR 1 "0" .hessStr (St.new (longEnv 1 obj O N).opts none) rfl
  refine ⟨obj, hR, fun x => by split <;> norm_num, ?_, s, c, h⟩
  rw [if_pos ⟨1, by simp⟩]
  norm_num

/-- `longEnv` with a bound: the variable is at most 3 -/
noncomputable def cappedEnv (obj : Vec Num 1 → Ret Num) (O : ℕ → Oracles Num) (N : ℕ) : Env Num 1 :=
  { longEnv 1 obj O N with lb := fun _ => ninf, ub := fun _ => fin 3 }

/-- the hypotheses of `C64_one` for a problem with a bound: any objective above 0, a positive number in the place of the derivative -/
example (obj : Vec Num 1 → Ret Num) (O : ℕ → Oracles Num) (N : ℕ) (f : (Fin 1 → ℝ) → ℝ) (hf : ∀ x, 0 ≤ f x)
    (hR : Returns (longEnv 1 obj O N) f (fun _ _ => 1) (fun _ _ _ => 2)) (x0 : Vec Num 1)
    (s : St Num 1) (c : Funout Num 1) (v0 : ℝ) (hv0 : s.fval = fin v0)
    (h0 : LoopHead (cappedEnv obj O N) x0 "0" (.val .none) (St.new (cappedEnv obj O N).opts none) 0 s c)
    (k : ℕ) (st : St Num 1) (cur : Funout Num 1) (h : LoopHead (cappedEnv obj O N) x0 "0" (.val .none) (St.new (cappedEnv obj O N).opts none) k st cur) :
    k < passBound (1 / 4) 2 1 (v0 - 0) (1 / 4503599627370496) (1 / 100000000) := by
  have hE : HaltParams (cappedEnv obj O N) (1 / 100000000) (1 / 4) 2 1 := by
    obtain ⟨a1, a2, a3, a4, a5, a6, a7, a8, a9, a10, a11⟩ := long_halt 1 obj O N
    exact ⟨a1, a2, a3, a4, a5, a6, a7, a8, a9, a10, a11⟩
  have hR' : Returns (cappedEnv obj O N) f (fun _ _ => 1) (fun _ _ _ => 2) := ⟨hR.nargout, hR.resfun, hR.obj⟩
  refine C64_one hE O 1 ?_ (19 / 20) (by simp only [cappedEnv, longEnv, demo_opts]) (by norm_num) (by norm_num) 0 ?_ x0 "0" (.val .none) _ ?_ ?_ s c h0 v0 hv0 k st cur h
  · intro k I; simp only [cappedEnv, longEnv, plainEnv, demo_opts]
  · intro m x xId raw fo _ h1 h2 v hv
    have := (hR'.evaluates m x xId raw fo h1 h2).1
    rw [this, fin_inj] at hv
    rw [← hv]; exact hf x
  · intro _ j st' cur' B hh hB
    obtain ⟨z, -, hz⟩ := returned_hess_box hR' rfl j st' cur' hh
    rw [hz] at hB
    rw [← ofM_inj hB]; norm_num
  · intro j st cur x g hh _ hx hg hstat
    obtain ⟨z, x', -, -, hx', hin, -, hg', -⟩ := head_box (returns_evaluatesOn hR') x0 "0" (.val .none) _ j st cur hh
    rw [hg', ofV_inj] at hg
    rw [hx', ofV_inj] at hx
    subst hx hg
    rcases (C29_stationary _ st x' _ hx' hg' hin).2.mp hstat 0 with h | ⟨_, h⟩ | ⟨h, _⟩
    · norm_num at h
    · cases h
    · norm_num at h

end Fides
