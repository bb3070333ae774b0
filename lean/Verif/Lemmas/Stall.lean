import Verif.Lemmas.NewtonDecrease
import Verif.Lemmas.Converge
import Verif.Lemmas.Forward

/-! Helper lemmas: the default solver where the gradient is in the kernel of a positive semidefinite Hessian. -/

namespace Fides
open Num Spec
variable {n : ℕ}

theorem foldl_npMax_ge (l : List ℝ) (a : ℝ) : ∃ r : ℝ, (l.map fin).foldl npMax2 (fin a) = fin r ∧ a ≤ r ∧ ∀ b ∈ l, b ≤ r := by
  induction l generalizing a with
  | nil => exact ⟨a, rfl, le_rfl, by simp⟩
  | cons b l ih =>
    simp only [List.map_cons, List.foldl_cons]
    have : npMax2 (fin a) (fin b) = fin (max a b) := by simp [npMax2_fin]
    rw [this]
    obtain ⟨r, h1, h2, h3⟩ := ih (max a b)
    refine ⟨r, h1, (le_max_left _ _).trans h2, ?_⟩
    intro c hc
    rcases List.mem_cons.mp hc with rfl | hc
    · exact (le_max_right _ _).trans h2
    · exact h3 c hc

/-- the test for positive definiteness accepts singular matrices -/
theorem exact_posdef' (vals : Fin n → ℝ) (hn : 0 < n) (h : ∀ i, 0 ≤ vals i) (i0 : Fin n) (h0 : 0 < vals i0) :
    lt (-spacing1 * (List.ofFn (ofV fun i => |vals i|)).foldl npMax2 (Fides.lit 0)) (vmin (ofV vals)) = true := by
  obtain ⟨j, _, hmin⟩ := argminIdx_fin vals hn
  rw [vmin_eq_of_min vals j hmin]
  have e : List.ofFn (ofV fun i => |vals i|) = (List.ofFn fun i => |vals i|).map fin := by rw [List.map_ofFn]; rfl
  obtain ⟨r, h2, h3, h4⟩ := foldl_npMax_ge (List.ofFn fun i => |vals i|) 0
  rw [e, lit_def, Rat.cast_zero, h2]
  have : (spacing1 : Num) = fin (1 / 4503599627370496) := by norm_num [spacing1]
  rw [this, fin_neg, fin_mul, fin_lt]
  have h5 := h j
  have h6 : |vals i0| ≤ r := h4 _ (List.mem_ofFn.mpr ⟨i0, rfl⟩)
  rw [abs_of_pos h0] at h6
  simp only [decide_eq_true_eq]
  nlinarith

section
variable {P : Prob Num n} {x sg : Fin n → ℝ} {B : Fin n → Fin n → ℝ} {D th : ℝ}

/-- the least-squares solution of minimal length is zero -/
theorem stall_lstsq (O : Oracles Num) (hX : ExactRoutines O) (hS : Sym B) (hk : rmv B sg = 0) : O.lstsq (ofM B) (ofV sg) = .ok (ofV 0) := by
  obtain ⟨z, h1, _, h3⟩ := hX.lstsq B sg hS
  have h4 : rnorm (rmv B 0 - sg) ≤ rnorm (rmv B z - sg) := by
    rw [rmv_zero, rnorm_le_iff (rnorm_nonneg _), rnorm_sq]
    have e : rdot (rmv B z) sg = 0 := by
      rw [rdot_comm, Sym.rdot_rmv hS, hk, zero_rdot]
    have e1 : rdot (rmv B z - sg) (rmv B z - sg) = rdot (rmv B z) (rmv B z) + rdot sg sg := by
      rw [rdot_sub, sub_rdot, sub_rdot, e, rdot_comm sg, e]; ring
    have e2 : rdot ((0 : Fin n → ℝ) - sg) (0 - sg) = rdot sg sg := by
      rw [zero_sub, neg_rdot, rdot_neg, neg_neg]
    rw [e1, e2]
    linarith [rdot_self_nonneg (rmv B z)]
  have h5 := h3 0 h4
  rw [rnorm_eq_zero.mpr rfl] at h5
  have : z = 0 := rnorm_eq_zero.mp (le_antisymm h5 (rnorm_nonneg _))
  rw [h1, this]

theorem stall_step (hP : RealProb P x 1 sg B D th) (hb : NoBounds P.lb P.ub) (hS : Sym B) (hpsd : ∀ v, 0 ≤ rdot v (rmv B v)) (hD : 0 < D) (O : Oracles Num)
    (hX : ExactRoutines O) (hg : sg ≠ 0) (hk : rmv B sg = 0) (hB0 : B ≠ 0) :
    ∃ st', step2d O P = .ok st' ∧ vadd st'.ss st'.ss0 = ofV 0 ∧ vadd (vadd (ofV x) st'.s) st'.s0 = ofV x ∧ st'.qpval = fin 0 := by
  obtain ⟨vals, U, he, hE⟩ := hX.npEig B hS
  have hn : 0 < n := by
    rcases Nat.eq_zero_or_pos n with h0 | h0
    · subst h0; exact absurd (funext fun i => i.elim0) hg
    · exact h0
  have hn1 : n ≠ 1 := by
    rintro rfl
    apply hB0
    have h1 := congrFun hk 0
    have h2 : sg 0 ≠ 0 := by
      intro h; apply hg; funext i; rw [Subsingleton.elim i 0]; exact h
    simp only [rmv, rdot, Finset.univ_unique, Fin.default_eq_zero, Fin.isValue, Finset.sum_singleton, Pi.zero_apply, mul_eq_zero, h2, or_false] at h1
    funext i j
    rw [Subsingleton.elim i 0, Subsingleton.elim j 0]; exact h1
  have hvals : ∀ i, 0 ≤ vals i := by
    intro i
    have hu : rdot (fun l => U l i) (fun l => U l i) = 1 := by rw [hE.1 i i, if_pos rfl]
    have := hpsd (fun l => U l i)
    rw [hE.2 i, rdot_smul, hu, mul_one] at this
    exact this
  have hsome : ∃ i, 0 < vals i := by
    by_contra hcon
    push Not at hcon
    have hz : ∀ i, vals i = 0 := fun i => le_antisymm (hcon i) (hvals i)
    have hzero : ∀ v, rmv B v = 0 := by
      intro v
      rw [← ortho_complete hE.1 v, eig_apply hE]
      have : (fun j => vals j * rdot (fun i => U i j) v) = 0 := by funext j; simp [hz j]
      rw [this, rmv_zero]
    apply hB0
    funext i j
    have := congrFun (hzero fun l => if l = j then 1 else 0) i
    simpa [rmv, rdot] using this
  obtain ⟨i0, hi0⟩ := hsome
  have hpdt := exact_posdef' vals hn hvals i0 hi0
  unfold step2d
  unfold subspace2d
  rw [hP.shess, hP.sg, stall_lstsq O hX hS hk, he]
  simp only
  have hvn : vneg (ofV (0 : Fin n → ℝ)) = ofV 0 := by rw [vneg_ofV, neg_zero]
  rw [if_neg hn1, if_pos hpdt, hvn]
  have hlt : lt (norm (ofV (0 : Fin n → ℝ))) P.delta = true := by
    rw [norm_ofV, rnorm_eq_zero.mpr rfl, hP.delta, fin_lt]; simpa using hD
  rw [if_pos hlt]
  simp only [normalize_ofV, smul_zero]
  have hs1 : ∃ t : ℝ, solve1d (ofM B) (ofV sg) (ofV 0) (fin D) (ofV 0) = fin t := by
    obtain ⟨t, ht, _⟩ := C20_solve1d hS sg 0 0 D hD.le (by rw [rnorm_eq_zero.mpr rfl]; exact hD.le) (Or.inl (by rw [rnorm_eq_zero.mpr rfl]; exact hD))
    exact ⟨t, ht⟩
  obtain ⟨t, ht⟩ := hs1
  set st : Step Num n := { Step.init P .twoD [ofV (0 : Fin n → ℝ)] with posdef := _, newton := some true } with hst
  have hcs : st.computeStep O.sub P = .ok { st with sc := [fin t], ss := ofV 0, s := sdot P.scaling (ofV 0) } := by
    unfold Step.computeStep
    rw [show st.subspace = [ofV 0] from rfl]
    simp only [hP.shess, hP.sg, hP.delta, show st.ss0 = vzero from rfl, vzero_ofV, ht, subDot_one, smul_zero]
  obtain ⟨st', h1, h2, h3, h4⟩ := calculate_of_ss hP hb O.sub st _ rfl rfl rfl 0 hcs rfl
  refine ⟨st', h1, h2, by rw [h3, add_zero], by rw [h4, quad_zero]⟩

end

section
variable {E : Env Num n} {f : (Fin n → ℝ) → ℝ} {g : (Fin n → ℝ) → Fin n → ℝ} {mu eta g1 g2 D0 : ℝ}

/-- trust-region update for a zero step with zero predicted reduction -/
theorem stall_radius (hE : TRParams E mu eta g1 g2 D0) (st : St Num n) (step : Step Num n) (new : Funout Num n) (D fn : ℝ) (hD : 0 < D) (hd : st.delta = fin D)
    (hfn : new.fval = fin fn) (hss : vadd step.ss step.ss0 = ofV 0) (hq : step.qpval = fin 0) :
    (radiusStep E st step new).1 = false ∧ (radiusStep E st step new).2.delta = fin 0 ∧ (radiusStep E st step new).2.trRatio = fin 0 := by
  have hrat : ratioOf (afterEval st step (.ok new)).fval new step (trInput E (preIter st)).dv = fin 0 := by
    unfold ratioOf
    rw [hq]
    simp only [fin_neg, neg_zero, lit_def, Rat.cast_zero, fin_le, le_refl, decide_true, if_true]
  have had : (afterEval st step (.ok new)).delta = fin D := hd
  unfold radiusStep
  rcases updateTrRadius_cases E new step (trInput E (preIter st)).dv (afterEval st step (.ok new)) with ⟨h, _⟩ | ⟨_, r', hr', h⟩
  · rw [hfn] at h; simp at h
  · rw [hrat] at hr'
    subst hr'
    rcases h with ⟨h1, _, h⟩ | ⟨_, h1, h⟩ | ⟨_, h1, m, h⟩
    · rw [hE.heta, fin_le, decide_eq_true_eq] at h1
      have := hE.mu_eta; have := hE.mu_pos
      exfalso; linarith
    · rw [h]
      refine ⟨by simp, ?_, rfl⟩
      simp only [shrunkDelta]
      rw [had, hE.gamma1, hss, norm_ofV, fin_mul, shrunk_real, rnorm_eq_zero.mpr rfl]
      have : min (D * g1) ((0 : ℝ) / 4) = 0 := by
        rw [zero_div]; exact min_eq_right (mul_pos hD hE.g1_pos).le
      rw [this]
    · rw [hE.hmu, fin_le, decide_eq_false_iff_not] at h1
      exact absurd hE.mu_pos.le h1

/-- the first loop head of a run with such an objective -/
theorem returns_head (hU : NoBounds E.lb E.ub) {H : (Fin n → ℝ) → Fin n → Fin n → ℝ} (hR : Returns E f g H) (x0 : Fin n → ℝ) (startId : String)
    (hess0 : Hess0 Num) (st0 : St Num n) (h0 : st0.happ = none) : ∃ st cur, LoopHead E (ofV x0) startId hess0 st0 0 st cur := by
  have hx : (startState E (ofV x0) startId st0).x = ofV x0 := by
    show nudge E.lb E.ub (ofV x0) = _
    rw [C51_nudge _ _ _ hU]
  obtain ⟨raw, h1, h2, _, h4⟩ := hR.eval (startState E (ofV x0) startId st0).evals.length x0
  refine ⟨_, _, LoopHead.start (startState E (ofV x0) startId st0) _ _ ?_ (setup_forward E hess0 _ raw none
    { x := ofV x0, xId := (startState E (ofV x0) startId st0).xId, fval := fin (f x0), grad := ofV (g x0), hess := some (ofM (H x0)), res := none } ?_ ?_ h2 ?_ ?_)⟩
  · rw [hx, checkInBounds, if_pos (inBounds_real _ _ _ (hU.inBox x0))]
  · rw [hx]; exact h1
  · have : (startState E (ofV x0) startId st0).happ = none := h0
    rw [this]; unfold initialHapp; simp only
  · rw [hx]; exact h4 _
  · simp [allFinite, vfinite, mfinite]

theorem stall_run (hn : n ≠ 0) (hE : TRParams E mu eta g1 g2 D0) (hU : NoBounds E.lb E.ub) (O : ℕ → Oracles Num) (hX : ∀ k, ExactRoutines (O k)) (fuel : ℕ)
    (hO : ∀ k I, E.tr k I = trustRegion (O k) fuel E.opts.subspaceDim E.opts.stepbackStrat I) (hdim : E.opts.subspaceDim = .two)
    (H : (Fin n → ℝ) → Fin n → Fin n → ℝ) (hR : Returns E f g H) (x0 : Fin n → ℝ) (startId : String) (hess0 : Hess0 Num) (st0 : St Num n) (h0 : st0.happ = none)
    (hhist : E.opts.history = false) (hmax : 1 < E.opts.maxiter) (htime : E.opts.maxtime = pinf) (hclock : ∀ k, ∃ t : ℝ, E.clock k = fin t)
    (hD0 : 1 / 4503599627370496 ≤ D0) (ga gr : ℝ) (hga : E.opts.gatol = fin ga) (hgr : E.opts.grtol = fin gr) (h1 : ga < rnorm (g x0))
    (h2 : gr * |f x0| < rnorm (g x0)) (hS : Sym (H x0)) (hpsd : ∀ v, 0 ≤ rdot v (rmv (H x0) v)) (hB0 : H x0 ≠ 0) (hg0 : g x0 ≠ 0)
    (hk : rmv (H x0) (g x0) = 0) (loops : ℕ) :
    ∃ st', minimize E (loops + 1) (ofV x0) startId hess0 st0 = .ok st' ∧ st'.x = ofV x0 ∧ st'.fval = fin (f x0) ∧ st'.grad = ofV (g x0) ∧ st'.iteration = 1 ∧
      st'.exitflag = .deltaTooSmall := by
  obtain ⟨st, cur, hh⟩ := returns_head hU hR x0 startId hess0 st0 h0
  obtain ⟨hx, hf, hg⟩ := start_values hU hR.evaluates x0 startId hess0 st0 st cur hh
  have hH := returned_hess hU hR _ startId hess0 st0 h0 0 st cur hh x0 hx
  have hd : st.delta = fin D0 := by rw [start_delta E _ _ _ _ st cur hh, hE.deltaInit]
  have hi := headInv E _ startId hess0 st0 0 st cur hh
  have hconv := loopHead_start_converged E _ startId hess0 st0 st cur hh
  have hsp : (spacing1 : Num) = fin (1 / 4503599627370496) := by norm_num [spacing1]
  have htm : ∀ k m : ℕ, m ≠ 0 → lt (E.opts.maxtime - (E.clock k - st.starttime)) ((E.clock k - st.starttime) / lit (m : ℚ)) = false := by
    intro k m hm
    obtain ⟨t1, ht1⟩ := hclock k
    obtain ⟨t0, ht0⟩ := hclock st0.ticks
    rw [hi.starttime, htime, ht1, ht0, show (lit ((m : ℕ) : ℚ) : Num) = fin (m : ℝ) by simp]
    rw [fin_sub, pinf_sub_fin, fin_div _ _ (by exact_mod_cast hm)]
    rfl
  have hcont : checkContinue E st = (true, { st with ticks := st.ticks + 1 }) := by
    unfold checkContinue
    rw [if_neg (by rw [hconv]; simp), if_neg (by rw [hi.iteration]; push_cast; omega)]
    have e : (if st.iteration = 0 then 1 else st.iteration : ℕ) = 1 := by rw [hi.iteration]; rfl
    simp only [e]
    rw [if_neg (by rw [htm _ 1 (by norm_num)]; simp), if_neg]
    rw [hd, hsp, fin_lt]; simpa using hD0
  set st1 : St Num n := { st with ticks := st.ticks + 1 } with hst1
  obtain ⟨th, hP⟩ := unbounded_data hE hU (preIter st1) x0 (g x0) (H x0) D0 hx hg hH hd
  obtain ⟨step, hs1, hs2, hs3, hs4⟩ := stall_step hP hU hS hpsd hE.D0_pos (O st1.proposals) (hX _) hg0 hk hB0
  have htr : E.tr st1.proposals (trInput E (preIter st1)) = .ok step := by
    rw [hO, hdim, C51_one_candidate _ _ _ _ _ hU th hP.theta hP.th0]
    exact hs1
  have htp : trialPoint st1 step = ofV x0 := by
    unfold trialPoint
    rw [show st1.x = ofV x0 from hx]; exact hs3
  obtain ⟨raw, hr1, _, _, hr4⟩ := hR.eval st1.evals.length x0
  have hout := trialOut_forward E st1 step raw _ (by rw [htp]; exact hr1) (by rw [htp]; exact hr4 _)
  set new : Funout Num n := { x := ofV x0, xId := st1.nextId, fval := fin (f x0), grad := ofV (g x0), hess := some (ofM (H x0)), res := none } with hnew
  obtain ⟨hq1, hq2, hq3⟩ := stall_radius hE st1 step new D0 (f x0) hE.D0_pos hd rfl hs2 hs4
  have hit := iterate_reject E st1 cur step new hhist (by
    rw [show st1.fval = fin (f x0) from hf, show st1.grad = ofV (g x0) from hg, show st1.hess = ofM (H x0) from hH]
    simp [allFinite, vfinite, mfinite]) htr hout (fun _ => by simp [hnew, allFinite, vfinite, mfinite]) hq1
  have hpost : ∃ a b c e, postCheck E st1 step new = { (radiusStep E st1 step new).2 with converged := false, xMin := a, xMinId := b, fvalMin := c, gradMin := e } := by
    unfold postCheck
    have hcc : checkConvergence E step new (radiusStep E st1 step new).2 = { (radiusStep E st1 step new).2 with converged := false } := by
      obtain ⟨r, d, i, m, hfr⟩ := updateTrRadius_frame E new step (trInput E (preIter st1)).dv (afterEval st1 step (.ok new))
      have hfr' : (radiusStep E st1 step new).2 = _ := hfr
      have hiter : (radiusStep E st1 step new).2.iteration = 1 := by
        rw [hfr']; show st.iteration + 1 = 1; rw [hi.iteration]
      have hfv : (radiusStep E st1 step new).2.fval = fin (f x0) := by
        rw [hfr']; exact hf
      unfold checkConvergence
      simp only
      rw [hq3, hE.hmu, hiter, hga, hgr, hfv, show new.grad = ofV (g x0) from rfl, norm_ofV]
      rw [if_neg, if_neg, if_neg, if_neg]
      · rw [fin_abs, fin_mul, fin_le]; simpa using h2
      · rw [fin_le]; simpa using h1
      · simp
      · rw [fin_lt, decide_eq_false (by linarith [hE.mu_pos])]; simp
    rw [hcc]
    obtain ⟨a, b, c, e, h⟩ := trackMinimum_frame new { (radiusStep E st1 step new).2 with converged := false }
    exact ⟨a, b, c, e, h⟩
  obtain ⟨a, b, c, e, hpost⟩ := hpost
  obtain ⟨r, d, i, m, hfr⟩ := updateTrRadius_frame E new step (trInput E (preIter st1)).dv (afterEval st1 step (.ok new))
  have hfr' : (radiusStep E st1 step new).2 = _ := hfr
  have hdel : d = fin 0 := by rw [hfr'] at hq2; exact hq2
  rw [hfr', hdel] at hpost
  have hstop : checkContinue E (postCheck E st1 step new) = (false, { postCheck E st1 step new with ticks := (postCheck E st1 step new).ticks + 1, exitflag := .deltaTooSmall }) := by
    have e1 : (postCheck E st1 step new).converged = false := by rw [hpost]
    have e2 : (postCheck E st1 step new).iteration = 1 := by rw [hpost]; show st.iteration + 1 = 1; rw [hi.iteration]
    have e3 : (postCheck E st1 step new).delta = fin 0 := by rw [hpost]
    have e4 : (postCheck E st1 step new).starttime = st.starttime := by rw [hpost]; rfl
    unfold checkContinue
    rw [if_neg (by rw [e1]; simp), if_neg (by rw [e2]; push_cast; omega)]
    have e5 : (if (postCheck E st1 step new).iteration = 0 then 1 else (postCheck E st1 step new).iteration : ℕ) = 1 := by rw [e2]; rfl
    simp only [e5]
    rw [e4, if_neg (by rw [htm _ 1 (by norm_num)]; simp), if_pos]
    rw [e3, hsp, fin_lt]; simp
  have hl : loop E (loops + 1) st cur = .ok { postCheck E st1 step new with ticks := (postCheck E st1 step new).ticks + 1, exitflag := .deltaTooSmall } := by
    rw [loop_step _ _ _ _ _ _ _ hcont hit]
    exact loop_stop _ _ _ _ _ hstop
  refine ⟨{ postCheck E st1 step new with ticks := (postCheck E st1 step new).ticks + 1, exitflag := .deltaTooSmall }, ?_, ?_, ?_, ?_, ?_, ?_⟩
  · rw [minimize_of_head _ _ _ _ _ _ _ _ _ hn hh hl]
    simp [writeHistory, hhist]
  · show (postCheck E st1 step new).x = _; rw [hpost]; exact hx
  · show (postCheck E st1 step new).fval = _; rw [hpost]; exact hf
  · show (postCheck E st1 step new).grad = _; rw [hpost]; exact hg
  · show (postCheck E st1 step new).iteration = _; rw [hpost]; show st.iteration + 1 = 1; rw [hi.iteration]
  · rfl

end

end Fides
