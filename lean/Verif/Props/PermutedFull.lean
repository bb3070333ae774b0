import Verif.Lemmas.PermutedFull
import Verif.Props.Library
import Verif.Props.ConvexExamples

/-!
# C92: the order of the variables does not matter, for every solver and every pair of exact libraries
-/

namespace Fides
open Num Spec
variable {n : ℕ} {σ : Equiv.Perm (Fin n)} {E E' : Env Num n} {f : (Fin n → ℝ) → ℝ} {g : (Fin n → ℝ) → Fin n → ℝ} {mu eta g1 g2 D0 W : ℝ} {startId : String}

/-- **C92.** One proposal: real data, positive definite scaled Hessian, any subspace option (the full space included), step-back strategies `reflect` and `single_reflect`, with or
without bounds, two sets `O`, `O'` of exact routines (not related to each other).  If `trust_region` proposes a step for the problem then, for the same problem with its variables in
another order, it proposes the step with its entries in that order, of the same kind and with the same predicted change of the objective, the same fraction `alpha` and the same flags. -/
theorem C92_step {I : TRIn Num n} {x d g dv : Fin n → ℝ} {H : Fin n → Fin n → ℝ} {D th : ℝ} (hI : RealData I x d g dv H D th) (h0 : 0 < th) (h1 : th ≤ 1)
    (hbox : InBox I.lb I.ub x) (hn : 0 < n) (hD : 0 < D) (hpd : PD fun i j => d i * H i j * d j + if i = j then |g i| * dv i else 0) (O O' : Oracles Num) (hX : ExactRoutines O)
    (hX' : ExactRoutines O') (fuel : ℕ) (dim : SubSpaceDim) (strat : StepBackStrategy) (hst : strat = .reflect ∨ strat = .singleReflect) (s : Step Num n)
    (hs : trustRegion O fuel dim strat I = .ok s) :
    ∃ s', trustRegion O' fuel dim strat { I with x := permV σ I.x, g := permV σ I.g, hess := permM σ I.hess, scaling := permV σ I.scaling, dv := permV σ I.dv, lb := permV σ I.lb, ub := permV σ I.ub } = .ok s' ∧
      (∀ i, s'.s i = s.s (σ i)) ∧ (∀ i, s'.s0 i = s.s0 (σ i)) ∧ (∀ i, s'.ss i = s.ss (σ i)) ∧ (∀ i, s'.ss0 i = s.ss0 (σ i)) ∧ s'.type = s.type ∧ s'.qpval = s.qpval ∧ s'.alpha = s.alpha ∧
      s'.posdef = s.posdef ∧ s'.newton = s.newton ∧ s'.subspace.length = s.subspace.length := by
  have h := trustRegion_perm (σ := σ) (RealData.prob hI h0 h1 hbox) hn (sym_scaled _ _ hI.sym) hpd hD O O' hX hX' fuel dim strat hst
  rw [hs] at h
  change (trustRegion O' fuel dim strat (permIn σ I)).map bare = .ok (bare (permStep σ s)) at h
  show ∃ s', trustRegion O' fuel dim strat (permIn σ I) = .ok s' ∧ _
  cases hr : trustRegion O' fuel dim strat (permIn σ I) with
  | error e => rw [hr] at h; cases h
  | ok s' =>
    rw [hr] at h
    have hb : bare (permStep σ s) = bare s' := by simpa [Except.map] using h.symm
    obtain ⟨k1, k2⟩ := bare_iff hb
    refine ⟨s', rfl, ?_⟩
    rw [k1]
    exact ⟨fun _ => rfl, fun _ => rfl, fun _ => rfl, fun _ => rfl, rfl, rfl, rfl, rfl, rfl, by rw [← k2]; simp [permStep]⟩

/-- **C92.** Whole runs, for every origin of the Hessians (returned by the objective or from an approximation), provided that at every iteration the Hessian in use is symmetric
positive definite and the current point is not on a bound it moves to.  Let `E'` be the problem `E` with its variables in the order `σ`, and `O`, `O'` any exact routines, not related to
each other.  With every subspace option, `full` included, and the strategies `reflect` and `single_reflect`, `minimize` from the reordered starting point does what `minimize` does
on the original problem: calls at reordered points, the same result or exception, values, radius, flags, counters and history, and reordered points, gradients and Hessians. -/
theorem C92_run (hP : PermutedProblem σ E E') (hE : TRParams E mu eta g1 g2 D0) (O O' : ℕ → Oracles Num) (hX : ∀ k, ExactRoutines (O k)) (hX' : ∀ k, ExactRoutines (O' k)) (tf : ℕ)
    (hO : ∀ k I, E.tr k I = trustRegion (O k) tf E.opts.subspaceDim E.opts.stepbackStrat I)
    (hO' : ∀ k I, E'.tr k I = trustRegion (O' k) tf E'.opts.subspaceDim E'.opts.stepbackStrat I) (hst : E.opts.stepbackStrat = .reflect ∨ E.opts.stepbackStrat = .singleReflect)
    (hn : 0 < n) (hev : EvaluatesOn E f g) (x0 : Vec Num n) {hess0 hess0' : Hess0 Num} (hh0 : PermHess0 σ hess0 hess0') (st0 : St Num n)
    (hpd : ∀ k st cur, LoopHead E x0 startId hess0 st0 k st cur → ∃ B : Fin n → Fin n → ℝ, st.hess = ofM B ∧ Sym B ∧ PD B)
    (hin : ∀ k st cur x, LoopHead E x0 startId hess0 st0 k st cur → st.x = ofV x → ∀ h i, 0 < boundDist E.lb E.ub x h i) (fuel : ℕ) :
    minimize E' fuel (permV σ x0) startId hess0' (permState σ st0) =
      match minimize E fuel x0 startId hess0 st0 with
      | .ok st' => .ok (permState σ st')
      | .error e => .error (e.1, permState σ e.2) := by
  have hsym : ∀ s : Step Num n, permStep σ (permStep σ.symm s) = s := by
    intro s
    have := permStep_symm σ.symm s
    rwa [Equiv.symm_symm] at this
  have hP' : PermutedProblem σ { E with tr := fun k I => (E'.tr k (permIn σ I)).map (permStep σ.symm) } E' :=
    ⟨hP.lb, hP.ub, hP.obj, hP.opts, hP.nargout, hP.resfun, hP.clock, hP.evs, hP.cond⟩
  have h1 := pv_minimize hP' (fun k I => by
    show E'.tr k (permIn σ I) = ((E'.tr k (permIn σ I)).map (permStep σ.symm)).map (permStep σ)
    cases E'.tr k (permIn σ I) with
    | error e => rfl
    | ok s => simp only [Except.map, hsym]) fuel x0 startId hh0 st0
  have h2 : minimize { E with tr := fun k I => (E'.tr k (permIn σ I)).map (permStep σ.symm) } fuel x0 startId hess0 st0 = minimize E fuel x0 startId hess0 st0 := by
    refine minimize_bare E _ x0 startId hess0 st0 (fun k st cur st1 hh hc => ?_) fuel
    obtain ⟨h1, h2, -, -, h3⟩ := checkContinue_true E st st1 hc
    obtain ⟨tm, htm, ht0, ht1⟩ := hE.theta
    obtain ⟨z, x, hz, hzb, hx, hxb, hfv, hgr, -, hxf⟩ := head_box hev x0 startId hess0 st0 k st cur hh
    obtain ⟨B, hH, hS, hBpd⟩ := hpd k st cur hh
    obtain ⟨D, hD, hD0, -⟩ := C16_bound E x0 startId hess0 st0 D0 g1 g2 hE.deltaInit hE.gamma1 hE.gamma2 hE.D0_pos.le hE.g1_pos.le hE.g1_lt.le hE.g2_ge k st cur hh
    have hDp : 0 < D := by
      rw [hD] at h3
      have : (spacing1 : Num) = fin (1 / 4503599627370496) := by norm_num [spacing1]
      rw [this, fin_lt, decide_eq_false_iff_not, not_lt] at h3
      exact lt_of_lt_of_le (by norm_num) h3
    subst h1
    obtain ⟨d, dv, th, hI, hth1, hth2, hd, hdv⟩ := box_data tm htm ht0 ht1
      { st with ticks := st.ticks + 1, iteration := st.iteration + 1, deltaIter := st.delta } x (g z) B D hx hgr hH hS hD hxb
    have key := trustRegion_perm (σ := σ) (RealData.prob hI (ht0.trans_le hth1) hth2 hxb) hn (sym_scaled _ _ hI.sym) (scaled_pd hd (hin k st cur x hh hx (g z)) hdv hBpd) hDp
      (O st.proposals) (O' st.proposals) (hX _) (hX' _) tf E.opts.subspaceDim E.opts.stepbackStrat hst
    show ((E'.tr st.proposals (permIn σ _)).map (permStep σ.symm)).map bare = (E.tr st.proposals _).map bare
    rw [hO, hO', hP.opts]
    exact perm_back key
  rw [h1, h2]
  cases minimize E fuel x0 startId hess0 st0 <;> rfl

/-- **C92.** Problem form: an objective that returns value, gradient and Hessian, the Hessian symmetric positive definite at the points of the box; every variable free or with two
bounds at least `3 * margin` (about `3e-15`) apart; a starting point in the box.  With the step-back strategies `reflect` (the default) and `single_reflect`, every subspace option and
any two sets of exact linear algebra routines, the run on the problem with its variables in another order is the same run with the variables in that order. -/
theorem C92_problem (hP : PermutedProblem σ E E') (hE : TRParams E mu eta g1 g2 D0) (O O' : ℕ → Oracles Num) (hX : ∀ k, ExactRoutines (O k)) (hX' : ∀ k, ExactRoutines (O' k)) (tf : ℕ)
    (hO : ∀ k I, E.tr k I = trustRegion (O k) tf E.opts.subspaceDim E.opts.stepbackStrat I)
    (hO' : ∀ k I, E'.tr k I = trustRegion (O' k) tf E'.opts.subspaceDim E'.opts.stepbackStrat I) (hst : E.opts.stepbackStrat = .reflect ∨ E.opts.stepbackStrat = .singleReflect)
    (hn : 0 < n) (H : (Fin n → ℝ) → Fin n → Fin n → ℝ) (hR : Returns E f g H) (hH : ∀ x, InBox E.lb E.ub x → Sym (H x) ∧ PD (H x))
    (hF : FreeOrBetween (3 * margin) W E.lb E.ub) (r0 : Fin n → ℝ) (hx0 : InBox E.lb E.ub r0) {hess0 hess0' : Hess0 Num} (hh0 : PermHess0 σ hess0 hess0') (st0 : St Num n)
    (happ : st0.happ = none) (fuel : ℕ) :
    minimize E' fuel (fun i => fin (r0 (σ i))) startId hess0' (permState σ st0) =
      match minimize E fuel (ofV r0) startId hess0 st0 with
      | .ok st' => .ok (permState σ st')
      | .error e => .error (e.1, permState σ e.2) :=
  C92_run hP hE O O' hX hX' tf hO hO' hst hn (fun k x xId raw fo _ h1 h2 => hR.evaluates k x xId raw fo h1 h2) (ofV r0) hh0 st0
    (fun k st cur hh => by
      obtain ⟨z, hz, hzH⟩ := returned_hess_box hR happ k st cur hh
      exact ⟨H z, hzH, hH z hz⟩)
    (fun k st cur x hh hx h i => boundDist_pos margin_pos i (head_inside hx0 hF k st cur hh x hx i)) fuel

/-! ## example: a quadratic with different curvatures and bounds, in two orders, solved in the full space with libraries that differ in the signs of the eigenvectors -/

noncomputable def swapH (_ : Fin 2 → ℝ) (i j : Fin 2) : ℝ := if i = j then ![1, 3] i else 0
noncomputable def swapG (x : Fin 2 → ℝ) (i : Fin 2) : ℝ := ![1, 3] i * x i
noncomputable def swapF (x : Fin 2 → ℝ) : ℝ := 1 / 2 * (x 0 ^ 2 + 3 * x 1 ^ 2)

/-- bounds `1 ≤ x 0 ≤ 3`, `-2 ≤ x 1 ≤ 4`, default options except for `subspace_solver=full` -/
noncomputable def swapEnv : Env Num 2 :=
  { tameEnv swapF swapG swapH with
    lb := ofV ![1, -2], ub := ofV ![3, 4], opts := { (resolveOpts [] : Opts Num) with subspaceDim := .full }
    tr := fun _ I => trustRegion exactRoutines 2 .full .reflect I }

/-- the same problem with its variables exchanged and another library -/
noncomputable def swappedEnv : Env Num 2 :=
  { reorder (Equiv.swap 0 1) swapF swapG swapH with
    lb := ofV ![-2, 1], ub := ofV ![4, 3], opts := { (resolveOpts [] : Opts Num) with subspaceDim := .full }
    tr := fun _ I => trustRegion (flipped exactRoutines) 2 .full .reflect I }

theorem swap_problem : PermutedProblem (Equiv.swap 0 1) swapEnv swappedEnv where
  lb := by funext i; fin_cases i <;> rfl
  ub := by funext i; fin_cases i <;> rfl
  obj := (reorder_ok (Equiv.swap 0 1) swapF swapG swapH).obj
  opts := rfl
  nargout := rfl
  resfun := rfl
  clock := rfl
  evs _ := rfl
  cond _ := rfl

theorem swapH_pd (x : Fin 2 → ℝ) : Sym (swapH x) ∧ PD (swapH x) := by
  refine ⟨fun i j => by fin_cases i <;> fin_cases j <;> rfl, fun v hv => ?_⟩
  have e : rdot v (rmv (swapH x) v) = v 0 ^ 2 + 3 * v 1 ^ 2 := by
    simp [rdot, rmv, swapH, Fin.sum_univ_two]; ring
  rw [e]
  by_contra hc
  apply hv
  have h0 : v 0 = 0 := by nlinarith [sq_nonneg (v 0), sq_nonneg (v 1)]
  have h1 : v 1 = 0 := by nlinarith [sq_nonneg (v 0), sq_nonneg (v 1)]
  funext i; fin_cases i
  · exact h0
  · exact h1

example (a b : ℝ) (ha : 1 ≤ a ∧ a ≤ 3) (hb : -2 ≤ b ∧ b ≤ 4) (fuel : ℕ) :
    minimize swappedEnv fuel (ofV ![b, a]) "0" (.val .none) (St.new swappedEnv.opts none) =
      match minimize swapEnv fuel (ofV ![a, b]) "0" (.val .none) (St.new swapEnv.opts none) with
      | .ok st' => .ok (permState (Equiv.swap 0 1) st')
      | .error e => .error (e.1, permState (Equiv.swap 0 1) e.2) := by
  have hE : TRParams swapEnv (1 / 4) (3 / 4) (1 / 4) 2 1 := by
    constructor <;> try (simp only [swapEnv, demo_opts])
    all_goals norm_num
  have hd : swapEnv.opts.subspaceDim = .full := rfl
  have hs : swapEnv.opts.stepbackStrat = .reflect := by simp only [swapEnv, demo_opts]
  have hR : Returns swapEnv swapF swapG swapH := ⟨rfl, rfl, fun k x => tameObj_real swapF swapG swapH x⟩
  have h := C92_problem (W := 6) (startId := "0") (hess0 := .val .none) (hess0' := .val .none) swap_problem hE (fun _ => exactRoutines) (fun _ => flipped exactRoutines)
    (fun _ => exactRoutines_ok) (fun _ => flipped_ok exactRoutines_ok) 2 (fun k I => by rw [hd, hs]; rfl) (fun k I => by rw [swap_problem.opts, hd, hs]; rfl) (Or.inl hs) (by norm_num)
    swapH hR (fun x _ => swapH_pd x)
    (fun i => Or.inr (by
      fin_cases i
      · exact ⟨1, 3, rfl, rfl, by norm_num [margin], by norm_num⟩
      · exact ⟨-2, 4, rfl, rfl, by norm_num [margin], by norm_num⟩))
    ![a, b] (fun i => by
      fin_cases i
      · exact ⟨by show le (fin 1) (fin a) = true; simpa using ha.1, by show le (fin a) (fin 3) = true; simpa using ha.2⟩
      · exact ⟨by show le (fin (-2)) (fin b) = true; simpa using hb.1, by show le (fin b) (fin 4) = true; simpa using hb.2⟩)
    PermHess0.none (St.new swapEnv.opts none) rfl fuel
  have e : (fun i => fin (![a, b] (Equiv.swap 0 1 i)) : Vec Num 2) = ofV ![b, a] := by
    funext i; fin_cases i <;> rfl
  rw [e, permState_new, Option.map_none] at h
  rw [swap_problem.opts, h]
  cases minimize swapEnv fuel (ofV ![a, b]) "0" (.val .none) (St.new swapEnv.opts none) <;> rfl

end Fides
