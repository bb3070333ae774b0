import Verif.Lemmas.Library
import Verif.Props.BoundedNewton
import Verif.Props.Radius
import Verif.Props.SteihaugTotal
import Verif.Lemmas.Saddle

/-!
# C86: the result does not depend on the choices of the linear algebra library
-/

namespace Fides
open Num Spec
variable {n : ℕ}

/-- **C86.** One proposal: with real data and a positive definite scaled Hessian, for every subspace option, with the step-back strategies `reflect` and `single_reflect`, with or
without bounds: `trust_region` returns the same step (all fields of it) whichever exact linear algebra and root finding routines are used - eigenvectors may have any sign and order. -/
theorem C86_step {I : TRIn Num n} {x d g dv : Fin n → ℝ} {H : Fin n → Fin n → ℝ} {D th : ℝ} (hI : RealData I x d g dv H D th) (h0 : 0 < th) (h1 : th ≤ 1)
    (hbox : InBox I.lb I.ub x) (hn : 0 < n) (hD : 0 < D) (hpd : PD fun i j => d i * H i j * d j + if i = j then |g i| * dv i else 0) (O O' : Oracles Num) (hX : ExactRoutines O)
    (hX' : ExactRoutines O') (fuel : ℕ) (dim : SubSpaceDim) (strat : StepBackStrategy) (hst : strat = .reflect ∨ strat = .singleReflect) :
    trustRegion O fuel dim strat I = trustRegion O' fuel dim strat I :=
  trustRegion_same (RealData.prob hI h0 h1 hbox) hn (sym_scaled _ _ hI.sym) hpd hD O O' hX hX' fuel dim strat hst

variable {E : Env Num n} {f : (Fin n → ℝ) → ℝ} {g : (Fin n → ℝ) → Fin n → ℝ} {mu eta g1 g2 D0 W : ℝ} {startId : String} {hess0 : Hess0 Num} {st0 : St Num n}

/-- **C86.** Whole runs, for every origin of the Hessians (returned by the objective or from an approximation), provided that at every iteration the Hessian in use is symmetric
positive definite and the current point is not on a bound it moves to: `minimize` with the exact routines `O'` gives the same result as with the exact routines `O` - the same state of
the optimizer, including the returned point, the exit flag, the counters, the history and the log of evaluations, or the same exception. -/
theorem C86_run (hE : TRParams E mu eta g1 g2 D0) (O O' : ℕ → Oracles Num) (hX : ∀ k, ExactRoutines (O k)) (hX' : ∀ k, ExactRoutines (O' k)) (tf : ℕ)
    (hO : ∀ k I, E.tr k I = trustRegion (O k) tf E.opts.subspaceDim E.opts.stepbackStrat I) (hst : E.opts.stepbackStrat = .reflect ∨ E.opts.stepbackStrat = .singleReflect)
    (hn : 0 < n) (hev : EvaluatesOn E f g) (x0 : Vec Num n)
    (hpd : ∀ k st cur, LoopHead E x0 startId hess0 st0 k st cur → ∃ B : Fin n → Fin n → ℝ, st.hess = ofM B ∧ Sym B ∧ PD B)
    (hin : ∀ k st cur x, LoopHead E x0 startId hess0 st0 k st cur → st.x = ofV x → ∀ h i, 0 < boundDist E.lb E.ub x h i) (fuel : ℕ) :
    minimize { E with tr := fun k I => trustRegion (O' k) tf E.opts.subspaceDim E.opts.stepbackStrat I } fuel x0 startId hess0 st0 = minimize E fuel x0 startId hess0 st0 := by
  refine minimize_tr E _ x0 startId hess0 st0 (fun k st cur st1 hh hc j => ?_) fuel
  obtain ⟨h1, h2, -, -, h3⟩ := checkContinue_true E st st1 hc
  obtain ⟨tm, htm, ht0, ht1⟩ := hE.theta
  obtain ⟨z, x, hz, hzb, hx, hxb, hfv, hgr, -, hxf⟩ := head_box hev x0 startId hess0 st0 k st cur hh
  obtain ⟨B, hH, hS, hBpd⟩ := hpd k st cur hh
  obtain ⟨D, hD, hD0, -⟩ := C16_bound E x0 startId hess0 st0 D0 g1 g2 hE.deltaInit hE.gamma1 hE.gamma2 hE.D0_pos.le hE.g1_pos.le hE.g1_lt.le hE.g2_ge k st cur hh
  have hDp : 0 < D := by
    rw [hD] at h3
    have : (spacing1 : Num) = fin (1 / 4503599627370496) := by norm_num [spacing1]
    rw [this, fin_lt, decide_eq_false_iff_not, not_lt] at h3
    exact lt_of_lt_of_le (by norm_num) h3
  subst h1
  obtain ⟨d, dv, th, hI, hth1, hth2, hd, hdv⟩ := box_data tm htm ht0 ht1
    { st with ticks := st.ticks + 1, iteration := st.iteration + 1, deltaIter := st.delta } x (g z) B D hx hgr hH hS hD hxb
  rw [hO]
  exact C86_step hI (ht0.trans_le hth1) hth2 hxb hn hDp (scaled_pd hd (hin k st cur x hh hx (g z)) hdv hBpd) _ _ (hX' j) (hX j) tf _ _ hst

/-- **C86.** Problem form: an objective that returns value, gradient and Hessian, the Hessian symmetric positive definite at the points of the box; every variable free or with two
bounds at least `3 * margin` (about `3e-15`) apart; a starting point in the box.  With the step-back strategies `reflect` (the default) and `single_reflect` and every subspace option,
`minimize` gives the same result with all exact linear algebra routines. -/
theorem C86_problem (hE : TRParams E mu eta g1 g2 D0) (O O' : ℕ → Oracles Num) (hX : ∀ k, ExactRoutines (O k)) (hX' : ∀ k, ExactRoutines (O' k)) (tf : ℕ)
    (hO : ∀ k I, E.tr k I = trustRegion (O k) tf E.opts.subspaceDim E.opts.stepbackStrat I) (hst : E.opts.stepbackStrat = .reflect ∨ E.opts.stepbackStrat = .singleReflect)
    (hn : 0 < n) (H : (Fin n → ℝ) → Fin n → Fin n → ℝ) (hR : Returns E f g H) (happ : st0.happ = none) (hH : ∀ x, InBox E.lb E.ub x → Sym (H x) ∧ PD (H x))
    (hF : FreeOrBetween (3 * margin) W E.lb E.ub) (r0 : Fin n → ℝ) (hx0 : InBox E.lb E.ub r0) (fuel : ℕ) :
    minimize { E with tr := fun k I => trustRegion (O' k) tf E.opts.subspaceDim E.opts.stepbackStrat I } fuel (ofV r0) startId hess0 st0 = minimize E fuel (ofV r0) startId hess0 st0 :=
  C86_run hE O O' hX hX' tf hO hst hn (fun k x xId raw fo _ h1 h2 => hR.evaluates k x xId raw fo h1 h2) (ofV r0)
    (fun k st cur hh => by
      obtain ⟨z, hz, hzH⟩ := returned_hess_box hR happ k st cur hh
      exact ⟨H z, hzH, hH z hz⟩)
    (fun k st cur x hh hx h i => boundDist_pos margin_pos i (head_inside hx0 hF k st cur hh x hx i)) fuel

/-- **C86.** With Steihaug's solver no assumption is needed: for every objective, every kind of numbers, every step-back strategy and whatever the routines return or raise, `minimize` gives the
same result. -/
theorem C86_steihaug {F : Type} [FloatOps F] (E : Env F n) (O O' : ℕ → Oracles F) (tf : ℕ) (hdim : E.opts.subspaceDim = .steihaug)
    (hO : ∀ k I, E.tr k I = trustRegion (O k) tf E.opts.subspaceDim E.opts.stepbackStrat I) (x0 : Vec F n) (startId : String) (hess0 : Hess0 F) (st0 : St F n) (fuel : ℕ) :
    minimize { E with tr := fun k I => trustRegion (O' k) tf E.opts.subspaceDim E.opts.stepbackStrat I } fuel x0 startId hess0 st0 = minimize E fuel x0 startId hess0 st0 := by
  refine minimize_tr E _ x0 startId hess0 st0 (fun k st cur st1 _ _ j => ?_) fuel
  rw [hO, hdim]
  exact C66_independent _ _ _ _ _

/-! ## routines that differ in the sign of the eigenvectors -/

/-- the same routines with the opposite sign of every eigenvector -/
noncomputable def flipped (O : Oracles Num) : Oracles Num :=
  { O with
    sub := { O.sub with eig := fun B => (O.sub.eig B).map fun r => (r.1, fun i j => -r.2 i j) }
    npEig := fun B => (O.npEig B).map fun r => (r.1, r.2.1, fun i j => -r.2.2 i j) }

theorem isEig_neg {k : ℕ} {B : Fin k → Fin k → ℝ} {vals : Fin k → ℝ} {U : Fin k → Fin k → ℝ} (h : IsEig B vals U) : IsEig B vals (fun i j => -U i j) := by
  refine ⟨fun a b => ?_, fun j => ?_⟩
  · rw [← h.1 a b]; simp [rdot]
  · have := h.2 j
    have e : (fun i => -U i j) = (-1 : ℝ) • fun i => U i j := by funext i; simp
    rw [e, rmv_smul, this, smul_comm]

/-- they are exact as well -/
theorem flipped_ok {O : Oracles Num} (hX : ExactRoutines O) : ExactRoutines (flipped O) where
  eig B hB := by
    obtain ⟨vals, U, h1, h2⟩ := hX.eig B hB
    refine ⟨vals, fun i j => -U i j, ?_, isEig_neg h2⟩
    show (O.sub.eig (ofM B)).map _ = _
    rw [h1]; rfl
  npEig B hB := by
    obtain ⟨vals, U, h1, h2⟩ := hX.npEig B hB
    refine ⟨vals, fun i j => -U i j, ?_, isEig_neg h2⟩
    show (O.npEig (ofM B)).map _ = _
    rw [h1]; rfl
  lstsq := hX.lstsq
  roots := hX.roots

theorem solveNd_hard_null {k : ℕ} {B vals U} (hk : 0 < k) (O : SubOracles Num) (he : O.eig (ofM B) = .ok (ofV vals, ofM U)) (hE : IsEig B vals U) (j : Fin k) (hj : argminIdx (ofV vals) = some j)
    (hmin : ∀ i, vals j ≤ vals i) (hvj : vals j < 0) {D : ℝ} (hD : 0 < D) : solveNd O (ofM B) (ofV (0 : Fin k → ℝ)) (fin D) = .ok (ofV (D • fun l => U l j), .hard) := by
  have hw : (fun i => -(dot (fun l => ofM U l i) (ofV (0 : Fin k → ℝ)))) = ofV (0 : Fin k → ℝ) := by
    funext i
    have := dot_ofV (fun l => U l i) (0 : Fin k → ℝ)
    have e : dot (fun l => ofM U l i) (ofV (0 : Fin k → ℝ)) = fin 0 := by rw [← rdot_zero (fun l => U l i)]; exact this
    rw [e]; simp
  have hz : ∀ lam, slamC lam (0 : Fin k → ℝ) vals = 0 := by
    intro lam; funext i; simp [slamC]
  rw [solveNd, if_neg (by simpa using hD.ne'), he]
  simp only [hj, hw, lit_def, Rat.cast_zero]
  have hp' : lt (fin 0) (ofV vals j) = false := by
    rw [ofV_apply, fin_lt]; simpa using hvj.le
  rw [hp', Bool.false_and]
  simp only [Bool.false_eq_true, if_false]
  have hs : lt (secular (-ofV vals j) (ofV 0) (ofV vals) (ofM U) (fin D)) (fin 0) = false := by
    rw [ofV_apply, fin_neg, secular_fin _ _ _ _ _ j hmin hD.ne', if_neg (lt_irrefl _), hz, rmv_zero, rnorm_eq_zero.mpr rfl, if_neg (lt_irrefl _)]
    rfl
  rw [hs]
  simp only [Bool.false_eq_true, if_false]
  obtain ⟨c, sg, h1, h2, h3, h4⟩ := hardCase_fin (0 : Fin k → ℝ) vals U j D hE.1
  have hc0 : c = 0 := by
    rw [h2]
    have : (fun i => if vals i = vals j then (0 : ℝ) else (0 : Fin k → ℝ) i) = 0 := by funext i; simp
    rw [this, hz]
  have hsg : sg = D := by
    rw [h3, hc0, rdot_zero, sub_zero, max_eq_left (by positivity), Real.sqrt_mul_self hD.le]
  rw [h1, hc0, rmv_zero, zero_add, hsg]

/-- **C86** (why the theorems above ask for positive definite Hessians): at a gradient of zero and a Hessian with a direction of negative curvature the solver of the reduced subproblem
returns opposite steps with two exact routines that differ in the sign of the eigenvectors only. -/
theorem C86_sign {k : ℕ} {B : Fin k → Fin k → ℝ} (hS : Sym B) (v : Fin k → ℝ) (hv : rdot v (rmv B v) < 0) (O : Oracles Num) (hX : ExactRoutines O) (D : ℝ) (hD : 0 < D) :
    ∃ s : Fin k → ℝ, s ≠ 0 ∧ solveNd O.sub (ofM B) (ofV 0) (fin D) = .ok (ofV s, .hard) ∧ solveNd (flipped O).sub (ofM B) (ofV 0) (fin D) = .ok (ofV (-s), .hard) := by
  have hk : 0 < k := by
    rcases Nat.eq_zero_or_pos k with rfl | h
    · simp [rdot] at hv
    · exact h
  obtain ⟨vals, U, he, hE⟩ := hX.eig B hS
  obtain ⟨j, hj, hmin⟩ := argminIdx_fin vals hk
  have hvj : vals j < 0 := by
    by_contra hcon
    push Not at hcon
    have h1 := eig_psd hE (lam := -vals j) (fun i => by have := hmin i; linarith) v
    have := mul_nonneg hcon (rdot_self_nonneg v)
    linarith
  refine ⟨D • fun l => U l j, ?_, solveNd_hard_null hk O.sub he hE j hj hmin hvj hD, ?_⟩
  · intro h
    have h1 := hE.1 j j
    rw [if_pos rfl] at h1
    have h2 : (fun l => U l j) = 0 := (smul_eq_zero.mp h).resolve_left hD.ne'
    rw [h2, rdot_zero] at h1
    exact zero_ne_one h1
  · have he' : (flipped O).sub.eig (ofM B) = .ok (ofV vals, ofM fun i j => -U i j) := by
      show (O.sub.eig (ofM B)).map _ = _
      rw [he]; rfl
    rw [solveNd_hard_null hk _ he' (isEig_neg hE) j hj hmin hvj hD]
    congr 3
    funext l; simp

/-! ## Every hypothesis holds on a concrete problem -/

/-- the bowl in the box `[1,3]^2` with the default solver: the run does not change when the sign of all eigenvectors does -/
example (N fuel : ℕ) (r0 : Fin 2 → ℝ) (h0 : InBox boxEnv.lb boxEnv.ub r0) :
    minimize { newtonEnv .reflect N with tr := fun _ I => trustRegion (flipped exactRoutines) 2 .two .reflect I } fuel (ofV r0) "0" (.val .none) (St.new (newtonEnv .reflect N).opts none) =
      minimize (newtonEnv .reflect N) fuel (ofV r0) "0" (.val .none) (St.new (newtonEnv .reflect N).opts none) := by
  have hd : (newtonEnv .reflect N).opts.subspaceDim = .two := by simp only [newtonEnv, demo_opts]
  have hs : (newtonEnv .reflect N).opts.stepbackStrat = .reflect := by simp only [newtonEnv, demo_opts]
  have := C86_problem (W := 2) (startId := "0") (hess0 := .val .none) (st0 := St.new (newtonEnv .reflect N).opts none) (newtonEnv_params .reflect N) (fun _ => exactRoutines)
    (fun _ => flipped exactRoutines) (fun _ => exactRoutines_ok) (fun _ => flipped_ok exactRoutines_ok) 2 (fun k I => by rw [hd, hs]; rfl) (Or.inl hs) (by norm_num) (fun _ => idM)
    (newtonEnv_returns .reflect N) rfl (fun x _ => ⟨fun i j => by simp [idM, eq_comm], fun v hv => by rw [idM_rmv]; exact rdot_self_pos hv⟩)
    (fun i => Or.inr ⟨1, 3, rfl, rfl, by norm_num [margin], by norm_num⟩) r0 h0 fuel
  rw [hd, hs] at this
  exact this

end Fides
