import Verif.Lemmas.BoundedCount
import Verif.Props.Finite
import Verif.Props.Scaling
import Verif.Props.Run
import Verif.Props.ConvergenceRate

/-!
# C65: convergence of the Steihaug solver on bounded problems

The optimality measure `Spec.scaledGrad` (Coleman and Li) vanishes exactly at first-order optimal points of the bounded problem.  On a smooth
objective with bounded model Hessians (possibly indefinite), a run with the truncated-CG step comes to a point where the measure is below any given
`eps` that is not too small compared to the distance (`margin`) by which iterates are kept off the bounds, within an explicit number of iterations.
The gradient tolerance of the code is tested with the unscaled gradient, so nothing is claimed about the exit flag (see C17, C64).
-/

namespace Fides
open Num Spec
variable {n : ℕ} {E : Env Num n} {f : (Fin n → ℝ) → ℝ} {g : (Fin n → ℝ) → Fin n → ℝ} {mu eta g1 g2 D0 tm L W M G fmin : ℝ}

/-- **C65.** The measure is zero exactly at the first-order optimal points of the box. -/
theorem C65_measure (lb ub : Vec Num n) (x h : Fin n → ℝ) (hb : InBox lb ub x) : scaledGrad lb ub x h = 0 ↔ Stationary lb ub x h := by
  rw [stationary_iff_kkt lb ub x h hb, scaledGrad]
  have hd : ∀ i, 0 ≤ boundDist lb ub x h i := fun i => boundDist_nonneg hb i
  have hs : ∀ i ∈ Finset.univ, 0 ≤ boundDist lb ub x h i * h i ^ 2 := fun i _ => mul_nonneg (hd i) (sq_nonneg _)
  rw [Real.sqrt_eq_zero (Finset.sum_nonneg hs), Finset.sum_eq_zero_iff_of_nonneg hs]
  have key : ∀ i, boundDist lb ub x h i * h i ^ 2 = 0 ↔ (h i = 0 ∨ (0 < h i ∧ lb i = fin (x i)) ∨ (h i < 0 ∧ ub i = fin (x i))) := by
    intro i
    obtain ⟨h1, h2⟩ := hb i
    unfold boundDist
    rw [mul_eq_zero, sq_eq_zero_iff]
    rcases lt_trichotomy (h i) 0 with hg | hg | hg
    · simp only [hg, if_true]
      cases hu : ub i with
      | fin u => simp only [fin_inj, hg.ne, or_false, false_or, not_lt.mpr hg.le, false_and, true_and]; constructor <;> intro hh <;> linarith
      | _ => simp [hg.ne, not_lt.mpr hg.le]
    · simp [hg]
    · simp only [not_lt.mpr hg.le, if_false]
      cases hu : lb i with
      | fin u => simp only [fin_inj, hg.ne', or_false, false_or, hg, false_and, true_and]; constructor <;> intro hh <;> linarith
      | _ => simp [hg.ne']
  exact ⟨fun h i => (key i).mp (h i (Finset.mem_univ i)), fun h i _ => (key i).mpr (h i)⟩

variable {x0 : Vec Num n} {startId : String} {hess0 : Hess0 Num} {st0 : St Num n}

/-- **C65.** Steihaug solver, smooth problem with bounds, any step-back strategy: a run that makes `boxBound` iterations has met, among the points it
iterated from, one whose optimality measure is below `eps`, provided moving a point by `margin` changes the model by less than the guaranteed reduction.  The
only exception is a run that before that proposed a point with an entry that is not a number, which needs two or more variables. -/
theorem C65_visits (hR : BoxRun E f g mu eta g1 g2 D0 tm L W M G fmin x0 startId hess0 st0) (hT : UsesTrustRegion E)
    (hdim : E.opts.subspaceDim = .steihaug) (eps : ℝ) (he : 0 < eps)
    (hsmall : nudgeError n L G margin ≤ (1 - mu) / 2 * boxPred mu g1 D0 L W M G tm eps) (gap : ℝ)
    (hgap : ∀ st cur z, LoopHead E x0 startId hess0 st0 0 st cur → cur.x = ofV z → f z - fmin ≤ gap)
    (k : ℕ) (st : St Num n) (cur : Funout Num n) (h : LoopHead E x0 startId hess0 st0 k st cur)
    (hk : boxBound mu g1 g2 D0 L W M G tm gap eps ≤ k) :
    ∃ j < boxBound mu g1 g2 D0 L W M G tm gap eps, ∃ st' cur', LoopHead E x0 startId hess0 st0 j st' cur' ∧
      ((∃ x' h', st'.x = ofV x' ∧ st'.grad = ofV h' ∧ scaledGrad E.lb E.ub x' h' < eps) ∨ (1 < n ∧ NonRealTrial E st')) := by
  by_cases hreal : ∃ j < boxBound mu g1 g2 D0 L W M G tm gap eps, ∃ st' cur', LoopHead E x0 startId hess0 st0 j st' cur' ∧ (1 < n ∧ NonRealTrial E st')
  · obtain ⟨j, hj, st', cur', hh, hr⟩ := hreal
    exact ⟨j, hj, st', cur', hh, Or.inr hr⟩
  have hreal : ∀ j < boxBound mu g1 g2 D0 L W M G tm gap eps, ∀ st' cur', LoopHead E x0 startId hess0 st0 j st' cur' → ¬ (1 < n ∧ NonRealTrial E st') :=
    fun j hj st' cur' hh hr => hreal ⟨j, hj, st', cur', hh, hr⟩
  suffices hmove : ∀ j st cur x z, LoopHead E x0 startId hess0 st0 j st cur → st.x = ofV x → cur.x = ofV z → ∀ i, |x i - z i| ≤ margin by
    obtain ⟨j, hj, st', cur', x', h', hh, h1, h2, h3⟩ := box_visits hR he margin margin_pos.le hmove hsmall gap hgap k st cur h hk
      (fun j hj st' cur' hh => steihaug_boxProposes hR hT hdim he j st' cur' hh (hreal j hj st' cur' hh))
    exact ⟨j, hj, st', cur', hh, Or.inl ⟨x', h', h1, h2, h3⟩⟩
  intro j st cur x z hh hx hz i
  obtain ⟨z', x', e1, -, e2, -, -, -, e3, -⟩ := head_box hR.evaluates x0 startId hess0 st0 j st cur hh
  rw [hz, ofV_inj] at e1
  rw [hx, ofV_inj] at e2
  subst e1 e2
  exact e3 i

/-- **C65.** If no iterate had to be moved off a bound, the same holds for every `eps > 0`. -/
theorem C65_exact (hR : BoxRun E f g mu eta g1 g2 D0 tm L W M G fmin x0 startId hess0 st0) (hT : UsesTrustRegion E)
    (hdim : E.opts.subspaceDim = .steihaug) (eps : ℝ) (he : 0 < eps)
    (hnone : ∀ j st cur, LoopHead E x0 startId hess0 st0 j st cur → st.x = cur.x) (gap : ℝ)
    (hgap : ∀ st cur z, LoopHead E x0 startId hess0 st0 0 st cur → cur.x = ofV z → f z - fmin ≤ gap)
    (k : ℕ) (st : St Num n) (cur : Funout Num n) (h : LoopHead E x0 startId hess0 st0 k st cur)
    (hk : boxBound mu g1 g2 D0 L W M G tm gap eps ≤ k) :
    ∃ j < boxBound mu g1 g2 D0 L W M G tm gap eps, ∃ st' cur', LoopHead E x0 startId hess0 st0 j st' cur' ∧
      ((∃ x' h', st'.x = ofV x' ∧ st'.grad = ofV h' ∧ scaledGrad E.lb E.ub x' h' < eps) ∨ (1 < n ∧ NonRealTrial E st')) := by
  by_cases hreal : ∃ j < boxBound mu g1 g2 D0 L W M G tm gap eps, ∃ st' cur', LoopHead E x0 startId hess0 st0 j st' cur' ∧ (1 < n ∧ NonRealTrial E st')
  · obtain ⟨j, hj, st', cur', hh, hr⟩ := hreal
    exact ⟨j, hj, st', cur', hh, Or.inr hr⟩
  have hreal : ∀ j < boxBound mu g1 g2 D0 L W M G tm gap eps, ∀ st' cur', LoopHead E x0 startId hess0 st0 j st' cur' → ¬ (1 < n ∧ NonRealTrial E st') :=
    fun j hj st' cur' hh hr => hreal ⟨j, hj, st', cur', hh, hr⟩
  suffices hm : (∀ j st cur x z, LoopHead E x0 startId hess0 st0 j st cur → st.x = ofV x → cur.x = ofV z → ∀ i, |x i - z i| ≤ 0) ∧
      nudgeError n L G 0 ≤ (1 - mu) / 2 * boxPred mu g1 D0 L W M G tm eps by
    obtain ⟨j, hj, st', cur', x', h', hh, h1, h2, h3⟩ := box_visits hR he 0 le_rfl hm.1 hm.2 gap hgap k st cur h hk
      (fun j hj st' cur' hh => steihaug_boxProposes hR hT hdim he j st' cur' hh (hreal j hj st' cur' hh))
    exact ⟨j, hj, st', cur', hh, Or.inl ⟨x', h', h1, h2, h3⟩⟩
  constructor
  · intro j st cur x z hh hx hz i
    have := hnone j st cur hh
    rw [hx, hz, ofV_inj] at this
    simp [this]
  · have hE := hR.params
    obtain ⟨tm', h1, ht0, ht1⟩ := hE.theta
    have htm' : tm = tm' := by rw [hR.thetaMax, fin_inj] at h1; exact h1
    subst htm'
    have hC := boxConst hR.L_nonneg hR.M_pos hR.W_pos hR.G_pos ht0 hE.mu_lt he
    have hdp : 0 < mu * boxPred mu g1 D0 L W M G tm eps := hC.dec_pos hE
    have hp : 0 < boxPred mu g1 D0 L W M G tm eps := pos_of_mul_pos_right (by linarith [hdp] : 0 < mu * _) hE.mu_pos.le
    have := hE.mu_lt
    unfold nudgeError
    simp only [mul_zero, zero_pow two_ne_zero, add_zero]
    exact mul_nonneg (by linarith) hp.le

/-- distances to bounds in a box whose coordinates are free or have two bounds -/
theorem boundDist_le {lb ub : Vec Num n} {x h : Fin n → ℝ} (hb : InBox lb ub x) (hF : FreeOrWidth W lb ub) (hW : 1 ≤ W) (i : Fin n) :
    boundDist lb ub x h i ≤ W := by
  obtain ⟨h1, h2⟩ := hb i
  unfold boundDist
  rcases hF i with ⟨e1, e2⟩ | ⟨l, u, e1, e2, e3⟩
  · rw [e1, e2]; split <;> exact hW
  · rw [e1] at h1 ⊢
    rw [e2] at h2 ⊢
    simp at h1 h2
    split <;> simp only <;> linarith

theorem returns_evaluatesOn {H : (Fin n → ℝ) → Fin n → Fin n → ℝ} (h : Returns E f g H) : EvaluatesOn E f g :=
  fun k x xId raw fo _ h1 h2 => h.evaluates k x xId raw fo h1 h2

/-- the Hessian in use at a loop head when the objective returns it, with bounds -/
theorem returned_hess_box {H : (Fin n → ℝ) → Fin n → Fin n → ℝ} (hR : Returns E f g H) (h0 : st0.happ = none) (k : ℕ) (st : St Num n)
    (cur : Funout Num n) (h : LoopHead E x0 startId hess0 st0 k st cur) : ∃ z, InBox E.lb E.ub z ∧ st.hess = ofM (H z) := by
  have hi := headInv E x0 startId hess0 st0 k st cur h
  obtain ⟨z, hz, hzb⟩ := inBounds_real_of _ _ _ hi.bounds
  obtain ⟨m, raw, h1, h2⟩ := head_evaluated E x0 startId hess0 st0 k st cur h
  rw [hz] at h1 h2
  obtain ⟨raw', h3, _, _, h4⟩ := hR.eval m z
  rw [h1] at h3; cases h3
  rw [h4] at h2
  have h5 := hi.hess (hi.happ.mpr h0)
  have h6 : cur.hess = some (ofM (H z)) := by rw [← Option.some.inj h2]
  rw [h6] at h5
  exact ⟨z, hzb, (Option.some.inj h5).symm⟩

/-- assumptions on the problem and the options only that make every run a `BoxRun`: an objective returning Hessians -/
theorem problem_boxRun (hE : TRParams E mu eta g1 g2 D0) (htm : E.opts.thetaMax = fin tm) (H : (Fin n → ℝ) → Fin n → Fin n → ℝ)
    (hR : Returns E f g H) (hL0 : 0 ≤ L) (hM0 : 0 < M) (hW : 1 ≤ W) (hG : 0 < G) (hL : SmoothOn L E.lb E.ub f g)
    (hH : ∀ x, InBox E.lb E.ub x → Sym (H x) ∧ ∀ v, |rdot v (rmv (H x) v)| ≤ M * rdot v v) (hF : FreeOrWidth W E.lb E.ub)
    (hGb : GradBound G E.lb E.ub g) (hmin : ∀ y, InBox E.lb E.ub y → fmin ≤ f y) (happ : st0.happ = none) :
    BoxRun E f g mu eta g1 g2 D0 tm L W M G fmin x0 startId hess0 st0 where
  params := hE
  thetaMax := htm
  evaluates := returns_evaluatesOn hR
  smooth := hL
  L_nonneg := hL0
  M_pos := hM0
  W_pos := by linarith
  G_pos := hG
  below := hmin
  gradient := hGb
  hessian j st cur hh := by
    obtain ⟨z, hz, hzH⟩ := returned_hess_box hR happ j st cur hh
    exact ⟨H z, hzH, hH z hz⟩
  width j st cur x h hh hx hg i := by
    obtain ⟨z', x', -, -, e2, e3, -⟩ := head_box (returns_evaluatesOn hR) x0 startId hess0 st0 j st cur hh
    rw [hx, ofV_inj] at e2
    subst e2
    exact boundDist_le e3 hF hW i

/-- evaluations stay on the record -/
theorem head_keeps (j : ℕ) (st : St Num n) (cur : Funout Num n) (h : LoopHead E x0 startId hess0 st0 j st cur) (r : EvalRec Num n) (hr : r ∈ st.evals) (m : ℕ)
    (st' : St Num n) (cur' : Funout Num n) (h' : LoopHead E x0 startId hess0 st0 (j + m) st' cur') : r ∈ st'.evals := by
  induction m generalizing st' cur' with
  | zero =>
    obtain ⟨rfl, rfl⟩ := loopHead_unique E x0 startId hess0 st0 j st st' cur cur' h h'
    exact hr
  | succ m ih =>
    obtain ⟨prev, cur0, step, new, hh, hp⟩ := loopHead_pass E _ startId hess0 st0 (j + m) st' cur' h'
    rw [hp.evaluated]
    exact List.mem_cons_of_mem _ (ih prev cur0 hh)

/-- a proposal that is not a real vector is evaluated -/
theorem nonReal_evaluated (j : ℕ) (st : St Num n) (cur : Funout Num n) (h : LoopHead E x0 startId hess0 st0 j st cur) (hn : NonRealTrial E st)
    (k : ℕ) (hk : j < k) (st' : St Num n) (cur' : Funout Num n) (h' : LoopHead E x0 startId hess0 st0 k st' cur') :
    ∃ r ∈ st'.evals, ∀ y : Fin n → ℝ, r.arg ≠ ofV y := by
  obtain ⟨st1, cur1, h1⟩ := loopHead_prefix E _ startId hess0 st0 k st' cur' h' (j + 1) hk
  obtain ⟨prev, cur0, step, new, hh, hp⟩ := loopHead_pass E _ startId hess0 st0 j st1 cur1 h1
  obtain ⟨rfl, rfl⟩ := loopHead_unique E x0 startId hess0 st0 j _ _ _ _ h hh
  obtain ⟨step', hs, hy⟩ := hn
  have hpr := hp.proposal
  rw [hs] at hpr
  cases hpr
  obtain ⟨m, rfl⟩ : ∃ m, k = j + 1 + m := ⟨k - (j + 1), by omega⟩
  refine ⟨_, head_keeps (j + 1) st1 cur1 h1 _ (by rw [hp.evaluated]; exact List.mem_cons_self) m st' cur' h', ?_⟩
  exact hy

/-- the point of the current evaluation is on the record from then on -/
theorem head_recorded (j : ℕ) (st : St Num n) (cur : Funout Num n) (h : LoopHead E x0 startId hess0 st0 j st cur) (m : ℕ) (st' : St Num n)
    (cur' : Funout Num n) (h' : LoopHead E x0 startId hess0 st0 (j + m) st' cur') : ({ arg := cur.x, out := .ok cur } : EvalRec Num n) ∈ st'.evals := by
  induction m generalizing st' cur' with
  | zero =>
    obtain ⟨rfl, rfl⟩ := loopHead_unique E x0 startId hess0 st0 j st st' cur cur' h h'
    obtain ⟨l, fo0, h1, -, -, -, -, h2, -⟩ := (headInv E x0 startId hess0 st0 j st cur h).evals
    rw [h1]
    simp only [List.mem_append, List.mem_cons, List.not_mem_nil, or_false] at h2 ⊢
    rcases h2 with h2 | h2
    · exact Or.inl h2
    · exact Or.inr (Or.inl h2)
  | succ m ih =>
    obtain ⟨prev, cur0, step, new, hh, hp⟩ := loopHead_pass E _ startId hess0 st0 (j + m) st' cur' h'
    rw [hp.evaluated]
    exact List.mem_cons_of_mem _ (ih prev cur0 hh)

/-- the first evaluation is made at the starting point -/
theorem head_start (st : St Num n) (cur : Funout Num n) (h : LoopHead E x0 startId hess0 st0 0 st cur) : cur.x = nudge E.lb E.ub x0 := by
  obtain ⟨l, fo0, -, h2, h3, -, -, h4, -⟩ := (headInv E x0 startId hess0 st0 0 st cur h).evals
  rw [List.length_eq_zero_iff] at h2
  subst h2
  simp only [List.nil_append, List.mem_singleton, EvalRec.mk.injEq] at h4
  exact h4.1

/-- **C65.** Steihaug solver and an objective that returns its value, gradient and Hessian; the assumptions are on the problem only:
in the box, `g` is the Lipschitz continuous gradient of `f`, `f` is bounded below, the returned Hessians are symmetric and bounded, the gradient is bounded in
coordinates with bounds, and each coordinate is free or has two bounds.  Every normal return after at least `boxBound` iterations comes from a run that
evaluated the objective at some `z` in the box and iterated from a point `x` of the box within `margin` of it, where the measure was below `eps` (or that
called the objective with an argument that is not a vector of numbers, which takes two or more variables). -/
theorem C65_problem (hE : TRParams E mu eta g1 g2 D0) (htm : E.opts.thetaMax = fin tm) (hT : UsesTrustRegion E)
    (hdim : E.opts.subspaceDim = .steihaug) (H : (Fin n → ℝ) → Fin n → Fin n → ℝ)
    (hR : Returns E f g H) (hL0 : 0 ≤ L) (hM0 : 0 < M) (hW : 1 ≤ W) (hG : 0 < G) (hL : SmoothOn L E.lb E.ub f g)
    (hH : ∀ x, InBox E.lb E.ub x → Sym (H x) ∧ ∀ v, |rdot v (rmv (H x) v)| ≤ M * rdot v v) (hF : FreeOrWidth W E.lb E.ub)
    (hGb : GradBound G E.lb E.ub g) (hmin : ∀ y, InBox E.lb E.ub y → fmin ≤ f y) (happ : st0.happ = none) (gap : ℝ)
    (hgap : ∀ z, nudge E.lb E.ub x0 = ofV z → f z - fmin ≤ gap) (eps : ℝ) (he : 0 < eps)
    (hsmall : nudgeError n L G margin ≤ (1 - mu) / 2 * boxPred mu g1 D0 L W M G tm eps)
    (loops : ℕ) (st' : St Num n) (h : minimize E loops x0 startId hess0 st0 = .ok st')
    (hk : boxBound mu g1 g2 D0 L W M G tm gap eps ≤ st'.iteration) :
    NearOptimal E g eps st' ∨ (1 < n ∧ ∃ r ∈ st'.evals, ∀ y : Fin n → ℝ, r.arg ≠ ofV y) := by
  have hB : BoxRun E f g mu eta g1 g2 D0 tm L W M G fmin x0 startId hess0 st0 := problem_boxRun hE htm H hR hL0 hM0 hW hG hL hH hF hGb hmin happ
  obtain ⟨k, st1, cur, ef, t, fl, -, hh, rfl⟩ := run_end_fields E x0 startId hess0 st0 loops st' h
  have hi := headInv E x0 startId hess0 st0 k st1 cur hh
  have hk' : boxBound mu g1 g2 D0 L W M G tm gap eps ≤ k := by rw [← hi.iteration]; exact hk
  obtain ⟨j, hj, st2, cur2, hh2, ⟨x', h', hx2, hg2, hm⟩ | ⟨hn1, hnr⟩⟩ := C65_visits hB hT hdim eps he hsmall gap
    (fun st cur z h0 hz => hgap z (by rw [← head_start st cur h0, hz])) k st1 cur hh hk'
  · left
    obtain ⟨z, x, e1, e2, e3, e4, -, e5, e6, -⟩ := head_box (returns_evaluatesOn hR) x0 startId hess0 st0 j st2 cur2 hh2
    rw [hx2, ofV_inj] at e3
    rw [hg2, ofV_inj] at e5
    subst e3 e5
    obtain ⟨m, rfl⟩ : ∃ m, k = j + m := ⟨k - j, by omega⟩
    have := head_recorded j st2 cur2 hh2 m st1 cur hh
    rw [e1] at this
    exact ⟨z, x', cur2, this, e2, e4, e6, hm⟩
  · right
    exact ⟨hn1, nonReal_evaluated j st2 cur2 hh2 hnr k (by omega) st1 cur hh⟩

/-- a run from a point of the box reaches its first loop head -/
theorem returns_head_box {H : (Fin n → ℝ) → Fin n → Fin n → ℝ} (hR : Returns E f g H) (x0 : Fin n → ℝ) (hb : InBox E.lb E.ub x0) (startId : String)
    (hess0 : Hess0 Num) (st0 : St Num n) (h0 : st0.happ = none) : ∃ st cur, LoopHead E (ofV x0) startId hess0 st0 0 st cur := by
  obtain ⟨r, e1, e2, -⟩ := nudge_spec E.lb E.ub x0 hb
  have hx : (startState E (ofV x0) startId st0).x = ofV r := e1
  obtain ⟨raw, h1, h2, _, h4⟩ := hR.eval (startState E (ofV x0) startId st0).evals.length r
  refine ⟨_, _, LoopHead.start (startState E (ofV x0) startId st0) _ _ ?_ (setup_forward E hess0 _ raw none
    { x := ofV r, xId := (startState E (ofV x0) startId st0).xId, fval := fin (f r), grad := ofV (g r), hess := some (ofM (H r)), res := none } ?_ ?_ h2 ?_ ?_)⟩
  · rw [hx, checkInBounds, if_pos (inBounds_real _ _ _ e2)]
  · rw [hx]; exact h1
  · have : (startState E (ofV x0) startId st0).happ = none := h0
    rw [this]; unfold initialHapp; simp only
  · rw [hx]; exact h4 _
  · simp [allFinite, vfinite, mfinite]

/-! ## A problem that meets the assumptions -/

noncomputable section

/-- half the squared distance to the origin in the box `[1, 3]²`, Steihaug solver, default strategy `reflect` -/
def boxEnv : Env Num 2 where
  lb _ := fin 1
  ub _ := fin 3
  opts := { (resolveOpts [] : Opts Num) with subspaceDim := .steihaug, stepbackStrat := .reflect }
  nargout := 3
  resfun := false
  obj _ x := .tuple [.scalar (lit (1 / 2) * dot x x), .ofVec x, .ofMat (ofM (idM : Fin 2 → Fin 2 → ℝ))]
  clock _ := fin 0
  tr _ I := trustRegion zeroOracles 2 .steihaug .reflect I
  evs _ := .ok (fin 0, fin 0)
  cond _ := .ok (fin 1)

theorem boxEnv_params : TRParams boxEnv (1 / 4) (3 / 4) (1 / 4) 2 1 := by
  constructor <;> try (simp only [boxEnv, demo_opts])
  all_goals norm_num

theorem boxEnv_returns : Returns boxEnv (fun x => 1 / 2 * rdot x x) (fun x => x) (fun _ => idM) where
  nargout := rfl
  resfun := rfl
  obj k x := by
    show Ret.tuple [.scalar (lit (1 / 2) * dot (ofV x) (ofV x)), _, _] = _
    rw [dot_ofV]
    simp

theorem Spec.SmoothWith.on {L : ℝ} {f : (Fin n → ℝ) → ℝ} {g : (Fin n → ℝ) → Fin n → ℝ} (h : SmoothWith L f g) (lb ub : Vec Num n) : SmoothOn L lb ub f g :=
  ⟨fun x s _ => (h.deriv x s).hasDerivWithinAt, fun x y _ _ => h.lipschitz x y⟩

theorem boxEnv_inBox {x : Fin 2 → ℝ} (h : InBox boxEnv.lb boxEnv.ub x) (i : Fin 2) : 1 ≤ x i ∧ x i ≤ 3 := by
  obtain ⟨h1, h2⟩ := h i
  simp [boxEnv] at h1 h2
  exact ⟨h1, h2⟩

theorem boxEnv_run (x0 : Vec Num 2) (startId : String) (hess0 : Hess0 Num) :
    BoxRun boxEnv (fun x => 1 / 2 * rdot x x) (fun x => x) (1 / 4) (3 / 4) (1 / 4) 2 1 (19 / 20) 1 2 1 3 0 x0 startId hess0
      (St.new boxEnv.opts none) := by
  refine problem_boxRun boxEnv_params ?_ (fun _ => idM) boxEnv_returns (by norm_num) (by norm_num) (by norm_num)
    (by norm_num) ((bowl_smooth 2).on _ _) ?_ ?_ ?_ ?_ rfl
  · simp only [boxEnv, demo_opts]
  · intro x _
    refine ⟨?_, fun v => ?_⟩
    · intro i j; simp [idM, eq_comm]
    · rw [idM_rmv, abs_of_nonneg (rdot_self_nonneg v), one_mul]
  · intro i; right; exact ⟨1, 3, rfl, rfl, by norm_num⟩
  · intro x hx i _
    have := boxEnv_inBox hx i
    rw [abs_le]; constructor <;> linarith
  · intro y _; have := rdot_self_nonneg y; positivity

/-- the starting point of a run in the box -/
example (x0 : Fin 2 → ℝ) (h : InBox boxEnv.lb boxEnv.ub x0) : ∃ st cur, LoopHead boxEnv (ofV x0) "0" (.val .none) (St.new boxEnv.opts none) 0 st cur :=
  returns_head_box boxEnv_returns x0 h "0" (.val .none) _ rfl

/-- the assumption about `eps` holds for `eps = 1/100` -/
example : nudgeError 2 1 3 margin ≤ (1 - 1 / 4) / 2 * boxPred (1 / 4) (1 / 4) 1 1 2 1 3 (19 / 20) (1 / 100) := by
  have h1 : scaledCurv 2 1 3 = 5 := by norm_num [scaledCurv]
  have h2 : cutFactor 2 1 3 (19 / 20) = 1 / 5 := by rw [cutFactor, h1]; norm_num
  unfold nudgeError boxPred boxFloor margin
  rw [h2]
  norm_num

end

end Fides
