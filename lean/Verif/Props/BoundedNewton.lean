import Verif.Props.BoundedReach
import Verif.Lemmas.NewtonBox
import Verif.Lemmas.ExactRoutines

/-!
# C67: convergence under bounds, two-dimensional (default) and full-space solver
-/

namespace Fides
open Num Spec
variable {n : ℕ} {E : Env Num n} {f : (Fin n → ℝ) → ℝ} {g : (Fin n → ℝ) → Fin n → ℝ} {mu eta g1 g2 D0 tm L W M M0 G fmin : ℝ}
  {x0 : Vec Num n} {startId : String} {hess0 : Hess0 Num} {st0 : St Num n}

/-! ## iterates are strictly inside -/

theorem head_nudged (k : ℕ) (st : St Num n) (cur : Funout Num n) (h : LoopHead E x0 startId hess0 st0 k st cur) :
    st.x = nudge E.lb E.ub x0 ∨ ∃ fo : Funout Num n, inBounds E.lb E.ub fo.x = true ∧ st.x = nudge E.lb E.ub fo.x := by
  induction k generalizing st cur with
  | zero =>
    have h1 := head_start st cur h
    rcases (headInv E x0 startId hess0 st0 0 st cur h).x with ⟨_, he⟩ | he | he
    · left; rw [he, h1]
    · left; rw [he, h1]
    · exact Or.inr ⟨cur, (headInv E x0 startId hess0 st0 0 st cur h).bounds, he⟩
  | succ k ih =>
    obtain ⟨prev, cur0, step, new, hh, hp⟩ := loopHead_pass E _ startId hess0 st0 k st cur h
    rcases (pass_facts E _ _ _ _ _ _ hp).cases with ⟨-, -, h1, h2, -⟩ | ⟨-, -, h2, -⟩
    · exact Or.inr ⟨new, h1, h2⟩
    · rw [h2]; exact ih prev cur0 hh

/-- every iterate is at least `margin` away from the bounds if there is room -/
theorem head_inside {r0 : Fin n → ℝ} (hx0 : InBox E.lb E.ub r0) (hF : FreeOrBetween (3 * margin) W E.lb E.ub) (k : ℕ) (st : St Num n)
    (cur : Funout Num n) (h : LoopHead E (ofV r0) startId hess0 st0 k st cur) (x : Fin n → ℝ) (hx : st.x = ofV x) (i : Fin n) :
    InBox1 (E.lb i) (E.ub i) (x i - margin) ∧ InBox1 (E.lb i) (E.ub i) (x i + margin) := by
  have key : ∀ r : Fin n → ℝ, InBox E.lb E.ub r → st.x = nudge E.lb E.ub (ofV r) →
      InBox1 (E.lb i) (E.ub i) (x i - margin) ∧ InBox1 (E.lb i) (E.ub i) (x i + margin) := by
    intro r hr hn
    obtain ⟨r', e1, e2, e3, e4, e5⟩ := nudge_spec E.lb E.ub r hr
    rw [hx, e1, ofV_inj] at hn
    subst hn
    refine e5 i ?_
    rcases hF i with ⟨h1, h2⟩ | ⟨l, u, h1, h2, h3, h4⟩
    · exact ⟨0, by rw [h1, h2]; exact ⟨by simp, by simp⟩, by rw [h1, h2]; exact ⟨by simp, by simp⟩⟩
    · have := margin_pos
      refine ⟨l, by rw [h1, h2]; constructor <;> simp; linarith, by rw [h1, h2]; constructor <;> simp <;> linarith⟩
  rcases head_nudged k st cur h with h1 | ⟨fo, h1, h2⟩
  · exact key r0 hx0 h1
  · obtain ⟨z, hz, hzb⟩ := inBounds_real_of _ _ _ h1
    rw [hz] at h2
    exact key z hzb h2

theorem boundDist_pos {lb ub : Vec Num n} {x h : Fin n → ℝ} {e : ℝ} (he : 0 < e) (i : Fin n)
    (hb : InBox1 (lb i) (ub i) (x i - e) ∧ InBox1 (lb i) (ub i) (x i + e)) : 0 < boundDist lb ub x h i := by
  obtain ⟨⟨h1, -⟩, -, h2⟩ := hb
  unfold boundDist
  split
  · split
    · rename_i u hu; rw [hu] at h2; simp at h2; linarith
    · norm_num
  · split
    · rename_i l hl; rw [hl] at h1; simp at h1; linarith
    · norm_num

/-! ## proposals -/

/-- the scaled Hessian is positive definite -/
theorem scaled_pd {lb ub : Vec Num n} {x d h dv : Fin n → ℝ} {B : Fin n → Fin n → ℝ} (hd : ∀ i, d i * d i = boundDist lb ub x h i)
    (hpos : ∀ i, 0 < boundDist lb ub x h i) (hdv : ∀ i, dv i = 0 ∨ dv i = 1 ∧ HasBound lb ub i) (hpd : PD B) :
    PD fun i j => d i * B i j * d j + if i = j then |h i| * dv i else 0 := by
  intro v hv
  rw [scaled_form]
  have h1 : 0 ≤ ∑ i, |h i| * dv i * (v i * v i) := by
    refine Finset.sum_nonneg fun i _ => ?_
    rcases hdv i with e | ⟨e, _⟩ <;> rw [e]
    · simp
    · rw [mul_one]; exact mul_nonneg (abs_nonneg _) (mul_self_nonneg _)
  have h2 : (fun i => d i * v i) ≠ 0 := by
    intro h0
    apply hv
    funext i
    have h3 := congrFun h0 i
    have h4 : d i ≠ 0 := by
      intro h5
      have := hpos i
      rw [← hd i, h5, mul_zero] at this
      exact lt_irrefl _ this
    simpa [h4] using h3
  have := hpd _ h2
  linarith

/-- the data of a proposal -/
theorem pd_data (hR : BoxRun E f g mu eta g1 g2 D0 tm L W M G fmin x0 startId hess0 st0) (hM0 : 0 < M0) (hMM : 2 * M0 + G / W ≤ M)
    (k : ℕ) (st : St Num n) (cur : Funout Num n) (hh : LoopHead E x0 startId hess0 st0 k st cur) (x h : Fin n → ℝ) (D : ℝ)
    (hx : st.x = ofV x) (hg : st.grad = ofV h) (hD : st.delta = fin D) (hin : ∀ i, 0 < boundDist E.lb E.ub x h i) (hpd : PDBoundedSym M0 st.hess) :
    ∃ (d dv : Fin n → ℝ) (B : Fin n → Fin n → ℝ) (th : ℝ),
      RealData (trInput E { st with iteration := st.iteration + 1, deltaIter := st.delta, ticks := st.ticks + 1 }) x d h dv B D th ∧
      tm ≤ th ∧ th ≤ 1 ∧ InBox E.lb E.ub x ∧ (∀ i, d i * d i = boundDist E.lb E.ub x h i) ∧ (∀ i, dv i = 0 ∨ dv i = 1 ∧ HasBound E.lb E.ub i) ∧
      (∀ v, |rdot v (rmv B v)| ≤ M * rdot v v) ∧ (PD fun i j => d i * B i j * d j + if i = j then |h i| * dv i else 0) ∧
      (∀ v, rdot v (rmv (fun i j => d i * B i j * d j + if i = j then |h i| * dv i else 0) v) ≤ scaledCurv W M0 G * rdot v v) ∧
      (∀ r : ℝ, 0 ≤ r → r * G ≤ 1 → InBox E.lb E.ub (x - r • fun i => d i * (d i * h i))) ∧
      rnorm (fun i => d i * h i) = scaledGrad E.lb E.ub x h := by
  obtain ⟨tm', h1, ht0, ht1⟩ := hR.params.theta
  have htm' : tm = tm' := by rw [hR.thetaMax, fin_inj] at h1; exact h1
  subst htm'
  clear h1
  obtain ⟨z, x', hz, hzb, hx', hxb, hfv, hgr, -, hxf⟩ := head_box hR.evaluates x0 startId hess0 st0 k st cur hh
  rw [hx, ofV_inj] at hx'
  rw [hg, ofV_inj] at hgr
  subst hx' hgr
  obtain ⟨B, hH, hS, hBpd, hBM⟩ := hpd
  have hW := hR.width k st cur x (g z) hh hx hg
  have hGz : ∀ i, HasBound E.lb E.ub i → |g z i| ≤ G := fun i hb => hR.gradient z hzb i hb
  have hB0 : ∀ v, 0 ≤ rdot v (rmv B v) := fun v => by
    by_cases hv : v = 0
    · rw [hv, zero_rdot]
    · exact (hBpd v hv).le
  have hBa : ∀ v, |rdot v (rmv B v)| ≤ M0 * rdot v v := fun v => by rw [abs_of_nonneg (hB0 v)]; exact hBM v
  obtain ⟨d, dv, th, hI, hth1, hth2, hd, hdv⟩ := box_data tm hR.thetaMax ht0 ht1
    { st with iteration := st.iteration + 1, deltaIter := st.delta, ticks := st.ticks + 1 } x (g z) B D hx hg hH hS hD hxb
  refine ⟨d, dv, B, th, hI, hth1, hth2, hxb, hd, hdv, fun v => ?_, scaled_pd hd hin hdv hBpd,
    fun v => (scaled_curv hd hW hdv hGz hR.G_pos.le hM0.le hBa v).1, scaled_room hxb hd hGz, scaledGrad_eq hd⟩
  have hGW : 0 < G / W := div_pos hR.G_pos hR.W_pos
  exact (hBa v).trans (mul_le_mul_of_nonneg_right (by linarith) (rdot_self_nonneg v))

/-- the proposals are good as long as the trial point is a real vector -/
theorem pd_boxProposes (hR : BoxRun E f g mu eta g1 g2 D0 tm L W M G fmin x0 startId hess0 st0) (O : ℕ → Oracles Num) (fuel : ℕ)
    (hO : ∀ k I, E.tr k I = trustRegion (O k) fuel E.opts.subspaceDim E.opts.stepbackStrat I) (hX : ∀ k, ExactRoutines (O k)) (hFin : ∀ k, FiniteOracles (O k))
    (hdim : E.opts.subspaceDim = .two ∨ E.opts.subspaceDim = .full) (hst : E.opts.stepbackStrat ≠ .truncate ∧ E.opts.stepbackStrat ≠ .mixed)
    (href : E.opts.stepbackStrat = .refine → ∀ k, RefinesInBall (O k)) (hM0 : 0 < M0) (hMM : 2 * M0 + G / W ≤ M) {eps : ℝ} (he : 0 < eps)
    (heps : 1 / 2 ^ 50 ≤ eps) (hprec : 1 / 2 ^ 25 ≤ eps / scaledCurv W M0 G)
    (k : ℕ) (prev : St Num n) (cur : Funout Num n)
    (hh : LoopHead E x0 startId hess0 st0 k prev cur) (hin : ∀ x h, prev.x = ofV x → ∀ i, 0 < boundDist E.lb E.ub x h i)
    (hpd : PDBoundedSym M0 prev.hess) (hreal : ¬ NonRealTrial E prev) : BoxProposes E W M G tm eps prev := by
  intro x h D step hx hg hD hDpos hNe hpr
  obtain ⟨d, dv, B, th, hI, hth1, hth2, hxb, hd, hdv, hBM, hBpd, hup, hroom, hN⟩ := pd_data hR hM0 hMM k prev cur hh x h D hx hg hD (hin x h hx) hpd
  obtain ⟨tm', h1, ht0, ht1⟩ := hR.params.theta
  have htm' : tm = tm' := by rw [hR.thetaMax, fin_inj] at h1; exact h1
  subst htm'
  clear h1
  rw [← hN] at hNe
  have hMh0 : 0 < scaledCurv W M0 G := by
    have := hR.W_pos; have := hR.G_pos; unfold scaledCurv; positivity
  have hMM' : 2 * scaledCurv W M0 G ≤ scaledCurv W M G := by
    have h1 := mul_le_mul_of_nonneg_left hMM hR.W_pos.le
    have h2 : W * (2 * M0 + G / W) = 2 * (W * M0) + G := by
      have := hR.W_pos.ne'
      field_simp
    unfold scaledCurv
    linarith
  obtain ⟨y, hy⟩ : ∃ y : Fin n → ℝ, vadd (vadd prev.x step.s) step.s0 = ofV y := by
    by_contra hcon
    push Not at hcon
    exact hreal ⟨step, hpr, hcon⟩
  rw [hO] at hpr
  obtain ⟨p, hss, hyb, hq, hdec, hlen⟩ := pd_proposal hI hDpos (ht0.trans_le hth1) hth2 hxb hMh0 hMM' hR.G_pos hBpd hup hroom
    (by refine le_trans ?_ hNe; norm_num at heps ⊢; exact heps)
    (by
      refine le_trans ?_ (div_le_div_of_nonneg_right hNe hMh0.le)
      norm_num at hprec ⊢; exact hprec)
    (O prev.proposals) (hX _) (hFin _) fuel hdim hst (fun hs => href hs _) step hpr y hy
  have hcf : 0 < cutFactor W M G tm := by
    have := hR.G_pos
    unfold cutFactor
    exact lt_min (one_div_pos.mpr (by linarith)) (by positivity)
  have hbb : eps * cutFactor W M G tm ≤ rnorm (fun i => d i * h i) * min (1 / scaledCurv W M G) (th / G) :=
    mul_le_mul hNe (min_le_min_left _ (div_le_div_of_nonneg_right hth1 hR.G_pos.le)) hcf.le (by linarith)
  refine ⟨d, dv, B, th, y, p, hI, hBM, hd, hdv, hss, hy, hyb, hq, ?_, ?_⟩
  · have h1 : eps / 2 * min D (eps * cutFactor W M G tm) ≤
        rnorm (fun i => d i * h i) / 2 * min D (rnorm (fun i => d i * h i) * min (1 / scaledCurv W M G) (th / G)) :=
      mul_le_mul (by linarith) (min_le_min_left _ hbb) (lt_min hDpos (mul_pos he hcf)).le (by linarith)
    linarith
  · rcases hlen with hl | ⟨hl1, hl2⟩
    · exact Or.inl hl
    · exact Or.inr ⟨by linarith, hbb.trans hl2⟩


/-- the step computation returns -/
theorem pd_returns_many {I : TRIn Num n} {x d sg : Fin n → ℝ} {B : Fin n → Fin n → ℝ} {delta theta : ℝ} (hP : RealProb I.prob x d sg B delta theta)
    (hn : 1 < n) (hS : Sym B) (hpd : PD B) (hdel : 0 < delta) (O : Oracles Num) (hX : ExactRoutines O) (fuel : ℕ)
    {dim : SubSpaceDim} (hdim : dim = .two ∨ dim = .full) {Mh : ℝ} (hM : 0 < Mh) (hup : ∀ v, rdot v (rmv B v) ≤ Mh * rdot v v)
    (hg : 1 / 1125899906842624 ≤ rnorm sg) (hprec : 1 / 33554432 ≤ rnorm sg / Mh)
    {strat : StepBackStrategy} (hst : strat ≠ .truncate ∧ strat ≠ .mixed) (href : strat = .refine → RefinesInBall O) :
    ∃ st, trustRegion O fuel dim strat I = .ok st := by
  obtain ⟨tr, p, htr, -⟩ := trStep_pd hP hn hS hpd hdel O hX fuel hdim hM hup hg hprec
  suffices h : ∃ tr rest, candidates O fuel I.prob dim strat = .ok (tr, rest) by
    obtain ⟨tr, rest, h⟩ := h
    rw [trustRegion, h]
    exact ⟨_, rfl⟩
  obtain ⟨gs, hgs⟩ := stepGradient_small O I.prob
  have hsb : ∃ l, stepbackCandidates O fuel I.prob strat tr = .ok l := by
    unfold stepbackCandidates
    cases strat with
    | singleReflect => obtain ⟨s, hs⟩ := stepReflected_small O I.prob tr; rw [hs]; exact ⟨_, rfl⟩
    | reflect => exact stepbackReflect_small O I.prob tr
    | truncate => exact absurd rfl hst.1
    | mixed => exact absurd rfl hst.2
    | refine =>
      simp only
      split
      · obtain ⟨cs, hcs, -⟩ := href rfl I.prob tr delta hdel hP.delta
        simp only [stepRefined, hcs]
        exact ⟨_, rfl⟩
      · exact ⟨_, rfl⟩
    | other => exact ⟨_, rfl⟩
  obtain ⟨l, hl⟩ := hsb
  rw [candidates, htr]
  simp only
  split
  · rw [hgs]; simp only [hl]; exact ⟨_, _, rfl⟩
  · exact ⟨_, _, rfl⟩

/-- the step computation returns -/
theorem pd_returns {I : TRIn Num n} {x d sg : Fin n → ℝ} {B : Fin n → Fin n → ℝ} {delta theta : ℝ} (hP : RealProb I.prob x d sg B delta theta)
    (hS : Sym B) (hpd : PD B) (hdel : 0 < delta) (O : Oracles Num) (hX : ExactRoutines O) (fuel : ℕ)
    {dim : SubSpaceDim} (hdim : dim = .two ∨ dim = .full) {Mh : ℝ} (hM : 0 < Mh) (hup : ∀ v, rdot v (rmv B v) ≤ Mh * rdot v v)
    (hg : 1 / 1125899906842624 ≤ rnorm sg) (hprec : 1 / 33554432 ≤ rnorm sg / Mh)
    {strat : StepBackStrategy} (hst : strat ≠ .truncate ∧ strat ≠ .mixed) (href : strat = .refine → RefinesInBall O) :
    ∃ st, trustRegion O fuel dim strat I = .ok st := by
  rcases Nat.lt_or_ge 1 n with hn | hn
  · exact pd_returns_many hP hn hS hpd hdel O hX fuel hdim hM hup hg hprec hst href
  have hsg0 : sg ≠ 0 := by
    intro h0; rw [h0, rnorm_eq_zero.mpr rfl] at hg; norm_num at hg
  obtain rfl | rfl : n = 0 ∨ n = 1 := by omega
  · exact absurd (Subsingleton.elim _ _) hsg0
  obtain ⟨tr, htr, -⟩ := one_pd hP hS hpd hdel hsg0 O hX fuel hdim
  refine ⟨tr, ?_⟩
  rw [trustRegion, candidates, htr]
  simp only [lt_irrefl, decide_false, Bool.and_false, Bool.false_eq_true, if_false]
  rfl

/-- `refine` proposes real points -/
theorem refine_real (hR : BoxRun E f g mu eta g1 g2 D0 tm L W M G fmin x0 startId hess0 st0) {O : ℕ → Oracles Num} {fuel : ℕ} (hN : NewtonSolver E O fuel)
    (hn : 1 < n) (hs : E.opts.stepbackStrat = .refine) (k : ℕ) (st : St Num n) (cur : Funout Num n) (hh : LoopHead E x0 startId hess0 st0 k st cur)
    (D : ℝ) (hD : st.delta = fin D) (hDpos : 0 < D) : ¬ NonRealTrial E st := by
  rintro ⟨step, hstep, hy⟩
  obtain ⟨tm', h1, ht0, ht1⟩ := hR.params.theta
  have htm' : tm = tm' := by rw [hR.thetaMax, fin_inj] at h1; exact h1
  subst htm'
  clear h1
  obtain ⟨z, x, hz, hzb, hx, hxb, hfv, hgr, -⟩ := head_box hR.evaluates x0 startId hess0 st0 k st cur hh
  obtain ⟨B, hH, hS, hBM⟩ := hR.hessian k st cur hh
  obtain ⟨d, dv, th, hI, hth1, hth2, hd, hdv⟩ := box_data tm hR.thetaMax ht0 ht1
    { st with iteration := st.iteration + 1, deltaIter := st.delta, ticks := st.ticks + 1 } x (g z) B D hx hgr hH hS hD hxb
  rw [hN.uses, hs] at hstep
  obtain ⟨p, hp⟩ := C52_finite_partial hI hn (ht0.trans_le hth1) hth2 hxb hDpos _ (hN.finite _) fuel E.opts.subspaceDim .refine
    (by rcases hN.solver with h | h <;> rw [h] <;> intro h' <;> cases h') (Or.inl rfl) step hstep
  refine hy (x + p) ?_
  funext i
  have h1 := congrFun hp i
  simp only [vadd, ofV_apply] at h1
  obtain ⟨a, b, h2, h3, h4⟩ := add_fin_iff _ _ _ h1
  simp only [vadd, hx, ofV_apply, h2, h3, fin_add, Pi.add_apply, h4, fin_inj]
  ring

/-- in one variable every proposal is real -/
theorem newton_real_one (hR : BoxRun E f g mu eta g1 g2 D0 tm L W M G fmin x0 startId hess0 st0) {O : ℕ → Oracles Num} {fuel : ℕ} (hN : NewtonSolver E O fuel)
    (hn : n ≤ 1) (hM0 : 0 < M0) (hMM : 2 * M0 + G / W ≤ M) {eps : ℝ} (he : 0 < eps) (k : ℕ) (prev : St Num n) (cur : Funout Num n)
    (hh : LoopHead E x0 startId hess0 st0 k prev cur) (x h : Fin n → ℝ) (D : ℝ) (hx : prev.x = ofV x) (hg : prev.grad = ofV h) (hD : prev.delta = fin D)
    (hDpos : 0 < D) (hin : ∀ i, 0 < boundDist E.lb E.ub x h i) (hpd : PDBoundedSym M0 prev.hess) (hNe : eps ≤ scaledGrad E.lb E.ub x h) :
    ¬ NonRealTrial E prev := by
  rintro ⟨step, hpr, hcon⟩
  obtain ⟨d, dv, B, th, hI, hth1, hth2, hxb, hd, hdv, hBM, hBpd, hup, hroom, hN'⟩ := pd_data hR hM0 hMM k prev cur hh x h D hx hg hD hin hpd
  obtain ⟨tm', h1, ht0, ht1⟩ := hR.params.theta
  have htm' : tm = tm' := by rw [hR.thetaMax, fin_inj] at h1; exact h1
  subst htm'
  rw [← hN'] at hNe
  have hsg : (fun i => d i * h i) ≠ 0 := by
    intro h0; rw [h0, rnorm_eq_zero.mpr rfl] at hNe; linarith
  obtain rfl | rfl : n = 0 ∨ n = 1 := by omega
  · exact hcon 0 (Subsingleton.elim _ _)
  rw [hN.uses] at hpr
  have hP := RealData.prob hI (ht0.trans_le hth1) hth2 hxb
  obtain ⟨st', h2, h3⟩ := one_pd hP (sym_scaled _ _ hI.sym) hBpd hDpos hsg (O prev.proposals) (hN.exact _) fuel hN.solver
  rw [one_candidate _ _ _ _ _ hpr] at h2
  cases h2
  obtain ⟨y, hy⟩ := one_real hP h3
  exact hcon y hy

/-- the proposals are good -/
theorem newton_boxProposes (hR : BoxRun E f g mu eta g1 g2 D0 tm L W M G fmin x0 startId hess0 st0) {O : ℕ → Oracles Num} {fuel : ℕ} (hN : NewtonSolver E O fuel)
    (hM0 : 0 < M0) (hMM : 2 * M0 + G / W ≤ M) {eps : ℝ} (he : 0 < eps)
    (heps : 1 / 2 ^ 50 ≤ eps) (hprec : 1 / 2 ^ 25 ≤ eps / scaledCurv W M0 G) (k : ℕ) (prev : St Num n) (cur : Funout Num n)
    (hh : LoopHead E x0 startId hess0 st0 k prev cur) (hin : ∀ x h, prev.x = ofV x → ∀ i, 0 < boundDist E.lb E.ub x h i)
    (hpd : PDBoundedSym M0 prev.hess) (hreal : ¬ (E.opts.stepbackStrat ≠ .refine ∧ 1 < n ∧ NonRealTrial E prev)) : BoxProposes E W M G tm eps prev := by
  intro x h D step hx hg hD hDpos hNe hpr
  have hr : ¬ NonRealTrial E prev := by
    by_cases hs : E.opts.stepbackStrat = .refine
    · rcases Nat.lt_or_ge 1 n with hn | hn
      · exact refine_real hR hN hn hs k prev cur hh D hD hDpos
      · exact newton_real_one hR hN hn hM0 hMM he k prev cur hh x h D hx hg hD hDpos (hin x h hx) hpd hNe
    · rcases Nat.lt_or_ge 1 n with hn | hn
      · exact fun h => hreal ⟨hs, hn, h⟩
      · exact newton_real_one hR hN hn hM0 hMM he k prev cur hh x h D hx hg hD hDpos (hin x h hx) hpd hNe
  exact pd_boxProposes hR O fuel hN.uses hN.exact hN.finite hN.solver hN.strategy hN.refine hM0 hMM he heps hprec k prev cur hh hin hpd hr x h D step hx hg hD hDpos hNe hpr

/-- **C67, for runs.** A run in the box as in C65, with the two-dimensional or the full-space solver, whose model Hessians are positive definite and bounded by `M0`,
and whose iterates are off the bounds: among its first `boxBound` iterations there is one where the measure is below `eps` (or, except with `refine`, one that
proposes a point with an entry that is not a number). -/
theorem C67_visits (hR : BoxRun E f g mu eta g1 g2 D0 tm L W M G fmin x0 startId hess0 st0) (O : ℕ → Oracles Num) (fuel : ℕ) (hN : NewtonSolver E O fuel)
    (hM0 : 0 < M0) (hMM : 2 * M0 + G / W ≤ M) (eps : ℝ) (heps : 1 / 2 ^ 50 ≤ eps) (hprec : 1 / 2 ^ 25 ≤ eps / scaledCurv W M0 G)
    (hpd : ∀ j st cur, LoopHead E x0 startId hess0 st0 j st cur → PDBoundedSym M0 st.hess)
    (hin : ∀ j st cur x, LoopHead E x0 startId hess0 st0 j st cur → st.x = ofV x → ∀ h i, 0 < boundDist E.lb E.ub x h i)
    (hsmall : nudgeError n L G margin ≤ (1 - mu) / 2 * boxPred mu g1 D0 L W M G tm eps) (gap : ℝ)
    (hgap : ∀ st cur z, LoopHead E x0 startId hess0 st0 0 st cur → cur.x = ofV z → f z - fmin ≤ gap)
    (k : ℕ) (st : St Num n) (cur : Funout Num n) (h : LoopHead E x0 startId hess0 st0 k st cur)
    (hk : boxBound mu g1 g2 D0 L W M G tm gap eps ≤ k) :
    ∃ j < boxBound mu g1 g2 D0 L W M G tm gap eps, ∃ st' cur', LoopHead E x0 startId hess0 st0 j st' cur' ∧
      ((∃ x' h', st'.x = ofV x' ∧ st'.grad = ofV h' ∧ scaledGrad E.lb E.ub x' h' < eps) ∨
        (E.opts.stepbackStrat ≠ .refine ∧ 1 < n ∧ NonRealTrial E st')) := by
  have he : 0 < eps := lt_of_lt_of_le (by positivity) heps
  by_cases hreal : ∃ j < boxBound mu g1 g2 D0 L W M G tm gap eps, ∃ st' cur', LoopHead E x0 startId hess0 st0 j st' cur' ∧
      (E.opts.stepbackStrat ≠ .refine ∧ 1 < n ∧ NonRealTrial E st')
  · obtain ⟨j, hj, st', cur', hh, hr⟩ := hreal
    exact ⟨j, hj, st', cur', hh, Or.inr hr⟩
  suffices hmove : ∀ j st cur x z, LoopHead E x0 startId hess0 st0 j st cur → st.x = ofV x → cur.x = ofV z → ∀ i, |x i - z i| ≤ margin by
    obtain ⟨j, hj, st', cur', x', h', hh, h1, h2, h3⟩ := box_visits hR he margin margin_pos.le hmove hsmall gap hgap k st cur h hk
      (fun j hj st' cur' hh => newton_boxProposes hR hN hM0 hMM he heps hprec j st' cur' hh (fun x h hx => hin j st' cur' x hh hx h) (hpd j st' cur' hh)
        (fun hr => hreal ⟨j, hj, st', cur', hh, hr⟩))
    exact ⟨j, hj, st', cur', hh, Or.inl ⟨x', h', h1, h2, h3⟩⟩
  intro j st cur x z hh hx hz i
  obtain ⟨z', x', e1, -, e2, -, -, -, e3, -⟩ := head_box hR.evaluates x0 startId hess0 st0 j st cur hh
  rw [hz, ofV_inj] at e1
  rw [hx, ofV_inj] at e2
  subst e1 e2
  exact e3 i

theorem between_width {w : ℝ} {lb ub : Vec Num n} (h : FreeOrBetween w W lb ub) : FreeOrWidth W lb ub := by
  intro i
  rcases h i with h1 | ⟨l, u, h1, h2, -, h3⟩
  · exact Or.inl h1
  · exact Or.inr ⟨l, u, h1, h2, h3⟩

/-- bounds of positive definite Hessians, as `problem_boxRun` expects them -/
theorem pd_abs {B : Fin n → Fin n → ℝ} (hpd : PD B) (hup : ∀ v, rdot v (rmv B v) ≤ M0 * rdot v v) (h : M0 ≤ M) (v : Fin n → ℝ) :
    |rdot v (rmv B v)| ≤ M * rdot v v := by
  have h0 : 0 ≤ rdot v (rmv B v) := by
    by_cases hv : v = 0
    · rw [hv, zero_rdot]
    · exact (hpd v hv).le
  rw [abs_of_nonneg h0]
  exact (hup v).trans (mul_le_mul_of_nonneg_right h (rdot_self_nonneg v))

/-- **C67.** Two-dimensional (default) or full-space solver with exact routines, step-back strategy `reflect` (default), `reflect_single` or `refine`, and an objective that
returns its value, gradient and Hessian; the assumptions are on the problem only: in the box, `g` is the Lipschitz continuous gradient of `f`,
`f` is bounded below, the returned Hessians are symmetric, positive definite and bounded, the gradient is bounded in coordinates with bounds,
and each coordinate is free or has two bounds that are not too close to each other.  Every normal return after at least `boxBound` iterations comes from a run that evaluated the
objective at some `z` in the box and iterated from a point `x` of the box within `margin` of it, where the measure was below `eps` (or, except with `refine`,
that called the objective with an argument that is not a vector of numbers, which takes two or more variables). -/
theorem C67_problem (hE : TRParams E mu eta g1 g2 D0) (htm : E.opts.thetaMax = fin tm) (O : ℕ → Oracles Num) (fuel : ℕ) (hN : NewtonSolver E O fuel)
    (H : (Fin n → ℝ) → Fin n → Fin n → ℝ)
    (hR : Returns E f g H) (hL0 : 0 ≤ L) (hM0 : 0 < M0) (hMM : 2 * M0 + G / W ≤ M) (hW : 1 ≤ W) (hG : 0 < G) (hL : SmoothOn L E.lb E.ub f g)
    (hH : ∀ x, InBox E.lb E.ub x → Sym (H x) ∧ PD (H x) ∧ ∀ v, rdot v (rmv (H x) v) ≤ M0 * rdot v v) (hF : FreeOrBetween (3 * margin) W E.lb E.ub)
    (hGb : GradBound G E.lb E.ub g) (hmin : ∀ y, InBox E.lb E.ub y → fmin ≤ f y) (happ : st0.happ = none)
    (r0 : Fin n → ℝ) (hx0 : InBox E.lb E.ub r0) (gap : ℝ)
    (hgap : ∀ z, nudge E.lb E.ub (ofV r0) = ofV z → f z - fmin ≤ gap) (eps : ℝ)
    (heps : 1 / 2 ^ 50 ≤ eps) (hprec : 1 / 2 ^ 25 ≤ eps / scaledCurv W M0 G)
    (hsmall : nudgeError n L G margin ≤ (1 - mu) / 2 * boxPred mu g1 D0 L W M G tm eps)
    (loops : ℕ) (st' : St Num n) (h : minimize E loops (ofV r0) startId hess0 st0 = .ok st')
    (hk : boxBound mu g1 g2 D0 L W M G tm gap eps ≤ st'.iteration) :
    NearOptimal E g eps st' ∨ (E.opts.stepbackStrat ≠ .refine ∧ 1 < n ∧ ∃ r ∈ st'.evals, ∀ y : Fin n → ℝ, r.arg ≠ ofV y) := by
  have hGW : 0 < G / W := div_pos hG (by linarith)
  have hB : BoxRun E f g mu eta g1 g2 D0 tm L W M G fmin (ofV r0) startId hess0 st0 := problem_boxRun hE htm H hR hL0 (by linarith) hW hG hL
    (fun x hx => ⟨(hH x hx).1, pd_abs (hH x hx).2.1 (hH x hx).2.2 (by linarith)⟩) (between_width hF) hGb hmin happ
  obtain ⟨k, st1, cur, ef, t, fl, -, hh, rfl⟩ := run_end_fields E _ startId hess0 st0 loops st' h
  have hi := headInv E _ startId hess0 st0 k st1 cur hh
  have hk' : boxBound mu g1 g2 D0 L W M G tm gap eps ≤ k := by rw [← hi.iteration]; exact hk
  obtain ⟨j, hj, st2, cur2, hh2, ⟨x', h', hx2, hg2, hm⟩ | ⟨hs, hn1, hnr⟩⟩ := C67_visits hB O fuel hN hM0 hMM eps heps hprec
    (fun j st cur hh => by
      obtain ⟨z, hz, hzH⟩ := returned_hess_box hR happ j st cur hh
      exact ⟨H z, hzH, hH z hz⟩)
    (fun j st cur x hh hx h i => boundDist_pos margin_pos i (head_inside hx0 hF j st cur hh x hx i)) hsmall gap
    (fun st cur z h0 hz => hgap z (by rw [← head_start st cur h0, hz])) k st1 cur hh hk'
  · left
    obtain ⟨z, x, e1, e2, e3, e4, -, e5, e6, -⟩ := head_box (returns_evaluatesOn hR) _ startId hess0 st0 j st2 cur2 hh2
    rw [hx2, ofV_inj] at e3
    rw [hg2, ofV_inj] at e5
    subst e3 e5
    obtain ⟨m, rfl⟩ : ∃ m, k = j + m := ⟨k - j, by omega⟩
    have := head_recorded j st2 cur2 hh2 m st1 cur hh
    rw [e1] at this
    exact ⟨z, x', cur2, this, e2, e4, e6, hm⟩
  · right
    exact ⟨hs, hn1, nonReal_evaluated j st2 cur2 hh2 hnr k (by omega) st1 cur hh⟩

/-- **C67, total correctness.** Problem and options as in `C67_problem`; the function, step and relative gradient tolerances are switched off (set to 0), the
absolute gradient tolerance is below `eps / √W`, the limits on iterations and time allow for `boxBound` iterations, and the guaranteed radius is not below
the machine precision.  Then the run raises no exception and does not end before it has evaluated the objective at a point of the box with a point of
the box within `margin` where the measure is below `eps` (or, except with `refine`, makes an iteration that proposes a point with an entry that is not a number), and this happens
within `boxBound` iterations. -/
theorem C67_reaches (hE : TRParams E mu eta g1 g2 D0) (htm : E.opts.thetaMax = fin tm) (O : ℕ → Oracles Num) (fuel : ℕ) (hN : NewtonSolver E O fuel)
    (H : (Fin n → ℝ) → Fin n → Fin n → ℝ)
    (hR : Returns E f g H) (hL0 : 0 ≤ L) (hM0 : 0 < M0) (hMM : 2 * M0 + G / W ≤ M) (hW : 1 ≤ W) (hG : 0 < G) (hL : SmoothOn L E.lb E.ub f g)
    (hH : ∀ x, InBox E.lb E.ub x → Sym (H x) ∧ PD (H x) ∧ ∀ v, rdot v (rmv (H x) v) ≤ M0 * rdot v v) (hF : FreeOrBetween (3 * margin) W E.lb E.ub)
    (hGb : GradBound G E.lb E.ub g) (hmin : ∀ y, InBox E.lb E.ub y → fmin ≤ f y) (happ : st0.happ = none)
    (r0 : Fin n → ℝ) (hx0 : InBox E.lb E.ub r0) (gap : ℝ)
    (hgap : ∀ z, nudge E.lb E.ub (ofV r0) = ofV z → f z - fmin ≤ gap) (eps : ℝ)
    (heps : 1 / 2 ^ 50 ≤ eps) (hprec : 1 / 2 ^ 25 ≤ eps / scaledCurv W M0 G)
    (hsmall : nudgeError n L G margin ≤ (1 - mu) / 2 * boxPred mu g1 D0 L W M G tm eps)
    (hfa : E.opts.fatol = fin 0) (hfr : E.opts.frtol = fin 0) (hxt : E.opts.xtol = fin 0) (hgr : E.opts.grtol = fin 0)
    (ga : ℝ) (hga : E.opts.gatol = fin ga) (hgae : Real.sqrt W * ga < eps)
    (hiter : (boxBound mu g1 g2 D0 L W M G tm gap eps : ℤ) ≤ E.opts.maxiter) (htime : E.opts.maxtime = pinf)
    (hclock : ∀ k, ∃ t : ℝ, E.clock k = fin t) (hfloor : 1 / 4503599627370496 ≤ boxFloor mu g1 D0 L W M G tm eps)
    (hevs : ∀ m, ∃ r, E.evs m = .ok r) (hcond : ∀ m, ∃ r, E.cond m = .ok r) :
    ∃ k ≤ boxBound mu g1 g2 D0 L W M G tm gap eps, ∃ st cur, LoopHead E (ofV r0) startId hess0 st0 k st cur ∧
      (NearOptimal E g eps st ∨ ((E.opts.stepbackStrat ≠ .refine ∧ 1 < n ∧ NonRealTrial E st) ∧ (checkContinue E st).1 = true)) := by
  have he : 0 < eps := lt_of_lt_of_le (by positivity) heps
  have hGW : 0 < G / W := div_pos hG (by linarith)
  have hB : BoxRun E f g mu eta g1 g2 D0 tm L W M G fmin (ofV r0) startId hess0 st0 := problem_boxRun hE htm H hR hL0 (by linarith) hW hG hL
    (fun x hx => ⟨(hH x hx).1, pd_abs (hH x hx).2.1 (hH x hx).2.2 (by linarith)⟩) (between_width hF) hGb hmin happ
  have hpd : ∀ j st cur, LoopHead E (ofV r0) startId hess0 st0 j st cur → PDBoundedSym M0 st.hess := fun j st cur hh => by
    obtain ⟨z, hz, hzH⟩ := returned_hess_box hR happ j st cur hh
    exact ⟨H z, hzH, hH z hz⟩
  have hin : ∀ j st cur x, LoopHead E (ofV r0) startId hess0 st0 j st cur → st.x = ofV x → ∀ h i, 0 < boundDist E.lb E.ub x h i :=
    fun j st cur x hh hx h i => boundDist_pos margin_pos i (head_inside hx0 hF j st cur hh x hx i)
  have hMh0 : 0 < scaledCurv W M0 G := by
    unfold scaledCurv
    have : 0 < W := by linarith
    positivity
  refine box_reach (fun st => E.opts.stepbackStrat ≠ .refine ∧ 1 < n ∧ NonRealTrial E st) H hR r0 hB hW (between_width hF) happ hx0 gap hgap eps he hsmall hfa hfr hxt hgr ga hga hgae
    hiter htime hclock hfloor hevs hcond (fun k st cur x h D hh hx hg hD hDp hNe => ?_)
    (fun k st cur hh hr => newton_boxProposes hB hN hM0 hMM he heps hprec k st cur hh (fun x h hx => hin k st cur x hh hx h) (hpd k st cur hh) hr)
  obtain ⟨tm', h1, ht0, ht1⟩ := hB.params.theta
  have htm' : tm = tm' := by rw [hB.thetaMax, fin_inj] at h1; exact h1
  subst htm'
  clear h1
  obtain ⟨d, dv, B, th, hI, hth1, hth2, hxb, -, -, -, hBpd, hup, -, hNn⟩ := pd_data hB hM0 hMM k st cur hh x h D hx hg hD (hin k st cur x hh hx h) (hpd k st cur hh)
  rw [← hNn] at hNe
  obtain ⟨step, hstep⟩ := pd_returns (RealData.prob hI (ht0.trans_le hth1) hth2 hxb) (sym_scaled _ _ hI.sym) hBpd hDp (O st.proposals) (hN.exact _) fuel hN.solver hMh0 hup
    (by refine le_trans ?_ hNe; norm_num at heps ⊢; exact heps)
    (by
      refine le_trans ?_ (div_le_div_of_nonneg_right hNe hMh0.le)
      norm_num at hprec ⊢; exact hprec) hN.strategy (fun hs => hN.refine hs _)
  exact ⟨step, by rw [hN.uses]; exact hstep⟩

/-! ## A problem that meets the assumptions -/

theorem exactRoutines_finite : FiniteOracles exactRoutines where
  eig B v U h := exact_finite.eig B v U h
  newton f x f' r h := exact_finite.newton f x f' r h
  brentq f a b m r h := exact_finite.brentq f a b m r h
  lstsq B g v h := by
    simp only [exactRoutines] at h
    split at h
    · cases h; exact ⟨_, rfl⟩
    · cases h
  npEig B re ab V h := exact_finite.npEig B re ab V h
  refine P st sc h := exact_finite.refine P st sc h

theorem exactRoutines_refine : RefinesInBall exactRoutines := by
  intro k P st D hD hP
  refine ⟨[], rfl, fun p hp => ?_⟩
  have : p = 0 := by
    rw [← ofV_inj, ← hp]
    funext i
    simp [subDot]
    rfl
  rw [this, rnorm_eq_zero.mpr rfl]
  exact hD.le

noncomputable section

/-- half the squared distance to the origin in the box `[1, 3]²`, default solver, gradient tolerance only -/
def newtonEnv (strat : StepBackStrategy) (N : ℕ) : Env Num 2 :=
  { boxEnv with
    tr := fun _ I => trustRegion exactRoutines 2 .two strat I
    opts := { (resolveOpts [] : Opts Num) with stepbackStrat := strat, fatol := fin 0, frtol := fin 0, maxiter := N } }

theorem newtonEnv_params (strat : StepBackStrategy) (N : ℕ) : TRParams (newtonEnv strat N) (1 / 4) (3 / 4) (1 / 4) 2 1 := by
  constructor <;> try (simp only [newtonEnv, demo_opts])
  all_goals norm_num

theorem newtonEnv_returns (strat : StepBackStrategy) (N : ℕ) : Returns (newtonEnv strat N) (fun x => 1 / 2 * rdot x x) (fun x => x) (fun _ => idM) where
  nargout := rfl
  resfun := rfl
  obj k x := boxEnv_returns.obj k x

theorem newtonEnv_solver (strat : StepBackStrategy) (hs : strat = .reflect ∨ strat = .refine) (N : ℕ) :
    NewtonSolver (newtonEnv strat N) (fun _ => exactRoutines) 2 where
  uses k I := by
    have : (newtonEnv strat N).opts.subspaceDim = .two := by simp only [newtonEnv, demo_opts]
    rw [this]; rfl
  exact _ := exactRoutines_ok
  finite _ := exactRoutines_finite
  solver := Or.inl (by simp only [newtonEnv, demo_opts])
  strategy := by rcases hs with rfl | rfl <;> constructor <;> (intro h; cases h)
  refine _ _ := exactRoutines_refine

/-- the constructor of the optimizer accepts these options -/
theorem newtonEnv_accepted (N : ℕ) : ∃ options, optimizerInit (none : Option (Happ Num 2)) false options = .ok () ∧ (resolveOpts options : Opts Num) = (newtonEnv .refine N).opts := by
  set options : List (RawKey × RawVal) := [(.str "stepback_strategy", .str "refine"), (.str "fatol", .real 0), (.str "frtol", .real 0), (.str "maxiter", .int N)] with ho
  have hk : ∀ k : OptKey, getOption options k =
      if k = .stepbackStrat then .str "refine" else if k = .fatol ∨ k = .frtol then .real 0 else if k = .maxiter then .int N else defaultOption k := by
    intro k
    cases k <;> first | rfl | (simp; rfl)
  have h : validateOptions options = .ok () := by
    rw [C45_exact]
    intro kv hkv
    simp only [ho, List.mem_cons, List.not_mem_nil, or_false] at hkv
    rcases hkv with rfl | rfl | rfl | rfl
    · exact ⟨.stepbackStrat, rfl, Or.inr ⟨rfl, Or.inr rfl, Or.inl ⟨_, rfl⟩⟩⟩
    · refine ⟨.fatol, rfl, ?_⟩
      simp [Documented]
    · refine ⟨.frtol, rfl, ?_⟩
      simp [Documented]
    · refine ⟨.maxiter, rfl, ?_⟩
      simp [Documented]
  refine ⟨options, ?_, ?_⟩
  · unfold optimizerInit optimizerInit.rest
    rw [h]
    simp [hk, defaultOption, RawVal.toStepback, RawVal.toSubspace]
  · show _ = ({ (resolveOpts [] : Opts Num) with stepbackStrat := .refine, fatol := fin 0, frtol := fin 0, maxiter := N } : Opts Num)
    rw [demo_opts]
    simp [resolveOpts, hk, defaultOption, RawVal.toF, RawVal.toInt, RawVal.toSubspace, RawVal.toStepback, RawVal.truthy, StepBackStrategy.ofString]

/-- every assumption of `C67_reaches` holds for this problem, for `eps = 1/100`, from every starting point in the box, with the strategies `reflect` and
`refine`; with `refine` the run comes within the tolerance unconditionally -/
example (strat : StepBackStrategy) (hs : strat = .reflect ∨ strat = .refine) (r0 : Fin 2 → ℝ) (h0 : InBox boxEnv.lb boxEnv.ub r0) :
    let N := boxBound (1 / 4) (1 / 4) 2 1 1 2 4 3 (19 / 20) 9 (1 / 100)
    ∃ k ≤ N, ∃ st cur, LoopHead (newtonEnv strat N) (ofV r0) "0" (.val .none) (St.new (newtonEnv strat N).opts none) k st cur ∧
      (NearOptimal (newtonEnv strat N) (fun x => x) (1 / 100) st ∨
        (((newtonEnv strat N).opts.stepbackStrat ≠ .refine ∧ 1 < 2 ∧ NonRealTrial (newtonEnv strat N) st) ∧ (checkContinue (newtonEnv strat N) st).1 = true)) := by
  intro N
  have h1 : scaledCurv 2 4 3 = 11 := by norm_num [scaledCurv]
  have h2 : cutFactor 2 4 3 (19 / 20) = 1 / 11 := by rw [cutFactor, h1]; norm_num
  refine C67_reaches (fmin := 0) (M0 := 1) (newtonEnv_params strat N) ?_ (fun _ => exactRoutines) 2 (newtonEnv_solver strat hs N) (fun _ => idM)
    (newtonEnv_returns strat N) (by norm_num) (by norm_num) (by norm_num) (by norm_num) (by norm_num) ((bowl_smooth 2).on _ _) ?_ ?_ ?_ ?_ rfl r0 h0 9 ?_ (1 / 100) (by norm_num)
    (by norm_num [scaledCurv]) ?_ rfl rfl ?_ ?_ (1 / 1000000) ?_ ?_ ?_ ?_ ?_ ?_ (fun _ => ⟨_, rfl⟩) (fun _ => ⟨_, rfl⟩)
  · simp only [newtonEnv, demo_opts]
  · intro x _
    refine ⟨?_, ?_, fun v => ?_⟩
    · intro i j; simp [idM, eq_comm]
    · intro v hv
      rw [idM_rmv]
      exact rdot_self_pos hv
    · rw [idM_rmv, one_mul]
  · intro i; right; exact ⟨1, 3, rfl, rfl, by norm_num [margin], by norm_num⟩
  · intro x hx i _
    have := boxEnv_inBox hx i
    rw [abs_le]; constructor <;> linarith
  · intro y _; have := rdot_self_nonneg y; positivity
  · intro z hz
    obtain ⟨r', e1, e2, -⟩ := nudge_spec boxEnv.lb boxEnv.ub r0 h0
    have hz' : nudge boxEnv.lb boxEnv.ub (ofV r0) = ofV z := hz
    rw [e1, ofV_inj] at hz'
    subst hz'
    have a := boxEnv_inBox e2 0
    have b := boxEnv_inBox e2 1
    have : rdot r' r' = r' 0 * r' 0 + r' 1 * r' 1 := by simp [rdot, Fin.sum_univ_two]
    rw [this]
    nlinarith
  · unfold nudgeError boxPred boxFloor margin
    rw [h2]
    norm_num
  · simp only [newtonEnv, demo_opts]
  · simp only [newtonEnv, demo_opts]
  · simp only [newtonEnv, demo_opts]
  · have : Real.sqrt 2 ≤ 2 := by rw [Real.sqrt_le_left (by norm_num)]; norm_num
    linarith
  · simp only [newtonEnv, demo_opts]; exact le_rfl
  · simp only [newtonEnv, demo_opts]
  · intro k; exact ⟨0, rfl⟩
  · unfold boxFloor
    rw [h2]
    norm_num

end

end Fides
