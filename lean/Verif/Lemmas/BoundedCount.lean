import Verif.Lemmas.BoundedProgress

/-! Helper lemmas: counting the passes of a run on a bounded smooth problem. -/

namespace Fides
open Num Spec
variable {n : ℕ} {E : Env Num n} {f : (Fin n → ℝ) → ℝ} {g : (Fin n → ℝ) → Fin n → ℝ} {mu eta g1 g2 D0 tm L W M G fmin : ℝ}
  {x0 : Vec Num n} {startId : String} {hess0 : Hess0 Num} {st0 : St Num n}

/-- a step after which the radius shrinks is long (model error only known for short steps) -/
theorem shrink_long_or {a b b' C c : ℝ} (h : CountConst mu a b b' C c) (hmu : mu < 1) {D l pred act : ℝ} (hl0 : 0 ≤ l) (hD : 0 < D)
    (hpred : a * min D b ≤ pred) (hlen : (l ≤ D ∧ pred - act ≤ C * (l * l)) ∨ b' ≤ min D l) (hfail : act ≤ mu * pred) : c ≤ l ∧ c ≤ D := by
  rcases hlen with ⟨h1, h2⟩ | h1
  · exact shrink_long h hmu hl0 hD hpred (Or.inl h1) h2 hfail
  · rw [h.c_def]
    exact ⟨(min_le_left _ _).trans (h1.trans (min_le_right _ _)), (min_le_left _ _).trans (h1.trans (min_le_left _ _))⟩

theorem boxConst (hL : 0 ≤ L) (hM : 0 < M) (hW : 0 < W) (hG : 0 < G) (htm : 0 < tm) (hmu : mu < 1) {eps : ℝ} (he : 0 < eps) :
    CountConst mu (eps / 2) (eps * cutFactor W M G tm) (eps * cutFactor W M G tm / 3) (2 * (W * (L + M / 2) + G / 2))
      (min (eps * cutFactor W M G tm / 3) ((1 - mu) * (eps / 2) / (2 * (W * (L + M / 2) + G / 2)))) := by
  have hc : 0 < cutFactor W M G tm := by
    unfold cutFactor scaledCurv
    exact lt_min (by positivity) (by positivity)
  refine ⟨by positivity, by positivity, by positivity, by positivity, ?_⟩
  rw [← min_assoc, min_eq_left (a := eps * cutFactor W M G tm / 3) (b := eps * cutFactor W M G tm) (by have := mul_pos he hc; linarith)]

/-- after `k` passes: `S` of them reduced the objective by at least `dec`, the other ones shrunk the radius -/
structure BoxCounted (f : (Fin n → ℝ) → ℝ) (f0 g1 g2 D0 lo dec : ℝ) (k : ℕ) (st : St Num n) (cur : Funout Num n) (D : ℝ) (S K : ℕ) : Prop where
  count : S + K = k
  delta : st.delta = fin D
  lower : lo ≤ D
  upper : D ≤ D0 * g2 ^ S * g1 ^ K
  reduced : ∀ z, cur.x = ofV z → f z ≤ f0 - S * dec

/-- what a proposal from the point `x` achieves for the scaled model: reduction of the model, and it is short and equals the actual move or it is long -/
structure GoodStep (I : TRIn Num n) (x d : Fin n → ℝ) (sg : Fin n → ℝ) (B : Fin n → Fin n → ℝ) (D eps b : ℝ) (step : Step Num n) (y p : Fin n → ℝ) : Prop where
  scaled : vadd step.ss step.ss0 = ofV p
  trial : vadd (vadd I.x step.s) step.s0 = ofV y
  inBox : InBox I.lb I.ub y
  value : step.qpval = fin (quad B sg p)
  decrease : quad B sg p ≤ -(eps / 2 * min D b)
  length : (rnorm p ≤ D ∧ y = x + fun i => d i * p i) ∨ (b / 3 ≤ rnorm p ∧ b ≤ D)

/-- at a state with measure at least `eps`, every proposal is good -/
def BoxProposes (E : Env Num n) (W M G tm eps : ℝ) (st : St Num n) : Prop :=
  ∀ x h D step, st.x = ofV x → st.grad = ofV h → st.delta = fin D → 0 < D → eps ≤ scaledGrad E.lb E.ub x h →
    E.tr st.proposals (trInput E { st with iteration := st.iteration + 1, deltaIter := st.delta, ticks := st.ticks + 1 }) = .ok step →
    ∃ (d dv : Fin n → ℝ) (B : Fin n → Fin n → ℝ) (th : ℝ) (y p : Fin n → ℝ),
      RealData (trInput E { st with iteration := st.iteration + 1, deltaIter := st.delta, ticks := st.ticks + 1 }) x d h dv B D th ∧
      (∀ v, |rdot v (rmv B v)| ≤ M * rdot v v) ∧ (∀ i, d i * d i = boundDist E.lb E.ub x h i) ∧ (∀ i, dv i = 0 ∨ dv i = 1 ∧ HasBound E.lb E.ub i) ∧
      GoodStep (trInput E { st with iteration := st.iteration + 1, deltaIter := st.delta, ticks := st.ticks + 1 }) x d (fun i => d i * h i)
        (fun i j => d i * B i j * d j + if i = j then |h i| * dv i else 0) D eps (eps * cutFactor W M G tm) step y p

theorem box_counted (hR : BoxRun E f g mu eta g1 g2 D0 tm L W M G fmin x0 startId hess0 st0) {eps : ℝ} (he : 0 < eps) (e : ℝ) (he0 : 0 ≤ e)
    (hmove : ∀ j st cur x z, LoopHead E x0 startId hess0 st0 j st cur → st.x = ofV x → cur.x = ofV z → ∀ i, |x i - z i| ≤ e)
    (hsmall : nudgeError n L G e ≤ (1 - mu) / 2 * boxPred mu g1 D0 L W M G tm eps) (f0 : ℝ)
    (hstart : ∀ st cur z, LoopHead E x0 startId hess0 st0 0 st cur → cur.x = ofV z → f z ≤ f0)
    (k : ℕ) (st : St Num n) (cur : Funout Num n) (h : LoopHead E x0 startId hess0 st0 k st cur)
    (hbig : ∀ j < k, ∀ st' cur' x' h', LoopHead E x0 startId hess0 st0 j st' cur' → st'.x = ofV x' → st'.grad = ofV h' →
      eps ≤ scaledGrad E.lb E.ub x' h')
    (hprop : ∀ j < k, ∀ st' cur', LoopHead E x0 startId hess0 st0 j st' cur' → BoxProposes E W M G tm eps st') :
    ∃ D S K, BoxCounted f f0 g1 g2 D0 (boxFloor mu g1 D0 L W M G tm eps) (mu * boxPred mu g1 D0 L W M G tm eps) k st cur D S K := by
  have hE := hR.params
  obtain ⟨tm', h1, ht0, ht1⟩ := hE.theta
  have htm' : tm = tm' := by rw [hR.thetaMax, fin_inj] at h1; exact h1
  subst htm'
  clear h1
  have hC := boxConst hR.L_nonneg hR.M_pos hR.W_pos hR.G_pos ht0 hE.mu_lt he
  have hlop : 0 < boxFloor mu g1 D0 L W M G tm eps := hC.lo_pos hE
  induction k generalizing st cur with
  | zero =>
    refine ⟨D0, 0, 0, rfl, ?_, min_le_left _ _, by simp, ?_⟩
    · rw [start_delta E _ _ _ _ st cur h, hE.deltaInit]
    · intro z hz
      have := hstart st cur z h hz
      simpa using this
  | succ k ih =>
    obtain ⟨prev, cur0, step, new, hh, hp⟩ := loopHead_pass E _ startId hess0 st0 k st cur h
    obtain ⟨D, S, K, hi⟩ := ih prev cur0 hh (fun j hj => hbig j (by omega)) (fun j hj => hprop j (by omega))
    set lo := boxFloor mu g1 D0 L W M G tm eps with hlo
    set b := eps * cutFactor W M G tm with hb
    have hDpos : 0 < D := hlop.trans_le hi.lower
    obtain ⟨z, x, hz, hzb, hx, hxb, hfv, hgr, -, hxf⟩ := head_box hR.evaluates x0 startId hess0 st0 k prev cur0 hh
    have hW := hR.width k prev cur0 x (g z) hh hx hgr
    have hNe := hbig k (by omega) prev cur0 x (g z) hh hx hgr
    obtain ⟨d, dv, B, th, y, p, hI, hBM, hd, hdv, hg⟩ := hprop k (by omega) prev cur0 hh x (g z) D step hx hgr hi.delta hDpos hNe hp.proposal
    have hy : new.x = ofV y := by rw [hp.point]; exact hg.trial
    have hss := hg.scaled
    have hyb : InBox E.lb E.ub y := hg.inBox
    have hq := hg.value
    obtain ⟨m, raw, e1, e2⟩ := pass_evaluated hp
    rw [hy] at e1 e2
    obtain ⟨hnf, hng⟩ := hR.evaluates m y _ raw new hyb e1 e2
    have hdec := hg.decrease
    have hlen := hg.length
    rw [← hb] at hdec hlen
    set Q := quad (fun i j => d i * B i j * d j + if i = j then |g z i| * dv i else 0) (fun i => d i * g z i) p with hQ
    have hcf : 0 < cutFactor W M G tm := by
      have := hR.G_pos
      have := hR.M_pos
      have := hR.W_pos
      unfold cutFactor scaledCurv
      exact lt_min (by positivity) (by positivity)
    have hpred : eps / 2 * min D b ≤ -Q := by linarith
    have hpos : 0 < -Q := lt_of_lt_of_le (mul_pos (by linarith) (lt_min hDpos (mul_pos he hcf))) hpred
    have hpredlo : boxPred mu g1 D0 L W M G tm eps ≤ -Q := by
      refine le_trans ?_ hpred
      unfold boxPred
      exact mul_le_mul_of_nonneg_left (min_le_min_right _ hi.lower) (by linarith)
    obtain ⟨-, haug⟩ := (⟨trivial, (aug_bounds (g y) hdv (fun i hb => hR.gradient y hyb i hb) hR.G_pos.le p).1⟩ :
      True ∧ 0 ≤ ∑ i, |g y i| * dv i * (p i * p i))
    obtain ⟨D', hD', hcase⟩ := pass_outcome hE hp p dv (g y) (f z) (f y) (-Q) D hfv hi.delta hss hnf hng hI.dv (by rw [hq, neg_neg]) hpos _ rfl
    have hred := hi.reduced z hz
    rcases hcase with ⟨hgood, hcn, hD⟩ | ⟨hbad, hcn, hD⟩
    · refine ⟨D', S + 1, K, by have := hi.count; omega, hD', ?_, ?_, ?_⟩
      · refine hi.lower.trans ?_
        rcases hD with rfl | rfl
        · exact le_rfl
        · nlinarith [hE.g2_ge]
      · have h1 : D' ≤ g2 * D := by
          rcases hD with rfl | rfl
          · nlinarith [hE.g2_ge]
          · exact le_rfl
        have hg2 : 0 ≤ g2 := by linarith [hE.g2_ge]
        calc D' ≤ g2 * D := h1
          _ ≤ g2 * (D0 * g2 ^ S * g1 ^ K) := mul_le_mul_of_nonneg_left hi.upper hg2
          _ = D0 * g2 ^ (S + 1) * g1 ^ K := by rw [pow_succ]; ring
      · intro z' hz'
        rw [hcn, hy, ofV_inj] at hz'
        rw [← hz']
        have h2 : mu * boxPred mu g1 D0 L W M G tm eps ≤ mu * -Q := mul_le_mul_of_nonneg_left hpredlo hE.mu_pos.le
        push_cast
        linarith
    · have hlen' : (rnorm p ≤ D ∧ -Q - (f z - f y - (∑ i, |g y i| * dv i * (p i * p i)) / 2) ≤ 2 * (W * (L + M / 2) + G / 2) * (rnorm p * rnorm p)) ∨
          eps * cutFactor W M G tm / 3 ≤ min D (rnorm p) := by
        rcases hlen with ⟨hl1, hl2⟩ | ⟨hl1, hl2⟩
        · left
          refine ⟨hl1, ?_⟩
          have herr := model_error (x := x) (d := d) (dv := dv) (B := B) hR.smooth hR.L_nonneg hzb hyb hl2 (hmove k prev cur0 x z hh hx hz) hxf he0 hd hW hdv
            hR.gradient hR.G_pos.le hR.M_pos.le hBM
          set C := W * (L + M / 2) + G / 2 with hCdef
          have hmu := hE.mu_lt
          have h3 : nudgeError n L G e ≤ (1 - mu) / 2 * -Q := hsmall.trans (mul_le_mul_of_nonneg_left hpredlo (by linarith))
          have herr' : -Q - (f z - f y - (∑ i, |g y i| * dv i * (p i * p i)) / 2) ≤ C * (rnorm p * rnorm p) + nudgeError n L G e := herr
          nlinarith
        · right
          have hb0 : 0 ≤ b := (mul_pos he hcf).le
          exact le_min (by linarith) hl1
      obtain ⟨hc1, hc2⟩ := shrink_long_or hC hE.mu_lt (rnorm_nonneg p) hDpos hpred hlen' hbad
      have hcpos : 0 < min (b / 3) ((1 - mu) * (eps / 2) / (2 * (W * (L + M / 2) + G / 2))) := by
        have := hE.mu_lt
        rw [hC.c_def]
        exact lt_min hC.b'_pos (lt_min hC.b_pos (div_pos (mul_pos (sub_pos.mpr hE.mu_lt) hC.a_pos) hC.C_pos))
      refine ⟨D', S, K + 1, by have := hi.count; omega, hD', ?_, ?_, ?_⟩
      · refine (min_le_right _ _).trans ?_
        rw [hD]
        refine le_min ?_ ?_
        · exact mul_le_mul (min_le_left _ _) hc2 hcpos.le hE.g1_pos.le
        · have : min g1 (1 / 4) * min (b / 3) ((1 - mu) * (eps / 2) / (2 * (W * (L + M / 2) + G / 2))) ≤ 1 / 4 * rnorm p :=
            mul_le_mul (min_le_right _ _) hc1 hcpos.le (by norm_num)
          linarith
      · calc D' ≤ g1 * D := by rw [hD]; exact min_le_left _ _
          _ ≤ g1 * (D0 * g2 ^ S * g1 ^ K) := mul_le_mul_of_nonneg_left hi.upper hE.g1_pos.le
          _ = D0 * g2 ^ S * g1 ^ (K + 1) := by rw [pow_succ]; ring
      · intro z' hz'
        rcases hcn with ⟨hcn, ha⟩ | hcn
        · rw [hcn, hy, ofV_inj] at hz'
          rw [← hz']
          linarith
        · rw [hcn, hz, ofV_inj] at hz'
          rw [← hz']; exact hred

/-- the proposals of the Steihaug solver are good as long as the trial point is a real vector -/
theorem steihaug_boxProposes (hR : BoxRun E f g mu eta g1 g2 D0 tm L W M G fmin x0 startId hess0 st0) (hT : UsesTrustRegion E)
    (hdim : E.opts.subspaceDim = .steihaug) {eps : ℝ} (he : 0 < eps) (k : ℕ) (prev : St Num n) (cur : Funout Num n)
    (hh : LoopHead E x0 startId hess0 st0 k prev cur) (hreal : ¬ (1 < n ∧ NonRealTrial E prev)) : BoxProposes E W M G tm eps prev := by
  intro x h D step hx hg hD hDpos hNe hpr
  obtain ⟨tm', h1, ht0, ht1⟩ := hR.params.theta
  have htm' : tm = tm' := by rw [hR.thetaMax, fin_inj] at h1; exact h1
  subst htm'
  clear h1
  obtain ⟨z, x', hz, hzb, hx', hxb, hfv, hgr, -, hxf⟩ := head_box hR.evaluates x0 startId hess0 st0 k prev cur hh
  rw [hx, ofV_inj] at hx'
  rw [hg, ofV_inj] at hgr
  subst hx' hgr
  obtain ⟨B, hH, hS, hBM⟩ := hR.hessian k prev cur hh
  have hW := hR.width k prev cur x (g z) hh hx hg
  have hGz : ∀ i, HasBound E.lb E.ub i → |g z i| ≤ G := fun i hb => hR.gradient z hzb i hb
  obtain ⟨d, dv, th, hI, hth1, hth2, hd, hdv⟩ := box_data tm hR.thetaMax ht0 ht1
    { prev with iteration := prev.iteration + 1, deltaIter := prev.delta, ticks := prev.ticks + 1 } x (g z) B D hx hg hH hS hD hxb
  have hN := scaledGrad_eq hd
  rw [← hN] at hNe
  have hsg : (fun i => d i * g z i) ≠ 0 := by
    intro h0; rw [h0, rnorm_eq_zero.mpr rfl] at hNe; linarith
  have hMh : 0 < scaledCurv W M G := by
    have := hR.M_pos; have := hR.W_pos; have := hR.G_pos; unfold scaledCurv; positivity
  obtain ⟨O, fuel, hO⟩ := hT
  obtain ⟨y, hy⟩ : ∃ y : Fin n → ℝ, vadd (vadd prev.x step.s) step.s0 = ofV y := by
    rcases Nat.lt_or_ge 1 n with hn | hn
    · by_contra hcon
      push Not at hcon
      exact hreal ⟨hn, step, hpr, hcon⟩
    obtain rfl | rfl : n = 0 ∨ n = 1 := by omega
    · exact ⟨0, Subsingleton.elim _ _⟩
    rw [hO, hdim] at hpr
    have hP := RealData.prob hI (ht0.trans_le hth1) hth2 hxb
    exact one_real hP (one_steihaug hP (sym_scaled _ _ hI.sym) hDpos hsg fuel step (one_candidate _ _ _ _ _ hpr))
  rw [hO, hdim] at hpr
  obtain ⟨p, hss, hyb, hq, hdec, hlen⟩ := steihaug_proposal (O prev.proposals) hI hDpos (ht0.trans_le hth1) hth2 hxb hMh hR.G_pos
    (fun v => (scaled_curv hd hW hdv hGz hR.G_pos.le hR.M_pos.le hBM v).1) (fun v => (scaled_curv hd hW hdv hGz hR.G_pos.le hR.M_pos.le hBM v).2)
    (scaled_room hxb hd hGz) hsg fuel _ step hpr y hy
  have hcf : 0 < cutFactor W M G tm := by
    have := hR.G_pos
    unfold cutFactor
    exact lt_min (by positivity) (by positivity)
  have hbb : eps * cutFactor W M G tm ≤ rnorm (fun i => d i * g z i) * min (1 / scaledCurv W M G) (th / G) :=
    mul_le_mul hNe (min_le_min_left _ (div_le_div_of_nonneg_right hth1 hR.G_pos.le)) hcf.le (by linarith)
  refine ⟨d, dv, B, th, y, p, hI, hBM, hd, hdv, hss, hy, hyb, hq, ?_, ?_⟩
  · have h1 : eps / 2 * min D (eps * cutFactor W M G tm) ≤
        rnorm (fun i => d i * g z i) / 2 * min D (rnorm (fun i => d i * g z i) * min (1 / scaledCurv W M G) (th / G)) :=
      mul_le_mul (by linarith) (min_le_min_left _ hbb) (lt_min hDpos (mul_pos he hcf)).le (by linarith)
    linarith
  · rcases hlen with hl | ⟨hl1, hl2⟩
    · exact Or.inl hl
    · exact Or.inr ⟨by linarith, hbb.trans hl2⟩

/-- within `boxBound` iterations the run visits a point with small measure -/
theorem box_visits (hR : BoxRun E f g mu eta g1 g2 D0 tm L W M G fmin x0 startId hess0 st0) {eps : ℝ} (he : 0 < eps) (e : ℝ) (he0 : 0 ≤ e)
    (hmove : ∀ j st cur x z, LoopHead E x0 startId hess0 st0 j st cur → st.x = ofV x → cur.x = ofV z → ∀ i, |x i - z i| ≤ e)
    (hsmall : nudgeError n L G e ≤ (1 - mu) / 2 * boxPred mu g1 D0 L W M G tm eps) (gap : ℝ)
    (hgap : ∀ st cur z, LoopHead E x0 startId hess0 st0 0 st cur → cur.x = ofV z → f z - fmin ≤ gap)
    (k : ℕ) (st : St Num n) (cur : Funout Num n) (h : LoopHead E x0 startId hess0 st0 k st cur)
    (hk : boxBound mu g1 g2 D0 L W M G tm gap eps ≤ k)
    (hprop : ∀ j < boxBound mu g1 g2 D0 L W M G tm gap eps, ∀ st' cur', LoopHead E x0 startId hess0 st0 j st' cur' → BoxProposes E W M G tm eps st') :
    ∃ j < boxBound mu g1 g2 D0 L W M G tm gap eps, ∃ st' cur' x' h', LoopHead E x0 startId hess0 st0 j st' cur' ∧ st'.x = ofV x' ∧ st'.grad = ofV h' ∧
      scaledGrad E.lb E.ub x' h' < eps := by
  have hE := hR.params
  obtain ⟨tm', h1, ht0, ht1⟩ := hE.theta
  have htm' : tm = tm' := by rw [hR.thetaMax, fin_inj] at h1; exact h1
  subst htm'
  have hC := boxConst hR.L_nonneg hR.M_pos hR.W_pos hR.G_pos ht0 hE.mu_lt he
  have hlop : 0 < boxFloor mu g1 D0 L W M G tm eps := hC.lo_pos hE
  have hdp : 0 < mu * boxPred mu g1 D0 L W M G tm eps := hC.dec_pos hE
  obtain ⟨S', K', hSK, hS, hK⟩ := passBound_spec hE.g1_pos hE.g1_lt hE.g2_ge hE.D0_pos gap _ _ hlop hdp
  obtain ⟨stN, curN, hhN⟩ := loopHead_prefix E _ startId hess0 st0 k st cur h _ hk
  by_contra hcon
  push Not at hcon
  obtain ⟨D, S, K, hc⟩ := box_counted hR he e he0 hmove hsmall (gap + fmin) (fun st cur z hh hz => by linarith [hgap st cur z hh hz]) _ stN curN hhN
    (fun j hj st' cur' x' h' hh hx hg => hcon j hj st' cur' x' h' hh hx hg) hprop
  obtain ⟨z, x, hz, hzb, -⟩ := head_box hR.evaluates x0 startId hess0 st0 _ stN curN hhN
  have hred := hc.reduced z hz
  have hmin := hR.below z hzb
  have hSS : S < S' := by
    by_contra hcon
    push Not at hcon
    have h2 : (S' : ℝ) ≤ S := by exact_mod_cast hcon
    have := mul_le_mul_of_nonneg_right h2 hdp.le
    linarith
  have hcount : S + K = S' + K' := by rw [hc.count]; exact hSK
  have hKK : K' ≤ K := by omega
  have e1 : g2 ^ S ≤ g2 ^ S' := pow_le_pow_right₀ hE.g2_ge hSS.le
  have e2 : g1 ^ K ≤ g1 ^ K' := pow_le_pow_of_le_one hE.g1_pos.le hE.g1_lt.le hKK
  have hg2 : 0 < g2 := by linarith [hE.g2_ge]
  have e3 : D0 * g2 ^ S * g1 ^ K ≤ D0 * g2 ^ S' * g1 ^ K' := by
    apply mul_le_mul _ e2 (pow_nonneg hE.g1_pos.le _) (mul_nonneg hE.D0_pos.le (pow_nonneg hg2.le _))
    exact mul_le_mul_of_nonneg_left e1 hE.D0_pos.le
  linarith [hc.lower, hc.upper]

end Fides
