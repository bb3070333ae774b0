import Verif.Lemmas.InteriorNewton
import Verif.Lemmas.InteriorMath
import Verif.Props.BoundedConvergence
import Verif.Props.LocalConvergence

/-!
# C93: fast convergence near a minimum in the interior of the box
-/

namespace Fides
open Num Spec
variable {n : ℕ} {E : Env Num n} {f : (Fin n → ℝ) → ℝ} {g : (Fin n → ℝ) → Fin n → ℝ} {H : (Fin n → ℝ) → Fin n → Fin n → ℝ} {xs : Fin n → ℝ}
  {r m M L w tm R mu eta g1 g2 D0 : ℝ}

/-- away from the bounds the iterate is the evaluated point -/
theorem head_interior (hR : Returns E f g H) (x0 : Vec Num n) (startId : String) (hess0 : Hess0 Num) (st0 : St Num n) (happ : st0.happ = none) (k : ℕ)
    (st : St Num n) (cur : Funout Num n) (h : LoopHead E x0 startId hess0 st0 k st cur) (x : Fin n → ℝ) (hx : st.x = ofV x)
    (hin : ∀ i b, |b| ≤ 2 * margin → InBox1 (E.lb i) (E.ub i) (x i + b)) :
    cur.x = ofV x ∧ InBox E.lb E.ub x ∧ st.fval = fin (f x) ∧ st.grad = ofV (g x) ∧ st.hess = ofM (H x) := by
  have hi := headInv E x0 startId hess0 st0 k st cur h
  have hmp := margin_pos
  obtain ⟨z, x', hz, hzb, hx', hxb, hfv, hgr, hxz, -⟩ := head_box (returns_evaluatesOn hR) x0 startId hess0 st0 k st cur h
  rw [hx, ofV_inj] at hx'
  subst hx'
  have hxe : x = z := by
    have hsame : st.x = cur.x → x = z := fun he => by rw [hx, hz, ofV_inj] at he; exact he
    rcases hi.x with ⟨_, he⟩ | he | he
    · exact hsame he
    · exact hsame he
    · obtain ⟨r', e1, -, -, e4, -⟩ := nudge_spec E.lb E.ub z hzb
      rw [hx, hz, e1, ofV_inj] at he
      funext i
      rw [he]
      have key : ∀ b : ℝ, |b| ≤ margin → InBox1 (E.lb i) (E.ub i) (z i + b) := by
        intro b hb
        have h2 := hin i (z i - x i + b) (by
          have h3 := hxz i
          rw [abs_sub_comm] at h3
          exact (abs_add_le _ _).trans (by linarith))
        have e : x i + (z i - x i + b) = z i + b := by ring
        rwa [e] at h2
      refine e4 i ?_ ?_
      · have := key (-margin) (by rw [abs_neg, abs_of_pos hmp])
        rwa [← sub_eq_add_neg] at this
      · exact key margin (by rw [abs_of_pos hmp])
  subst hxe
  refine ⟨hz, hxb, hfv, hgr, ?_⟩
  obtain ⟨m', raw, h1, h2⟩ := head_evaluated E x0 startId hess0 st0 k st cur h
  rw [hz] at h1 h2
  obtain ⟨raw', h3, _, _, h4⟩ := hR.eval m' x
  rw [h1] at h3; cases h3
  rw [h4] at h2
  have h5 := hi.hess (hi.happ.mpr happ)
  have h6 : cur.hess = some (ofM (H x)) := by rw [← Option.some.inj h2]
  rw [h6] at h5
  exact (Option.some.inj h5).symm

/-- a pass whose model predicts the reduction well, with bounds -/
theorem pass_accepts (hE : TRParams E mu eta g1 g2 D0) {prev next : St Num n} {cur cur' new : Funout Num n} {step : Step Num n}
    (hp : Pass E prev cur step new next cur') (p dv gy : Fin n → ℝ) (fz fy pred D : ℝ) (hf : prev.fval = fin fz) (hd : prev.delta = fin D)
    (hss : vadd step.ss step.ss0 = ofV p) (hnf : new.fval = fin fy) (hng : new.grad = ofV gy) (hdv : (trInput E (preIter prev)).dv = ofV dv)
    (hq : step.qpval = fin (-pred)) (hpos : 0 < pred) (act : ℝ) (hact : act = fz - fy - (∑ i, |gy i| * dv i * (p i * p i)) / 2) (hgood : eta * pred ≤ act) :
    cur' = new ∧ next.x = nudge E.lb E.ub new.x ∧ next.trRatio = fin (act / pred) ∧ (next.delta = fin D ∨ next.delta = fin (g2 * D)) := by
  have hF := pass_facts E _ _ _ _ _ _ hp
  have haug : dot (vadd step.ss step.ss0) (fun i => (trInput E (preIter prev)).dv i * FloatOps.abs (new.grad i) * vadd step.ss step.ss0 i) =
      fin (∑ i, |gy i| * dv i * (p i * p i)) := by
    rw [hss, hdv, hng]
    have : (fun i => (ofV dv i : Num) * FloatOps.abs (ofV gy i) * ofV p i) = ofV fun i => dv i * |gy i| * p i := by
      funext i; simp
    rw [this, dot_ofV, fin_inj]
    unfold rdot
    exact Finset.sum_congr rfl fun i _ => by ring
  have hrat : ratioOf (afterEval prev step (.ok new)).fval new step (trInput E (preIter prev)).dv = fin (act / pred) := by
    unfold ratioOf
    have h1 : (afterEval prev step (.ok new)).fval = fin fz := hf
    rw [haug, h1, hnf, hq]
    simp only [fin_neg, lit_def, Rat.cast_zero, fin_le, fin_sub, fin_mul, neg_neg]
    rw [if_neg (by simp only [decide_eq_true_eq]; exact not_le.mpr hpos), fin_div _ _ hpos.ne', fin_inj, hact]
    push_cast
    ring
  have hre : eta ≤ act / pred := by rw [le_div_iff₀ hpos]; exact hgood
  have hrpos : 0 < act / pred := hE.mu_pos.trans (hE.mu_eta.trans_le hre)
  have had : (afterEval prev step (.ok new)).delta = fin D := hd
  have hr : (radiusStep E prev step new).1 = true ∧ (radiusStep E prev step new).2.trRatio = fin (act / pred) ∧
      ((radiusStep E prev step new).2.delta = fin D ∨ (radiusStep E prev step new).2.delta = fin (g2 * D)) := by
    unfold radiusStep
    rcases updateTrRadius_cases E new step (trInput E (preIter prev)).dv (afterEval prev step (.ok new)) with ⟨h, _⟩ | ⟨_, r', hr', h⟩
    · rw [hnf] at h; simp at h
    · rw [hrat] at hr'
      subst hr'
      rcases h with ⟨_, h1, h⟩ | ⟨_, h1, h⟩ | ⟨_, h1, mm, h⟩
      · rw [h]
        refine ⟨by simpa using hrpos, rfl, Or.inr ?_⟩
        simp only
        rw [had, hE.gamma2, fin_mul]
      · rw [hE.hmu, fin_le, decide_eq_true_eq] at h1
        exact absurd (hE.mu_eta.trans_le hre) (not_lt.mpr h1)
      · rw [h]
        exact ⟨by simpa using hrpos, rfl, Or.inl had⟩
  obtain ⟨h1, h2, h3⟩ := hr
  rcases hF.cases with ⟨_, h4, _, h5, _⟩ | ⟨h4, _⟩
  · exact ⟨h4, h5, by rw [hF.ratio, h2], by rw [hF.delta]; exact h3⟩
  · rw [h1] at h4; cases h4

/-- what one iteration near the minimum achieves -/
theorem interior_pass (hE : TRParams E mu eta g1 g2 D0) (htm : E.opts.thetaMax = fin tm) (O : ℕ → Oracles Num) (hX : ∀ k, ExactRoutines (O k)) (fuel : ℕ)
    (hO : ∀ k I, E.tr k I = trustRegion (O k) fuel E.opts.subspaceDim E.opts.stepbackStrat I)
    (hdim : E.opts.subspaceDim = .two ∨ E.opts.subspaceDim = .full) (hR : Returns E f g H) (hC : CurvedMinimum r m L f g H xs)
    (hM0 : 0 ≤ M) (hM : ∀ x, rnorm (x - xs) ≤ r → ∀ v, rdot v (rmv (H x) v) ≤ M * rdot v v)
    (hA : AwayFromBounds w E.lb E.ub xs) (hB : InteriorSize r m M L w tm eta R)
    {prev next : St Num n} {cur cur' new : Funout Num n} {step : Step Num n} (hp : Pass E prev cur step new next cur')
    (x : Fin n → ℝ) (D : ℝ) (hx : prev.x = ofV x) (hf : prev.fval = fin (f x)) (hg : prev.grad = ofV (g x))
    (hH : prev.hess = ofM (H x)) (hd : prev.delta = fin D) (hD0 : 0 < D) (hD : 9 * R ^ 2 ≤ 2 * w * D ^ 2) (hin : rnorm (x - xs) ≤ R) (hg0 : g x ≠ 0) :
    ∃ (y : Fin n → ℝ) (rho : ℝ), trialPoint prev step = ofV y ∧ next.x = ofV y ∧ f y < f x ∧ next.trRatio = fin rho ∧ eta ≤ rho ∧
      rnorm (y - xs) ≤ interiorRate m M L w * rnorm (x - xs) ^ 2 ∧ rnorm (y - xs) ≤ rnorm (x - xs) / 2 ∧
      (next.delta = fin D ∨ next.delta = fin (g2 * D)) ∧ ∃ q : Fin n → ℝ, vadd step.ss step.ss0 = ofV q := by
  have hm := hC.m_pos
  have hw := hB.w_pos
  have hw1 := hB.w_le
  have hmg := hB.margin_le
  have hmp := margin_pos
  have hroom := hB.room
  have hRp := hB.pos
  have hxr : rnorm (x - xs) ≤ r := by have := hB.inside; linarith
  obtain ⟨tm', h1, ht0, ht1⟩ := hE.theta
  have htm' : tm = tm' := by rw [htm, fin_inj] at h1; exact h1
  subst htm'
  clear h1
  have hn : 0 < n := by
    rcases Nat.eq_zero_or_pos n with h0 | h0
    · subst h0; exact absurd (funext fun i => i.elim0) hg0
    · exact h0
  have hRw : R ≤ w / 2 := by nlinarith
  have hnear : ∀ i (b : ℝ), |b| ≤ w / 2 → InBox1 (E.lb i) (E.ub i) (x i + b) := fun i b hb => away_near hA hin (by linarith) i
  have hxb : InBox E.lb E.ub x := fun i => by simpa using hnear i 0 (by simp; linarith)
  have hS := hC.symmetric x hxr
  have hpdH := curved_pd hC hxr
  obtain ⟨d, dv, th, hI, hth1, hth2, hdd, hdv⟩ := box_data tm htm ht0 ht1
    { prev with iteration := prev.iteration + 1, deltaIter := prev.delta, ticks := prev.ticks + 1 } x (g x) (H x) D hx hg hH hS hd hxb
  have hth0 : 0 < th := ht0.trans_le hth1
  have hbd : ∀ i, w / 2 ≤ boundDist E.lb E.ub x (g x) i := fun i => boundDist_ge (by linarith) i
    ⟨by rw [sub_eq_add_neg]; exact hnear i (-(w / 2)) (by rw [abs_neg, abs_of_pos (by linarith)]), hnear i (w / 2) (by rw [abs_of_pos (by linarith)])⟩
  have hbp : ∀ i, 0 < boundDist E.lb E.ub x (g x) i := fun i => lt_of_lt_of_le (by linarith) (hbd i)
  have hd0 : ∀ i, d i ≠ 0 := fun i h0 => by
    have := hbp i
    rw [← hdd i, h0, mul_zero] at this
    exact lt_irrefl _ this
  have hP := RealData.prob hI hth0 hth2 hxb
  have hpd : PD fun i j => d i * H x i j * d j + if i = j then |g x i| * dv i else 0 := by
    intro v hv
    rw [scaled_form]
    have h1 : 0 ≤ ∑ i, |g x i| * dv i * (v i * v i) := by
      refine Finset.sum_nonneg fun i _ => ?_
      rcases hdv i with e | ⟨e, _⟩ <;> rw [e]
      · simp
      · rw [mul_one]; exact mul_nonneg (abs_nonneg _) (mul_self_nonneg _)
    have h2 : (fun i => d i * v i) ≠ 0 := by
      intro h0
      apply hv
      funext i
      simpa [hd0 i] using congrFun h0 i
    have := hpdH _ h2
    linarith
  have hSB := sym_scaled d (fun i => |g x i| * dv i) hS
  obtain ⟨p, hnv⟩ := pd_solve hSB hpd (fun i => d i * g x i)
  set s : Fin n → ℝ := fun i => d i * p i with hs
  -- Newton's equation in the original variables
  have heq : ∀ i, rmv (H x) s i + |g x i| * dv i / (d i * d i) * s i = -g x i := by
    intro i
    have h1 := congrFun hnv i
    have h2 : rmv (fun i j => d i * H x i j * d j + if i = j then |g x i| * dv i else 0) p i = d i * rmv (H x) s i + |g x i| * dv i * p i := by
      simp only [rmv, rdot, add_mul, ite_mul, zero_mul, Finset.sum_add_distrib, Finset.sum_ite_eq, Finset.mem_univ, if_true, Finset.mul_sum]
      congr 1
      exact Finset.sum_congr rfl fun j _ => by rw [hs]; ring
    rw [h2, Pi.neg_apply] at h1
    have h3 := hd0 i
    have e : |g x i| * dv i / (d i * d i) * s i = |g x i| * dv i * p i / d i := by rw [hs]; field_simp
    rw [e]
    have h4 : d i * (rmv (H x) s i + |g x i| * dv i * p i / d i) = d i * -g x i := by
      rw [mul_add, mul_div_cancel₀ _ h3]; linarith
    exact mul_left_cancel₀ h3 h4
  have hd2 : ∀ i, w / 2 ≤ d i * d i := fun i => by rw [hdd i]; exact hbd i
  have he0 : ∀ i, 0 ≤ |g x i| * dv i / (d i * d i) := fun i => by
    rcases hdv i with e | ⟨e, _⟩ <;> rw [e]
    · simp
    · rw [mul_one]; exact div_nonneg (abs_nonneg _) (mul_self_nonneg _)
  have he1 : ∀ i, |g x i| * dv i / (d i * d i) ≤ 2 / w * rnorm (g x) := fun i => by
    rw [div_le_iff₀ (lt_of_lt_of_le (by linarith) (hd2 i))]
    have h1 : |g x i| * dv i ≤ rnorm (g x) := by
      rcases hdv i with e | ⟨e, _⟩ <;> rw [e]
      · simpa using rnorm_nonneg _
      · simpa using abs_coord_le (g x) i
    have h2 := mul_le_mul_of_nonneg_left (hd2 i) (mul_nonneg (by positivity : (0 : ℝ) ≤ 2 / w) (rnorm_nonneg (g x)))
    have e2 : 2 / w * rnorm (g x) * (w / 2) = rnorm (g x) := by field_simp
    rw [e2] at h2
    linarith
  obtain ⟨hr1, hr2, hr3⟩ := interior_newton hC hB hM0 hM hin _ he0 he1 heq
  have hsR : rnorm s ≤ 3 / 2 * R := by linarith
  -- within the trust region
  have hpp : rdot p p ≤ 2 / w * rdot s s := by
    unfold rdot
    rw [Finset.mul_sum]
    refine Finset.sum_le_sum fun i _ => ?_
    have e1 : s i * s i = d i * d i * (p i * p i) := by rw [hs]; ring
    rw [e1]
    have h4 := mul_le_mul_of_nonneg_right (hd2 i) (mul_self_nonneg (p i))
    have h5 := mul_le_mul_of_nonneg_left h4 (by positivity : (0 : ℝ) ≤ 2 / w)
    have e2 : 2 / w * (w / 2 * (p i * p i)) = p i * p i := by field_simp
    rw [e2] at h5; exact h5
  have hpD : rnorm p ≤ D := by
    rw [rnorm_le_iff hD0.le]
    refine hpp.trans ?_
    rw [← rnorm_sq]
    have h1 : rnorm s * rnorm s ≤ 3 / 2 * R * (3 / 2 * R) := mul_le_mul hsR hsR (rnorm_nonneg _) (by positivity)
    have h2 := mul_le_mul_of_nonneg_left h1 (by positivity : (0 : ℝ) ≤ 2 / w)
    refine h2.trans ?_
    rw [show 2 / w * (3 / 2 * R * (3 / 2 * R)) = 9 * R ^ 2 / (2 * w) by field_simp; ring, div_le_iff₀ (by linarith)]
    linarith
  have hroom' : InBox E.lb E.ub (x + (1 / th) • s) := by
    intro i
    refine away_near (b := ((1 / th) • s) i) hA hin ?_ i
    rw [Pi.smul_apply, smul_eq_mul, abs_mul, abs_of_pos (by positivity : 0 < 1 / th)]
    have h1 := (abs_coord_le s i).trans hsR
    have h2 : 1 / th * |s i| ≤ 3 / 4 * w := by
      rw [one_div, inv_mul_le_iff₀ hth0]
      have h3 : tm * w ≤ th * w := mul_le_mul_of_nonneg_right hth1 hw.le
      linarith
    have hRw4 : R ≤ w / 4 := by
      have hK := (hB.rate hC).1
      have hL := hC.L_nonneg
      by_contra hcon
      push Not at hcon
      have hxs : rnorm (xs - xs) ≤ r := by rw [sub_self, rnorm_eq_zero.mpr rfl]; linarith [hB.inside]
      have hmM : m ≤ M := by
        have h4 := hC.curved xs hxs (fun j => if j = i then 1 else 0)
        have h5 := hM xs hxs (fun j => if j = i then 1 else 0)
        have h6 : rdot (fun j => if j = i then (1 : ℝ) else 0) (fun j => if j = i then (1 : ℝ) else 0) = 1 := by simp [rdot]
        rw [h6] at h4 h5
        linarith
      have h7 : 5 * M / w * R ≤ m / 2 := by nlinarith [mul_nonneg hL hRp.le]
      rw [div_mul_eq_mul_div, div_le_iff₀ hw] at h7
      have h8 : 5 * M * (w / 4) ≤ 5 * M * R := mul_le_mul_of_nonneg_left hcon.le (by positivity)
      nlinarith
    linarith
  have hsg0 : (fun i => d i * g x i) ≠ 0 := by
    intro h0
    apply hg0
    funext i
    simpa [hd0 i] using congrFun h0 i
  have hpr := hp.proposal
  rw [hO] at hpr
  obtain ⟨step', hst, hT⟩ := trustRegion_newton hP hn hSB hpd hD0 (O _) (hX _) fuel hdim E.opts.stepbackStrat p hnv hsg0 hpD hroom'
  rw [hst] at hpr
  cases hpr
  have htr : vadd (vadd prev.x step.s) step.s0 = ofV (x + s) := by rw [hx]; exact hT.trial
  obtain ⟨hnx, hnf, hng⟩ := pass_evaluates hR.evaluates hp (x + s) htr
  -- reduction
  have hs0 : s ≠ 0 := by
    intro h0
    apply hg0
    funext i
    have h1 := heq i
    rw [h0, rmv_zero] at h1
    simp only [Pi.zero_apply, mul_zero, add_zero] at h1
    simp only [Pi.zero_apply]
    linarith
  have hsp := rnorm_pos hs0
  have hlow : m / 2 * (rnorm s * rnorm s) ≤ -quad (fun i j => d i * H x i j * d j + if i = j then |g x i| * dv i else 0) (fun i => d i * g x i) p := by
    have h1 : rdot (fun i => d i * g x i) p = -rdot p (rmv (fun i j => d i * H x i j * d j + if i = j then |g x i| * dv i else 0) p) := by
      rw [hnv, rdot_neg, neg_neg, rdot_comm]
    have h2 := hC.curved x hxr s
    rw [← rnorm_sq] at h2
    have h3 : 0 ≤ ∑ i, |g x i| * dv i * (p i * p i) := by
      refine Finset.sum_nonneg fun i _ => ?_
      rcases hdv i with e | ⟨e, _⟩ <;> rw [e]
      · simp
      · rw [mul_one]; exact mul_nonneg (abs_nonneg _) (mul_self_nonneg _)
    rw [quad_def, h1, scaled_form]
    linarith
  set pred := -quad (fun i j => d i * H x i j * d j + if i = j then |g x i| * dv i else 0) (fun i => d i * g x i) p with hpred
  have hpos : 0 < pred := lt_of_lt_of_le (by positivity) hlow
  have hgood := interior_ratio hC hB hM0 hM (d := d) (dv := dv) hin hr2 hr3 hs hd2 (fun i => (hdv i).imp id And.left) pred hpred hlow
  obtain ⟨-, a2, a3, a4⟩ := pass_accepts hE hp p dv (g (x + s)) (f x) (f (x + s)) pred D hf hd hT.scaled hnf hng hI.dv
    (by rw [hT.model, hpred, neg_neg]) hpos _ rfl hgood
  have heta : 0 < eta := hE.mu_pos.trans hE.mu_eta
  have hdec : f (x + s) < f x := by
    have h3 : 0 ≤ ∑ i, |g (x + s) i| * dv i * (p i * p i) := by
      refine Finset.sum_nonneg fun i _ => ?_
      rcases hdv i with e | ⟨e, _⟩ <;> rw [e]
      · simp
      · rw [mul_one]; exact mul_nonneg (abs_nonneg _) (mul_self_nonneg _)
    have := mul_pos heta hpos
    linarith
  refine ⟨x + s, _, htr, ?_, hdec, a3, by rw [le_div_iff₀ hpos]; exact hgood, hr1, hr2, a4, p, hT.scaled⟩
  rw [a2, hnx]
  have hyb : ∀ i (b : ℝ), |b| ≤ w / 2 → InBox1 (E.lb i) (E.ub i) ((x + s) i + b) := fun i b hb =>
    away_near hA (show rnorm (x + s - xs) ≤ R by linarith [rnorm_nonneg (x - xs)]) (by linarith) i
  obtain ⟨r', e1, -, -, e4, -⟩ := nudge_spec E.lb E.ub (x + s) (fun i => by simpa using hyb i 0 (by simp; linarith))
  rw [e1, ofV_inj]
  funext i
  refine e4 i ?_ ?_
  · rw [sub_eq_add_neg]; exact hyb i (-margin) (by rw [abs_neg, abs_of_pos hmp]; linarith)
  · exact hyb i margin (by rw [abs_of_pos hmp]; linarith)

/-- the gradient of a live loop head is longer than `gatol`, if that of the start is -/
theorem interior_live (hR : Returns E f g H) (x0 : Fin n → ℝ) (startId : String) (hess0 : Hess0 Num) (st0 : St Num n)
    (ga : ℝ) (hga : E.opts.gatol = fin ga) (hstart : ∀ z, nudge E.lb E.ub (ofV x0) = ofV z → ga < rnorm (g z)) (k : ℕ) (st : St Num n) (cur : Funout Num n)
    (h : LoopHead E (ofV x0) startId hess0 st0 k st cur) (hc : st.converged = false) (x : Fin n → ℝ) (hg : st.grad = ofV (g x)) : ga < rnorm (g x) :=
  head_gradient (ofV x0) startId hess0 st0 ga hga (fun s c gr hs hg => by
    obtain ⟨z, x', hz, -, -, -, -, hgr, -⟩ := head_box (returns_evaluatesOn hR) (ofV x0) startId hess0 st0 0 s c hs
    have h1 := head_start s c hs
    rw [hz] at h1
    rw [hg, ofV_inj] at hgr
    rw [hgr]; exact hstart z h1.symm) k st cur h hc _ hg

theorem interior_half (hB : InteriorSize r m M L w tm eta R) (htm1 : tm ≤ 1) : R ≤ w / 2 := by
  have h1 := hB.room
  have h2 := hB.w_pos
  nlinarith

/-- the loop heads after one near the minimum -/
theorem interior_head (hE : TRParams E mu eta g1 g2 D0) (htm : E.opts.thetaMax = fin tm) (O : ℕ → Oracles Num) (hX : ∀ k, ExactRoutines (O k)) (fuel : ℕ)
    (hO : ∀ k I, E.tr k I = trustRegion (O k) fuel E.opts.subspaceDim E.opts.stepbackStrat I)
    (hdim : E.opts.subspaceDim = .two ∨ E.opts.subspaceDim = .full) (hR : Returns E f g H) (hC : CurvedMinimum r m L f g H xs)
    (hM0 : 0 ≤ M) (hM : ∀ x, rnorm (x - xs) ≤ r → ∀ v, rdot v (rmv (H x) v) ≤ M * rdot v v)
    (hA : AwayFromBounds w E.lb E.ub xs) (hB : InteriorSize r m M L w tm eta R)
    (x0 : Fin n → ℝ) (startId : String) (hess0 : Hess0 Num) (st0 : St Num n) (happ : st0.happ = none)
    (ga : ℝ) (hga : E.opts.gatol = fin ga) (hga0 : 0 ≤ ga) (hstart : ∀ z, nudge E.lb E.ub (ofV x0) = ofV z → ga < rnorm (g z))
    (k : ℕ) (stk : St Num n) (curk : Funout Num n) (xk : Fin n → ℝ) (Dk : ℝ) (hk : LoopHead E (ofV x0) startId hess0 st0 k stk curk)
    (hxk : stk.x = ofV xk) (hdk : stk.delta = fin Dk) (hDk : 0 < Dk) (hDR : 9 * R ^ 2 ≤ 2 * w * Dk ^ 2) (hin : rnorm (xk - xs) ≤ R)
    (j : ℕ) (st : St Num n) (cur : Funout Num n) (h : LoopHead E (ofV x0) startId hess0 st0 (k + j) st cur) :
    ∃ (x : Fin n → ℝ) (D : ℝ), st.x = ofV x ∧ st.fval = fin (f x) ∧ st.grad = ofV (g x) ∧ st.hess = ofM (H x) ∧ st.delta = fin D ∧ Dk ≤ D ∧
      rnorm (x - xs) ≤ R := by
  obtain ⟨tm', h1, ht0, ht1⟩ := hE.theta
  have htm' : tm = tm' := by rw [htm, fin_inj] at h1; exact h1
  subst htm'
  have hRw := interior_half hB ht1
  have hval : ∀ i st cur, LoopHead E (ofV x0) startId hess0 st0 i st cur → ∀ x, st.x = ofV x → rnorm (x - xs) ≤ R →
      st.fval = fin (f x) ∧ st.grad = ofV (g x) ∧ st.hess = ofM (H x) := fun i st cur hh x hx hxR =>
    (head_interior hR (ofV x0) startId hess0 st0 happ i st cur hh x hx fun a b hb => away_near hA hxR (by
      have := hB.margin_le
      linarith) a).2.2
  induction j generalizing st cur with
  | zero =>
    obtain ⟨rfl, rfl⟩ := loopHead_unique E _ startId hess0 st0 k _ _ _ _ hk h
    obtain ⟨a1, a2, a3⟩ := hval k _ _ hk xk hxk hin
    exact ⟨xk, Dk, hxk, a1, a2, a3, hdk, le_rfl, hin⟩
  | succ j ih =>
    obtain ⟨prev, cur0, step, new, hh, hp⟩ := loopHead_pass E _ startId hess0 st0 (k + j) st cur h
    obtain ⟨x, D, h1, h2, h3, h4, h5, h6, h7⟩ := ih prev cur0 hh
    have hD : 0 < D := hDk.trans_le h6
    have hg0 := gnz hga0 (interior_live hR x0 startId hess0 st0 ga hga hstart (k + j) prev cur0 hh (continues_live E _ _ hp.continues) x h3)
    have hDD : 9 * R ^ 2 ≤ 2 * w * D ^ 2 := hDR.trans (mul_le_mul_of_nonneg_left (pow_le_pow_left₀ hDk.le h6 2) (by have := hB.w_pos; linarith))
    obtain ⟨y, rho, -, b1, -, -, -, -, b2, b3, -⟩ := interior_pass hE htm O hX fuel hO hdim hR hC hM0 hM hA hB hp x D h1 h2 h3 h4 h5 hD hDD h7 hg0
    have hyR : rnorm (y - xs) ≤ R := by linarith [rnorm_nonneg (x - xs)]
    obtain ⟨c1, c2, c3⟩ := hval _ _ _ h y b1 hyR
    have hg2 := hE.g2_ge
    rcases b3 with b3 | b3
    · exact ⟨y, D, b1, c1, c2, c3, b3, h6, hyR⟩
    · exact ⟨y, g2 * D, b1, c1, c2, c3, b3, by nlinarith, hyR⟩

/-- **C93, every iteration.** Problem with bounds, default or full-space solver, exact arithmetic and linear algebra, exact Hessian, a minimum with positive
curvature in the interior of the box.  Once the run has arrived (after `k` iterations, with a trust radius `Dk` of at least `3 R / sqrt (2 w)`) within
the distance `R` of the minimizer, then in every later iteration: the step is accepted, the new iterate is the trial point (it is not moved away
from the bounds), the objective decreases, the trust-region ratio is at least `eta`, the radius does not shrink, the distance to the minimizer is
at least halved and at most `(L + 5 M / w) / m` times the squared distance of the old iterate. -/
theorem C93_step (hE : TRParams E mu eta g1 g2 D0) (htm : E.opts.thetaMax = fin tm) (O : ℕ → Oracles Num) (hX : ∀ k, ExactRoutines (O k)) (fuel : ℕ)
    (hO : ∀ k I, E.tr k I = trustRegion (O k) fuel E.opts.subspaceDim E.opts.stepbackStrat I)
    (hdim : E.opts.subspaceDim = .two ∨ E.opts.subspaceDim = .full) (hR : Returns E f g H) (hC : CurvedMinimum r m L f g H xs)
    (hM0 : 0 ≤ M) (hM : ∀ x, rnorm (x - xs) ≤ r → ∀ v, rdot v (rmv (H x) v) ≤ M * rdot v v)
    (hA : AwayFromBounds w E.lb E.ub xs) (hB : InteriorSize r m M L w tm eta R)
    (x0 : Fin n → ℝ) (startId : String) (hess0 : Hess0 Num) (st0 : St Num n) (happ : st0.happ = none)
    (ga : ℝ) (hga : E.opts.gatol = fin ga) (hga0 : 0 ≤ ga) (hstart : ∀ z, nudge E.lb E.ub (ofV x0) = ofV z → ga < rnorm (g z))
    (k : ℕ) (stk : St Num n) (curk : Funout Num n) (xk : Fin n → ℝ) (Dk : ℝ) (hk : LoopHead E (ofV x0) startId hess0 st0 k stk curk)
    (hxk : stk.x = ofV xk) (hdk : stk.delta = fin Dk) (hDk : 0 < Dk) (hDR : 9 * R ^ 2 ≤ 2 * w * Dk ^ 2) (hin : rnorm (xk - xs) ≤ R)
    (j : ℕ) (prev next : St Num n) (cur cur' new : Funout Num n) (step : Step Num n)
    (h : LoopHead E (ofV x0) startId hess0 st0 (k + j) prev cur) (hp : Pass E prev cur step new next cur') :
    ∃ (x y : Fin n → ℝ) (D D' rho : ℝ), prev.x = ofV x ∧ trialPoint prev step = ofV y ∧ next.x = ofV y ∧ rnorm (x - xs) ≤ R ∧ rnorm (y - xs) ≤ R ∧ f y < f x ∧
      next.trRatio = fin rho ∧ eta ≤ rho ∧ prev.delta = fin D ∧ next.delta = fin D' ∧ Dk ≤ D ∧ (D' = D ∨ D' = g2 * D) ∧
      rnorm (y - xs) ≤ rnorm (x - xs) / 2 ∧ rnorm (y - xs) ≤ (L + 5 * M / w) / m * rnorm (x - xs) ^ 2 := by
  obtain ⟨x, D, h1, h2, h3, h4, h5, h6, h7⟩ := interior_head hE htm O hX fuel hO hdim hR hC hM0 hM hA hB x0 startId hess0 st0 happ ga hga hga0 hstart k stk curk xk Dk hk hxk hdk hDk hDR hin j prev cur h
  have hD : 0 < D := hDk.trans_le h6
  have hg0 := gnz hga0 (interior_live hR x0 startId hess0 st0 ga hga hstart (k + j) prev cur h (continues_live E _ _ hp.continues) x h3)
  have hDD : 9 * R ^ 2 ≤ 2 * w * D ^ 2 := hDR.trans (mul_le_mul_of_nonneg_left (pow_le_pow_left₀ hDk.le h6 2) (by have := hB.w_pos; linarith))
  obtain ⟨y, rho, b0, b1, c1, c2, c3, c4, b2, b3, -⟩ := interior_pass hE htm O hX fuel hO hdim hR hC hM0 hM hA hB hp x D h1 h2 h3 h4 h5 hD hDD h7 hg0
  have hyR : rnorm (y - xs) ≤ R := by linarith [rnorm_nonneg (x - xs)]
  rcases b3 with b3 | b3
  · exact ⟨x, y, D, D, rho, h1, b0, b1, h7, hyR, c1, c2, c3, h5, b3, h6, Or.inl rfl, b2, c4⟩
  · exact ⟨x, y, D, g2 * D, rho, h1, b0, b1, h7, hyR, c1, c2, c3, h5, b3, h6, Or.inr rfl, b2, c4⟩

/-- **C93, rate.** Under the assumptions of `C93_step`, after `k + j` iterations the distance to the minimizer is at most `R / 2^(2^j - 1)`. -/
theorem C93_rate (hE : TRParams E mu eta g1 g2 D0) (htm : E.opts.thetaMax = fin tm) (O : ℕ → Oracles Num) (hX : ∀ k, ExactRoutines (O k)) (fuel : ℕ)
    (hO : ∀ k I, E.tr k I = trustRegion (O k) fuel E.opts.subspaceDim E.opts.stepbackStrat I)
    (hdim : E.opts.subspaceDim = .two ∨ E.opts.subspaceDim = .full) (hR : Returns E f g H) (hC : CurvedMinimum r m L f g H xs)
    (hM0 : 0 ≤ M) (hM : ∀ x, rnorm (x - xs) ≤ r → ∀ v, rdot v (rmv (H x) v) ≤ M * rdot v v)
    (hA : AwayFromBounds w E.lb E.ub xs) (hB : InteriorSize r m M L w tm eta R)
    (x0 : Fin n → ℝ) (startId : String) (hess0 : Hess0 Num) (st0 : St Num n) (happ : st0.happ = none)
    (ga : ℝ) (hga : E.opts.gatol = fin ga) (hga0 : 0 ≤ ga) (hstart : ∀ z, nudge E.lb E.ub (ofV x0) = ofV z → ga < rnorm (g z))
    (k : ℕ) (stk : St Num n) (curk : Funout Num n) (xk : Fin n → ℝ) (Dk : ℝ) (hk : LoopHead E (ofV x0) startId hess0 st0 k stk curk)
    (hxk : stk.x = ofV xk) (hdk : stk.delta = fin Dk) (hDk : 0 < Dk) (hDR : 9 * R ^ 2 ≤ 2 * w * Dk ^ 2) (hin : rnorm (xk - xs) ≤ R)
    (j : ℕ) (st : St Num n) (cur : Funout Num n) (h : LoopHead E (ofV x0) startId hess0 st0 (k + j) st cur) :
    ∃ x : Fin n → ℝ, st.x = ofV x ∧ rnorm (x - xs) ≤ R / 2 ^ (2 ^ j - 1) := by
  induction j generalizing st cur with
  | zero =>
    obtain ⟨rfl, rfl⟩ := loopHead_unique E _ startId hess0 st0 k _ _ _ _ hk h
    exact ⟨xk, hxk, by simpa using hin⟩
  | succ j ih =>
    obtain ⟨prev, cur0, step, new, hh, hp⟩ := loopHead_pass E _ startId hess0 st0 (k + j) st cur h
    obtain ⟨x', h1, h2⟩ := ih prev cur0 hh
    obtain ⟨x, y, D, D', rho, a1, -, a2, -, -, -, -, -, -, -, -, -, -, a4⟩ := C93_step hE htm O hX fuel hO hdim hR hC hM0 hM hA hB x0 startId hess0 st0 happ ga hga hga0 hstart k stk curk xk Dk hk hxk hdk hDk hDR hin
      j prev st cur0 cur new step hh hp
    obtain rfl : x = x' := ofV_inj.mp (a1.symm.trans h1)
    refine ⟨y, a2, a4.trans ?_⟩
    have h3 : (L + 5 * M / w) / m * rnorm (x - xs) ^ 2 ≤ (L + 5 * M / w) / m * (R / 2 ^ (2 ^ j - 1)) ^ 2 :=
      mul_le_mul_of_nonneg_left (pow_le_pow_left₀ (rnorm_nonneg _) h2 2) (div_nonneg (add_nonneg hC.L_nonneg (div_nonneg (by linarith) hB.w_pos.le)) hC.m_pos.le)
    refine h3.trans ?_
    have h5 : 2 ^ (j + 1) - 1 = 2 * (2 ^ j - 1) + 1 := by
      have := Nat.one_le_two_pow (n := j)
      rw [pow_succ]; omega
    rw [h5]
    have h6 : (L + 5 * M / w) / m * R ≤ 1 / 2 := hB.newton
    have h7 : (L + 5 * M / w) / m * (R / 2 ^ (2 ^ j - 1)) ^ 2 = ((L + 5 * M / w) / m * R) * (R / 2 ^ (2 * (2 ^ j - 1))) := by
      rw [div_pow, ← pow_mul, mul_comm (2 ^ j - 1) 2]; ring
    have h9 : R / 2 ^ (2 * (2 ^ j - 1) + 1) = R / 2 ^ (2 * (2 ^ j - 1)) / 2 := by rw [pow_succ 2 (2 * (2 ^ j - 1)), div_div]
    rw [h7, h9]
    have h8 : 0 ≤ R / 2 ^ (2 * (2 ^ j - 1)) := div_nonneg hB.pos.le (by positivity)
    have := mul_le_mul_of_nonneg_right h6 h8
    linarith

theorem interior_stops (hE : TRParams E mu eta g1 g2 D0) (htm : E.opts.thetaMax = fin tm) (O : ℕ → Oracles Num) (hX : ∀ k, ExactRoutines (O k)) (fuel : ℕ)
    (hO : ∀ k I, E.tr k I = trustRegion (O k) fuel E.opts.subspaceDim E.opts.stepbackStrat I)
    (hdim : E.opts.subspaceDim = .two ∨ E.opts.subspaceDim = .full) (hR : Returns E f g H) (hC : CurvedMinimum r m L f g H xs)
    (hM0 : 0 ≤ M) (hM : ∀ x, rnorm (x - xs) ≤ r → ∀ v, rdot v (rmv (H x) v) ≤ M * rdot v v)
    (hA : AwayFromBounds w E.lb E.ub xs) (hB : InteriorSize r m M L w tm eta R)
    (x0 : Fin n → ℝ) (startId : String) (hess0 : Hess0 Num) (st0 : St Num n) (happ : st0.happ = none)
    (ga : ℝ) (hga : E.opts.gatol = fin ga) (hga0 : 0 ≤ ga) (hstart : ∀ z, nudge E.lb E.ub (ofV x0) = ofV z → ga < rnorm (g z))
    (k : ℕ) (stk : St Num n) (curk : Funout Num n) (xk : Fin n → ℝ) (Dk : ℝ) (hk : LoopHead E (ofV x0) startId hess0 st0 k stk curk)
    (hxk : stk.x = ofV xk) (hdk : stk.delta = fin Dk) (hDk : 0 < Dk) (hDR : 9 * R ^ 2 ≤ 2 * w * Dk ^ 2) (hin : rnorm (xk - xs) ≤ R)
    (J : ℕ) (hJ : 5 / 4 * M * (R / 2 ^ (2 ^ J - 1)) ≤ ga) (j : ℕ) (st : St Num n) (cur : Funout Num n) (h : LoopHead E (ofV x0) startId hess0 st0 j st cur) : j < k + J + 1 := by
  by_contra hcon
  push Not at hcon
  obtain ⟨st1, cur1, h1⟩ := loopHead_prefix E _ startId hess0 st0 j st cur h (k + J + 1) hcon
  obtain ⟨prev, cur0, step, new, hh, hp⟩ := loopHead_pass E _ startId hess0 st0 (k + J) st1 cur1 h1
  obtain ⟨x, D, a1, -, a3, -, -, -, a7⟩ := interior_head hE htm O hX fuel hO hdim hR hC hM0 hM hA hB x0 startId hess0 st0 happ ga hga hga0 hstart k stk curk xk Dk hk hxk hdk hDk hDR hin J prev cur0 hh
  obtain ⟨x', b1, b2⟩ := C93_rate hE htm O hX fuel hO hdim hR hC hM0 hM hA hB x0 startId hess0 st0 happ ga hga hga0 hstart k stk curk xk Dk hk hxk hdk hDk hDR hin J prev cur0 hh
  obtain rfl : x = x' := ofV_inj.mp (a1.symm.trans b1)
  have h2 := interior_live hR x0 startId hess0 st0 ga hga hstart _ prev cur0 hh (continues_live E _ _ hp.continues) x a3
  have hm := hC.m_pos
  have hLR : L * R ≤ m / 2 := by
    have h4 : (L + 5 * M / w) / m * R ≤ 1 / 2 := hB.newton
    rw [div_mul_eq_mul_div, div_le_iff₀ hm] at h4
    have h5 : 0 ≤ 5 * M / w := div_nonneg (by linarith) hB.w_pos.le
    nlinarith [mul_nonneg h5 hB.pos.le]
  have h3 := curved_grad_le hC hM0 hM hLR a7 (by have := hB.inside; have := hB.pos; linarith)
  have h4 := mul_le_mul_of_nonneg_left b2 (mul_nonneg (by norm_num : (0 : ℝ) ≤ 5 / 4) hM0)
  linarith

/-- **C93, number of iterations.** If `gatol > 0`, a run that has arrived near the minimum after `k` iterations makes at most `J` more, for every `J` with
`5/4 M R / 2^(2^J - 1) ≤ gatol`: `J` grows like the logarithm of the logarithm of `1 / gatol`. -/
theorem C93_iterations (hE : TRParams E mu eta g1 g2 D0) (htm : E.opts.thetaMax = fin tm) (O : ℕ → Oracles Num) (hX : ∀ k, ExactRoutines (O k)) (fuel : ℕ)
    (hO : ∀ k I, E.tr k I = trustRegion (O k) fuel E.opts.subspaceDim E.opts.stepbackStrat I)
    (hdim : E.opts.subspaceDim = .two ∨ E.opts.subspaceDim = .full) (hR : Returns E f g H) (hC : CurvedMinimum r m L f g H xs)
    (hM0 : 0 ≤ M) (hM : ∀ x, rnorm (x - xs) ≤ r → ∀ v, rdot v (rmv (H x) v) ≤ M * rdot v v)
    (hA : AwayFromBounds w E.lb E.ub xs) (hB : InteriorSize r m M L w tm eta R)
    (x0 : Fin n → ℝ) (startId : String) (hess0 : Hess0 Num) (st0 : St Num n) (happ : st0.happ = none)
    (ga : ℝ) (hga : E.opts.gatol = fin ga) (hga0 : 0 ≤ ga) (hstart : ∀ z, nudge E.lb E.ub (ofV x0) = ofV z → ga < rnorm (g z))
    (k : ℕ) (stk : St Num n) (curk : Funout Num n) (xk : Fin n → ℝ) (Dk : ℝ) (hk : LoopHead E (ofV x0) startId hess0 st0 k stk curk)
    (hxk : stk.x = ofV xk) (hdk : stk.delta = fin Dk) (hDk : 0 < Dk) (hDR : 9 * R ^ 2 ≤ 2 * w * Dk ^ 2) (hin : rnorm (xk - xs) ≤ R)
    (J : ℕ) (hJ : 5 / 4 * M * (R / 2 ^ (2 ^ J - 1)) ≤ ga) (loops : ℕ) (st' : St Num n) (hmin : minimize E loops (ofV x0) startId hess0 st0 = .ok st') :
    st'.iteration ≤ k + J := by
  obtain ⟨j, st1, cur, st2, fl, -, hh, hc, rfl⟩ := run_end E (ofV x0) startId hess0 st0 loops st' hmin
  have hi := headInv E _ startId hess0 st0 j st1 cur hh
  have := interior_stops hE htm O hX fuel hO hdim hR hC hM0 hM hA hB x0 startId hess0 st0 happ ga hga hga0 hstart k stk curk xk Dk hk hxk hdk hDk hDR hin J hJ j st1 cur hh
  have h2 : st2.iteration = st1.iteration := by
    rcases checkContinue_false E st1 st2 hc with ⟨_, rfl⟩ | ⟨_, _, rfl⟩ | ⟨_, _, _, rfl⟩ | ⟨_, _, _, rfl⟩ <;> rfl
  show st2.iteration ≤ _
  rw [h2, hi.iteration]; omega

end Fides
