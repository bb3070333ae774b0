import Verif.Lemmas.Descent
import Verif.Props.Unbounded
import Verif.Props.Radius

/-! Helper lemmas: progress of one pass on an unbounded smooth problem, and how many passes there can be. -/

namespace Fides
open Num Spec
variable {n : ℕ}

theorem shrunk_real (a r : ℝ) : nanMin2 (fin a) (fin r / Fides.lit 4) = fin (min a (r / 4)) := by
  rw [lit_def, fin_div _ _ (by norm_num)]
  unfold nanMin2
  rw [fin_isNaN, fin_isNaN, fin_lt]
  simp only [Bool.false_eq_true, if_false, decide_eq_true_eq, Rat.cast_ofNat]
  split
  · rename_i h; rw [min_eq_right h.le]
  · rename_i h; rw [min_eq_left (not_lt.mp h)]

variable {E : Env Num n} {f : (Fin n → ℝ) → ℝ} {g : (Fin n → ℝ) → Fin n → ℝ} {mu eta g1 g2 D0 : ℝ}

/-- the trial evaluation of a pass is a call of the objective -/
theorem pass_evaluated {F : Type} [FloatOps F] {E : Env F n} {prev next : St F n} {cur cur' new : Funout F n} {step : Step F n}
    (hp : Pass E prev cur step new next cur') :
    ∃ m raw, funEval E.nargout E.resfun (E.obj m new.x) = .ok raw ∧ raw.typed new.x new.xId = some new := by
  obtain ⟨step', new', hist, hfin0, htr, hout, hnx, hnxi, hfin, hcase⟩ := iterate_ok E _ next cur cur' hp.body
  have hs : step' = step := by
    have h1 : E.tr prev.proposals (trInput E { prev with iteration := prev.iteration + 1, deltaIter := prev.delta,
                                                         ticks := prev.ticks + 1 }) = .ok step' := htr
    rw [hp.proposal] at h1
    cases h1; rfl
  subst hs
  obtain ⟨r, d, i, m, ef, c, mx, mxi, mf, mg, hpf⟩ := postCheck_frame E { prev with ticks := prev.ticks + 1 } step' new'
  have hevs : next.evals = { arg := trialPoint prev step', out := .ok new' } :: prev.evals := by
    rcases hcase with ⟨hacc, rfl, st4, hu, -, rfl⟩ | ⟨hacc, rfl, -, rfl⟩
    · obtain ⟨hbd, happ, hess, hhap, rfl⟩ := update_ok E step' _ cur _ st4 hu
      show (postCheck E _ step' _).evals = _
      rw [hpf]; rfl
    · show (postCheck E _ step' _).evals = _
      rw [hpf]; rfl
  have hn : new' = new := by
    have h1 := hp.evaluated
    rw [hevs] at h1
    simp only [List.cons.injEq, EvalRec.mk.injEq, Except.ok.injEq, and_true] at h1
    exact h1.2
  subst hn
  have hout' : (evaluate E (trialPoint { prev with ticks := prev.ticks + 1 } step') prev.nextId
    { preIter { prev with ticks := prev.ticks + 1 } with proposals := prev.proposals + 1, nextId := prev.nextId + 1 }).1 = .ok new' := hout
  rw [← hnx] at hout'
  have hid : new'.xId = prev.nextId := hnxi
  simp only [evaluate] at hout'
  split at hout'
  · cases hout'
  · rename_i raw hraw
    split at hout'
    · rename_i fo hty
      have hfo : fo = new' := by injection hout'
      rw [hfo] at hty
      exact ⟨_, raw, hraw, by rw [hid]; exact hty⟩
    · cases hout'

/-- the current evaluation is a call of the objective -/
theorem head_evaluated {F : Type} [FloatOps F] (E : Env F n) (x0 : Vec F n) (startId : String) (hess0 : Hess0 F) (st0 : St F n) (k : ℕ)
    (st : St F n) (cur : Funout F n) (h : LoopHead E x0 startId hess0 st0 k st cur) :
    ∃ m raw, funEval E.nargout E.resfun (E.obj m cur.x) = .ok raw ∧ raw.typed cur.x cur.xId = some cur := by
  induction k generalizing st cur with
  | zero =>
    generalize hk : 0 = k at h
    cases h with
    | start st1 st cur hb hs =>
      obtain ⟨raw, happ, h1, _, _, h2, h3, h4, _, _⟩ := setup_ok _ _ _ _ _ hs
      rw [← h3] at h1 h2
      rw [← h4] at h2
      exact ⟨_, raw, h1, h2⟩
    | next => cases hk
  | succ k ih =>
    obtain ⟨prev, cur0, step, new, hh, hp⟩ := loopHead_pass E x0 startId hess0 st0 k st cur h
    rcases (pass_facts E _ _ _ _ _ _ hp).cases with ⟨_, h1, _⟩ | ⟨_, h1, _⟩
    · rw [h1]; exact pass_evaluated hp
    · rw [h1]; exact ih prev cur0 hh

/-- the value and gradient found by a pass -/
theorem pass_evaluates (hev : Evaluates E f g) {prev next : St Num n} {cur cur' new : Funout Num n} {step : Step Num n}
    (hp : Pass E prev cur step new next cur') (y : Fin n → ℝ) (hy : vadd (vadd prev.x step.s) step.s0 = ofV y) :
    new.x = ofV y ∧ new.fval = fin (f y) ∧ new.grad = ofV (g y) := by
  have hx : new.x = ofV y := by rw [hp.point, hy]
  obtain ⟨m, raw, h1, h2⟩ := pass_evaluated hp
  rw [hx] at h1 h2
  exact ⟨hx, hev m y _ raw new h1 h2⟩

/-- what a pass achieves, given the value and gradient at its trial point and the model decrease of its proposal -/
theorem pass_progress_at (hE : TRParams E mu eta g1 g2 D0) (hU : NoBounds E.lb E.ub)
    {prev next : St Num n} {cur cur' new : Funout Num n} {step : Step Num n} (hp : Pass E prev cur step new next cur')
    (x p : Fin n → ℝ) (B : Fin n → Fin n → ℝ) (D : ℝ) (hx : prev.x = ofV x) (hf : prev.fval = fin (f x)) (hg : prev.grad = ofV (g x))
    (hH : prev.hess = ofM B) (hd : prev.delta = fin D)
    (hss : vadd step.ss step.ss0 = ofV p) (hnx : new.x = ofV (x + p)) (hnf : new.fval = fin (f (x + p))) (hng : new.grad = ofV (g (x + p)))
    (hq : step.qpval = fin (quad B (g x) p)) (hneg : quad B (g x) p < 0) :
    ∃ x' D', next.x = ofV x' ∧ next.fval = fin (f x') ∧ next.grad = ofV (g x') ∧ next.delta = fin D' ∧
      ((mu * -quad B (g x) p < f x - f (x + p) ∧ x' = x + p ∧ (D' = D ∨ D' = g2 * D)) ∨
       (f x - f (x + p) ≤ mu * -quad B (g x) p ∧ f x' ≤ f x ∧ (x' = x ∨ x' = x + p) ∧ D' = min (g1 * D) (rnorm p / 4))) := by
  have hF := pass_facts E _ _ _ _ _ _ hp
  have hdv : (trInput E (preIter prev)).dv = ofV 0 := (C51_scaling E (preIter prev) x (g x) B hU hx hg hH).2.1
  have hpos : 0 < -quad B (g x) p := by linarith
  have haug : dot (vadd step.ss step.ss0) (fun i => (trInput E (preIter prev)).dv i * FloatOps.abs (new.grad i) * vadd step.ss step.ss0 i) = fin 0 := by
    rw [hss, hdv, hng]
    have : (fun i => (ofV (0 : Fin n → ℝ) i : Num) * FloatOps.abs (ofV (g (x + p)) i) * ofV p i) = ofV 0 := by
      funext i; simp
    rw [this, dot_ofV, rdot_zero]
  have hrat : ratioOf (afterEval prev step (.ok new)).fval new step (trInput E (preIter prev)).dv =
      fin ((f x - f (x + p)) / -quad B (g x) p) := by
    unfold ratioOf
    have h1 : (afterEval prev step (.ok new)).fval = fin (f x) := hf
    rw [haug, h1, hnf, hq]
    simp only [fin_neg, lit_def, Rat.cast_zero, fin_le, fin_sub, fin_mul, mul_zero, sub_zero]
    rw [if_neg (by simp only [decide_eq_true_eq]; exact not_le.mpr hpos), fin_div _ _ hpos.ne']
  set r := (f x - f (x + p)) / -quad B (g x) p with hr
  have hrp : r * -quad B (g x) p = f x - f (x + p) := div_mul_cancel₀ _ hpos.ne'
  have hacc : (radiusStep E prev step new).1 = decide (0 < r) := by
    unfold radiusStep
    rcases updateTrRadius_cases E new step (trInput E (preIter prev)).dv (afterEval prev step (.ok new)) with ⟨h, _⟩ | ⟨_, r', hr', h⟩
    · rw [hnf] at h; simp at h
    · rw [hrat] at hr'
      subst hr'
      rcases h with ⟨_, _, h⟩ | ⟨_, _, h⟩ | ⟨_, _, m, h⟩ <;> rw [h] <;> simp
  have hdel : ∃ D', (radiusStep E prev step new).2.delta = fin D' ∧
      ((mu < r ∧ (D' = D ∨ D' = g2 * D)) ∨ (r ≤ mu ∧ D' = min (g1 * D) (rnorm p / 4))) := by
    have had : (afterEval prev step (.ok new)).delta = fin D := hd
    unfold radiusStep
    rcases updateTrRadius_cases E new step (trInput E (preIter prev)).dv (afterEval prev step (.ok new)) with ⟨h, _⟩ | ⟨_, r', hr', h⟩
    · rw [hnf] at h; simp at h
    · rw [hrat] at hr'
      subst hr'
      rcases h with ⟨h1, _, h⟩ | ⟨_, h1, h⟩ | ⟨_, h1, m, h⟩
      · refine ⟨g2 * D, by rw [h]; simp only; rw [had, hE.gamma2, fin_mul], Or.inl ⟨?_, Or.inr rfl⟩⟩
        rw [hE.heta, fin_le, decide_eq_true_eq] at h1
        exact hE.mu_eta.trans_le h1
      · refine ⟨min (g1 * D) (rnorm p / 4), ?_, Or.inr ⟨?_, rfl⟩⟩
        · rw [h]; simp only [shrunkDelta]
          rw [had, hE.gamma1, hss, norm_ofV, fin_mul, shrunk_real, mul_comm]
        · rw [hE.hmu, fin_le, decide_eq_true_eq] at h1; exact h1
      · refine ⟨D, by rw [h]; exact had, Or.inl ⟨?_, Or.inl rfl⟩⟩
        rw [hE.hmu, fin_le, decide_eq_false_iff_not] at h1
        exact not_le.mp h1
  obtain ⟨D', hD', hcase⟩ := hdel
  have hnd : next.delta = fin D' := by rw [hF.delta, hD']
  rcases hF.cases with ⟨hac, _, _, h1, h2, h3⟩ | ⟨hac, _, h1, h2, h3, _⟩
  · rw [hacc, decide_eq_true_eq] at hac
    refine ⟨x + p, D', by rw [h1, C51_nudge _ _ _ hU, hnx], by rw [h2, hnf], by rw [h3, hng], hnd, ?_⟩
    rcases hcase with ⟨hm, hD⟩ | ⟨hm, hD⟩
    · left; exact ⟨by rw [← hrp]; exact mul_lt_mul_of_pos_right hm hpos, rfl, hD⟩
    · right
      refine ⟨by rw [← hrp]; exact mul_le_mul_of_nonneg_right hm hpos.le, ?_, Or.inr rfl, hD⟩
      have := mul_pos hac hpos
      linarith
  · rw [hacc, decide_eq_false_iff_not, not_lt] at hac
    refine ⟨x, D', by rw [h1, hx], by rw [h2, hf], by rw [h3, hg], hnd, ?_⟩
    rcases hcase with ⟨hm, hD⟩ | ⟨hm, hD⟩
    · have := hE.mu_pos; linarith
    · right
      exact ⟨by rw [← hrp]; exact mul_le_mul_of_nonneg_right hm hpos.le, le_rfl, Or.inl rfl, hD⟩

/-- what a pass achieves, given the model decrease of its proposal -/
theorem pass_progress (hE : TRParams E mu eta g1 g2 D0) (hU : NoBounds E.lb E.ub) (hev : Evaluates E f g)
    {prev next : St Num n} {cur cur' new : Funout Num n} {step : Step Num n} (hp : Pass E prev cur step new next cur')
    (x p : Fin n → ℝ) (B : Fin n → Fin n → ℝ) (D : ℝ) (hx : prev.x = ofV x) (hf : prev.fval = fin (f x)) (hg : prev.grad = ofV (g x))
    (hH : prev.hess = ofM B) (hd : prev.delta = fin D)
    (hss : vadd step.ss step.ss0 = ofV p) (htrial : vadd (vadd prev.x step.s) step.s0 = ofV (x + p))
    (hq : step.qpval = fin (quad B (g x) p)) (hneg : quad B (g x) p < 0) :
    ∃ x' D', next.x = ofV x' ∧ next.fval = fin (f x') ∧ next.grad = ofV (g x') ∧ next.delta = fin D' ∧
      ((mu * -quad B (g x) p < f x - f (x + p) ∧ x' = x + p ∧ (D' = D ∨ D' = g2 * D)) ∨
       (f x - f (x + p) ≤ mu * -quad B (g x) p ∧ f x' ≤ f x ∧ D' = min (g1 * D) (rnorm p / 4))) := by
  obtain ⟨hnx, hnf, hng⟩ := pass_evaluates hev hp (x + p) htrial
  obtain ⟨x', D', h1, h2, h3, h4, h⟩ := pass_progress_at hE hU hp x p B D hx hf hg hH hd hss hnx hnf hng hq hneg
  exact ⟨x', D', h1, h2, h3, h4, h.imp id fun h => ⟨h.1, h.2.1, h.2.2.2⟩⟩

end Fides

namespace Fides
open Num Spec
variable {n : ℕ}

/-- the constants of the counting argument: model decrease `a * min D b`, model error `C * ℓ²` -/
structure CountConst (mu a b b' C c : ℝ) : Prop where
  a_pos : 0 < a
  b_pos : 0 < b
  b'_pos : 0 < b'
  C_pos : 0 < C
  c_def : c = min b' (min b ((1 - mu) * a / C))

/-- a step after which the radius shrinks is long -/
theorem shrink_long {mu a b b' C c : ℝ} (h : CountConst mu a b b' C c) (hmu : mu < 1) {D l pred act : ℝ} (hl0 : 0 ≤ l) (hD : 0 < D)
    (hpred : a * min D b ≤ pred) (hlen : l ≤ D ∨ b' ≤ min D l) (herr : pred - act ≤ C * (l * l)) (hfail : act ≤ mu * pred) : c ≤ l ∧ c ≤ D := by
  have ha := h.a_pos
  have hb := h.b_pos
  have hC := h.C_pos
  have hmin : 0 < min D b := lt_min hD hb
  have hpos : 0 < pred := lt_of_lt_of_le (mul_pos ha hmin) hpred
  have key : (1 - mu) * pred ≤ C * (l * l) := by nlinarith
  rcases hlen with hlen | hlen
  · have hcl : c ≤ l := by
      rw [h.c_def]
      by_contra hcon
      push Not at hcon
      have h1 : l < b := lt_of_lt_of_le hcon ((min_le_right _ _).trans (min_le_left _ _))
      have h2 : l < (1 - mu) * a / C := lt_of_lt_of_le hcon ((min_le_right _ _).trans (min_le_right _ _))
      have hl : 0 < l := by
        rcases hl0.eq_or_lt with h0 | h0
        · rw [← h0] at key; nlinarith [mul_pos (sub_pos.mpr hmu) hpos]
        · exact h0
      rw [lt_div_iff₀ hC] at h2
      have h3 : a * l ≤ pred := le_trans (mul_le_mul_of_nonneg_left (le_min hlen h1.le) ha.le) hpred
      have h4 : (1 - mu) * (a * l) ≤ C * (l * l) := le_trans (mul_le_mul_of_nonneg_left h3 (sub_pos.mpr hmu).le) key
      nlinarith [mul_pos hl (sub_pos.mpr h2)]
    exact ⟨hcl, hcl.trans hlen⟩
  · rw [h.c_def]
    exact ⟨(min_le_left _ _).trans (hlen.trans (min_le_right _ _)), (min_le_left _ _).trans (hlen.trans (min_le_left _ _))⟩

end Fides

namespace Fides
open Num Spec
variable {n : ℕ} {E : Env Num n} {f : (Fin n → ℝ) → ℝ} {g : (Fin n → ℝ) → Fin n → ℝ} {mu eta g1 g2 D0 : ℝ}

/-- the first loop head on an unbounded problem -/
theorem start_values (hU : NoBounds E.lb E.ub) (hev : Evaluates E f g) (x0 : Fin n → ℝ) (startId : String) (hess0 : Hess0 Num) (st0 st : St Num n)
    (cur : Funout Num n) (h : LoopHead E (ofV x0) startId hess0 st0 0 st cur) :
    st.x = ofV x0 ∧ st.fval = fin (f x0) ∧ st.grad = ofV (g x0) := by
  generalize hk : 0 = k at h
  cases h with
  | start st1 st cur hb hs =>
    obtain ⟨rfl, _⟩ := checkInBounds_ok _ _ _ _ hb
    obtain ⟨raw, happ, h1, _, _, h2, _, _, _, rfl⟩ := setup_ok _ _ _ _ _ hs
    have hx : (startState E (ofV x0) startId st0).x = ofV x0 := by
      show nudge E.lb E.ub (ofV x0) = _
      rw [C51_nudge _ _ _ hU]
    rw [hx] at h1 h2
    obtain ⟨h3, h4⟩ := hev _ x0 _ raw cur h1 h2
    obtain ⟨a, b, c, d, hf⟩ := setupState_frame (startState E (ofV x0) startId st0) cur happ
    refine ⟨?_, ?_, ?_⟩
    · show (setupState _ _ _).x = _; rw [hf]; exact hx
    · show (setupState _ _ _).fval = _; rw [hf]; exact h3
    · show (setupState _ _ _).grad = _; rw [hf]; exact h4
  | next => cases hk

/-- the proposal of a pass reduces the model by at least `a * min D b` wherever the gradient is at least `eps` long -/
def ModelDecrease (E : Env Num n) (g : (Fin n → ℝ) → Fin n → ℝ) (M a b b' eps : ℝ) (prev : St Num n) (step : Step Num n) : Prop :=
  ∀ (x : Fin n → ℝ) (D : ℝ), prev.x = ofV x → prev.grad = ofV (g x) → prev.delta = fin D → 0 < D → eps ≤ rnorm (g x) →
    ∃ (B : Fin n → Fin n → ℝ) (p : Fin n → ℝ), prev.hess = ofM B ∧ (∀ v, -(M * rdot v v) ≤ rdot v (rmv B v)) ∧ vadd step.ss step.ss0 = ofV p ∧
      vadd (vadd prev.x step.s) step.s0 = ofV (x + p) ∧
      step.qpval = fin (quad B (g x) p) ∧ quad B (g x) p ≤ -(a * min D b) ∧ (rnorm p ≤ D ∨ b' ≤ min D (rnorm p))

/-- after `k` passes: `G` of them reduced the objective by at least `dec`, the other ones shrunk the radius -/
structure Counted (f : (Fin n → ℝ) → ℝ) (g : (Fin n → ℝ) → Fin n → ℝ) (x0 : Fin n → ℝ) (g1 g2 D0 lo dec : ℝ) (k : ℕ) (st : St Num n) (x : Fin n → ℝ) (D : ℝ)
    (G K : ℕ) : Prop where
  count : G + K = k
  hx : st.x = ofV x
  fval : st.fval = fin (f x)
  grad : st.grad = ofV (g x)
  delta : st.delta = fin D
  lower : lo ≤ D
  upper : D ≤ D0 * g2 ^ G * g1 ^ K
  reduced : f x ≤ f x0 - G * dec

theorem run_counted (hE : TRParams E mu eta g1 g2 D0) (hU : NoBounds E.lb E.ub) (hev : Evaluates E f g) (L M : ℝ)
    (hL : SmoothWith L f g) {a b b' c eps : ℝ} (hC : CountConst mu a b b' ((L + M) / 2) c) (x0 : Fin n → ℝ) (startId : String) (hess0 : Hess0 Num) (st0 : St Num n)
    (hdec : ∀ k prev cur step new next cur', LoopHead E (ofV x0) startId hess0 st0 k prev cur → Pass E prev cur step new next cur' →
      ModelDecrease E g M a b b' eps prev step)
    (k : ℕ) (st : St Num n) (cur : Funout Num n) (h : LoopHead E (ofV x0) startId hess0 st0 k st cur)
    (hbig : ∀ j < k, ∀ st' cur' x', LoopHead E (ofV x0) startId hess0 st0 j st' cur' → st'.x = ofV x' → eps ≤ rnorm (g x')) :
    ∃ x D G K, Counted f g x0 g1 g2 D0 (min D0 (min g1 (1 / 4) * c)) (mu * (a * min (min D0 (min g1 (1 / 4) * c)) b)) k st x D G K := by
  induction k generalizing st cur with
  | zero =>
    obtain ⟨h1, h2, h3⟩ := start_values hU hev x0 startId hess0 st0 st cur h
    refine ⟨x0, D0, 0, 0, rfl, h1, h2, h3, ?_, min_le_left _ _, by simp, by simp⟩
    rw [start_delta E _ _ _ _ st cur h, hE.deltaInit]
  | succ k ih =>
    obtain ⟨prev, cur0, step, new, hh, hp⟩ := loopHead_pass E _ startId hess0 st0 k st cur h
    obtain ⟨x, D, G, K, hi⟩ := ih prev cur0 hh (fun j hj => hbig j (by omega))
    set lo := min D0 (min g1 (1 / 4) * c) with hlo
    have hcpos : 0 < c := by
      rw [hC.c_def]
      exact lt_min hC.b'_pos (lt_min hC.b_pos (div_pos (mul_pos (sub_pos.mpr hE.mu_lt) hC.a_pos) hC.C_pos))
    have hlop : 0 < lo := lt_min hE.D0_pos (mul_pos (lt_min hE.g1_pos (by norm_num)) hcpos)
    have hDpos : 0 < D := hlop.trans_le hi.lower
    obtain ⟨B, p, hH, hM, hss, htr, hq, hqd, hlen⟩ := hdec k prev cur0 step new st cur hh hp x D hi.hx hi.grad hi.delta hDpos
      (hbig k (by omega) prev cur0 x hh hi.hx)
    have hab : 0 < a * min D b := mul_pos hC.a_pos (lt_min hDpos hC.b_pos)
    have hneg : quad B (g x) p < 0 := by linarith
    obtain ⟨x', D', hx', hf', hg', hd', hcase⟩ := pass_progress hE hU hev hp x p B D hi.hx hi.fval hi.grad hH hi.delta hss htr hq hneg
    rcases hcase with ⟨hgood, hxp, hD'⟩ | ⟨hbad, hle, hD'⟩
    · refine ⟨x', D', G + 1, K, by have := hi.count; omega, hx', hf', hg', hd', ?_, ?_, ?_⟩
      · refine hi.lower.trans ?_
        rcases hD' with rfl | rfl
        · exact le_rfl
        · nlinarith [hE.g2_ge]
      · have h1 : D' ≤ g2 * D := by
          rcases hD' with rfl | rfl
          · nlinarith [hE.g2_ge]
          · exact le_rfl
        have hg2 : 0 ≤ g2 := by linarith [hE.g2_ge]
        calc D' ≤ g2 * D := h1
          _ ≤ g2 * (D0 * g2 ^ G * g1 ^ K) := mul_le_mul_of_nonneg_left hi.upper hg2
          _ = D0 * g2 ^ (G + 1) * g1 ^ K := by rw [pow_succ]; ring
      · have h1 : mu * (a * min lo b) ≤ mu * (a * min D b) :=
          mul_le_mul_of_nonneg_left (mul_le_mul_of_nonneg_left (min_le_min_right b hi.lower) hC.a_pos.le) hE.mu_pos.le
        have h2 : mu * (a * min D b) ≤ mu * -quad B (g x) p := mul_le_mul_of_nonneg_left (by linarith) hE.mu_pos.le
        have h3 := hi.reduced
        rw [hxp]
        push_cast
        linarith
    · have hup := smooth_upper hL x p
      have herr : -quad B (g x) p - (f x - f (x + p)) ≤ (L + M) / 2 * (rnorm p * rnorm p) := by
        have h1 := hM p
        rw [rnorm_sq]
        unfold quad
        linarith
      obtain ⟨hc1, hc2⟩ := shrink_long hC hE.mu_lt (rnorm_nonneg p) hDpos (by linarith) hlen herr hbad
      refine ⟨x', D', G, K + 1, by have := hi.count; omega, hx', hf', hg', hd', ?_, ?_, ?_⟩
      · refine (min_le_right _ _).trans ?_
        rw [hD']
        refine le_min ?_ ?_
        · exact mul_le_mul (min_le_left _ _) hc2 hcpos.le hE.g1_pos.le
        · have : min g1 (1 / 4) * c ≤ 1 / 4 * rnorm p := mul_le_mul (min_le_right _ _) hc1 hcpos.le (by norm_num)
          linarith
      · calc D' ≤ g1 * D := by rw [hD']; exact min_le_left _ _
          _ ≤ g1 * (D0 * g2 ^ G * g1 ^ K) := mul_le_mul_of_nonneg_left hi.upper hE.g1_pos.le
          _ = D0 * g2 ^ G * g1 ^ (K + 1) := by rw [pow_succ]; ring
      · exact hle.trans hi.reduced

/-- counting the passes -/
theorem counted_bound (hE : TRParams E mu eta g1 g2 D0) {x0 x : Fin n → ℝ} {lo dec D fmin : ℝ} (hdec : 0 < dec) {k G K : ℕ} {st : St Num n}
    (h : Counted f g x0 g1 g2 D0 lo dec k st x D G K) (hmin : ∀ y, fmin ≤ f y) (G' K' : ℕ) (hG : f x0 - fmin < G' * dec)
    (hK : D0 * g2 ^ G' * g1 ^ K' < lo) : k < G' + K' := by
  have h1 := h.count
  have hGG : G < G' := by
    by_contra hcon
    push Not at hcon
    have h2 : (G' : ℝ) ≤ G := by exact_mod_cast hcon
    have := mul_le_mul_of_nonneg_right h2 hdec.le
    linarith [h.reduced, hmin x]
  by_contra hcon
  push Not at hcon
  have hKK : K' ≤ K := by omega
  have e1 : g2 ^ G ≤ g2 ^ G' := pow_le_pow_right₀ hE.g2_ge hGG.le
  have e2 : g1 ^ K ≤ g1 ^ K' := pow_le_pow_of_le_one hE.g1_pos.le hE.g1_lt.le hKK
  have hg2 : 0 < g2 := by linarith [hE.g2_ge]
  have e3 : D0 * g2 ^ G * g1 ^ K ≤ D0 * g2 ^ G' * g1 ^ K' := by
    apply mul_le_mul _ e2 (pow_nonneg hE.g1_pos.le _) (mul_nonneg hE.D0_pos.le (pow_nonneg hg2.le _))
    exact mul_le_mul_of_nonneg_left e1 hE.D0_pos.le
  linarith [h.lower, h.upper]

end Fides
