import Verif.Spec.Domain
import Verif.Lemmas.Converge

/-!
Helper lemmas: runs on an objective that is only defined on a part of the space.
-/

namespace Fides.Num
open Spec
variable {n : ℕ}

theorem near_upper {L r : ℝ} {dom S : Set (Fin n → ℝ)} {f : (Fin n → ℝ) → ℝ} {g : (Fin n → ℝ) → Fin n → ℝ} (h : SmoothNear L r dom S f g)
    (x s : Fin n → ℝ) (hx : x ∈ S) (hs : rnorm s < r) : f (x + s) ≤ f x + rdot (g x) s + L / 2 * rdot s s := by
  have hin : ∀ t : ℝ, t ∈ Set.Icc (0 : ℝ) 1 → rnorm (t • s) < r := by
    intro t ht
    rw [rnorm_smul, abs_of_nonneg ht.1]
    have := mul_le_mul_of_nonneg_right ht.2 (rnorm_nonneg s)
    linarith
  have hder : ∀ t : ℝ, t ∈ Set.Icc (0 : ℝ) 1 → HasDerivAt (fun u : ℝ => f (x + u • s)) (rdot (g (x + t • s)) s) t := by
    intro t ht
    have h1 := h.deriv x hx (t • s) (hin t ht) s
    have h2 : HasDerivAt (fun u : ℝ => u - t) 1 t := (hasDerivAt_id t).sub_const t
    have h3 : HasDerivAt (fun u : ℝ => f (x + t • s + u • s)) (rdot (g (x + t • s)) s) (t - t) := by rw [sub_self]; exact h1
    have h4 := HasDerivAt.comp (h := fun u : ℝ => u - t) (h₂ := fun u : ℝ => f (x + t • s + u • s)) t h3 h2
    rw [mul_one] at h4
    refine h4.congr_of_eventuallyEq (Filter.Eventually.of_forall fun u => ?_)
    simp only [Function.comp]
    congr 1
    rw [add_assoc, ← add_smul]; congr 2; ring
  let φ : ℝ → ℝ := fun t => f (x + t • s) - t * rdot (g x) s - L / 2 * rdot s s * t ^ 2
  have hφ : ∀ t : ℝ, t ∈ Set.Icc (0 : ℝ) 1 → HasDerivAt φ (rdot (g (x + t • s)) s - rdot (g x) s - L / 2 * rdot s s * (2 * t)) t := by
    intro t ht
    have h1 := hder t ht
    have h2 : HasDerivAt (fun u : ℝ => u * rdot (g x) s) (rdot (g x) s) t := by
      simpa using (hasDerivAt_id t).mul_const (rdot (g x) s)
    have h3 : HasDerivAt (fun u : ℝ => L / 2 * rdot s s * u ^ 2) (L / 2 * rdot s s * (2 * t)) t := by
      have := (hasDerivAt_pow 2 t).const_mul (L / 2 * rdot s s)
      simpa using this
    exact (h1.sub h2).sub h3
  have hanti : AntitoneOn φ (Set.Icc 0 1) := by
    refine antitoneOn_of_deriv_nonpos (convex_Icc 0 1) (fun t ht => (hφ t ht).continuousAt.continuousWithinAt)
      (fun t ht => (hφ t (interior_subset ht)).differentiableAt.differentiableWithinAt) (fun t ht' => ?_)
    have htI := interior_subset ht'
    have ht := ht'
    rw [interior_Icc] at ht
    rw [(hφ t htI).deriv, ← sub_rdot]
    have h1 := cauchy_schwarz (g (x + t • s) - g x) s
    have h2 := h.lipschitz x hx (t • s) (hin t htI)
    rw [rnorm_smul, abs_of_pos ht.1] at h2
    have h3 := mul_le_mul_of_nonneg_right h2 (rnorm_nonneg s)
    have h4 := rnorm_sq s
    have h5 : L * (t * rnorm s) * rnorm s = L / 2 * (rnorm s * rnorm s) * (2 * t) := by ring
    rw [h4] at h5
    linarith
  have h1 := hanti (Set.left_mem_Icc.mpr zero_le_one) (Set.right_mem_Icc.mpr zero_le_one) zero_le_one
  simp only [φ, one_smul, zero_smul, add_zero] at h1
  linarith

end Fides.Num

namespace Fides
open Num Spec
variable {n : ℕ} {E : Env Num n} {dom : Set (Fin n → ℝ)} {f : (Fin n → ℝ) → ℝ} {g : (Fin n → ℝ) → Fin n → ℝ} {mu eta g1 g2 D0 : ℝ}

/-- a pass whose trial value is not finite leaves the point unchanged and shrinks the radius -/
theorem pass_undefined (hE : TRParams E mu eta g1 g2 D0) {prev next : St Num n} {cur cur' new : Funout Num n} {step : Step Num n}
    (hp : Pass E prev cur step new next cur') (p : Fin n → ℝ) (D : ℝ) (hd : prev.delta = fin D) (hss : vadd step.ss step.ss0 = ofV p)
    (hnew : isFinite new.fval = false) :
    next.x = prev.x ∧ next.fval = prev.fval ∧ next.grad = prev.grad ∧ next.delta = fin (min (g1 * D) (rnorm p / 4)) := by
  have hF := pass_facts E _ _ _ _ _ _ hp
  have had : (afterEval prev step (.ok new)).delta = fin D := hd
  have hr : (radiusStep E prev step new).1 = false ∧ (radiusStep E prev step new).2.delta = fin (min (g1 * D) (rnorm p / 4)) := by
    unfold radiusStep
    rcases updateTrRadius_cases E new step (trInput E (preIter prev)).dv (afterEval prev step (.ok new)) with ⟨_, h⟩ | ⟨h, _⟩
    · rw [h]
      refine ⟨rfl, ?_⟩
      simp only [shrunkDelta]
      rw [had, hE.gamma1, hss, norm_ofV, fin_mul, shrunk_real, mul_comm]
    · rw [hnew] at h; cases h
  rcases hF.cases with ⟨h, _⟩ | ⟨_, _, h1, h2, h3, _⟩
  · rw [hr.1] at h; cases h
  · exact ⟨h1, h2, h3, by rw [hF.delta, hr.2]⟩

/-- the point of every loop head is in the domain -/
theorem head_values_in (hU : NoBounds E.lb E.ub) (hev : EvaluatesIn E dom f g) (x0 : Vec Num n) (startId : String) (hess0 : Hess0 Num) (st0 : St Num n) (k : ℕ)
    (st : St Num n) (cur : Funout Num n) (h : LoopHead E x0 startId hess0 st0 k st cur) (x : Fin n → ℝ) (hx : st.x = ofV x) :
    x ∈ dom ∧ cur.x = ofV x ∧ st.fval = fin (f x) ∧ st.grad = ofV (g x) := by
  have hi := headInv E x0 startId hess0 st0 k st cur h
  have hcx : cur.x = ofV x := by
    rcases hi.x with ⟨_, h1⟩ | h1 | h1
    · rw [← h1, hx]
    · rw [← h1, hx]
    · rw [C51_nudge _ _ _ hU] at h1; rw [← h1, hx]
  obtain ⟨m, raw, h1, h2⟩ := head_evaluated E x0 startId hess0 st0 k st cur h
  rw [hcx] at h1 h2
  have hfin : isFinite cur.fval = true := by
    have := hi.finite
    unfold allFinite at this
    simp only [Bool.and_eq_true] at this
    exact this.1.1
  have hdom : x ∈ dom := by
    by_contra hcon
    have := hev.outside m x _ raw cur hcon h1 h2
    rw [hfin] at this; cases this
  obtain ⟨h3, h4⟩ := hev.inside m x _ raw cur hdom h1 h2
  exact ⟨hdom, hcx, by rw [hi.fval, h3], by rw [hi.grad, h4]⟩

/-- the first loop head -/
theorem start_point (hU : NoBounds E.lb E.ub) (x0 : Fin n → ℝ) (startId : String) (hess0 : Hess0 Num) (st0 st : St Num n)
    (cur : Funout Num n) (h : LoopHead E (ofV x0) startId hess0 st0 0 st cur) : st.x = ofV x0 := by
  generalize hk : 0 = k at h
  cases h with
  | start st1 st cur hb hs =>
    obtain ⟨rfl, _⟩ := checkInBounds_ok _ _ _ _ hb
    obtain ⟨raw, happ, h1, _, _, h2, _, _, _, rfl⟩ := setup_ok _ _ _ _ _ hs
    have hx : (startState E (ofV x0) startId st0).x = ofV x0 := by
      show nudge E.lb E.ub (ofV x0) = _
      rw [C51_nudge _ _ _ hU]
    obtain ⟨a, b, c, d, hf⟩ := setupState_frame (startState E (ofV x0) startId st0) cur happ
    show (setupState _ _ _).x = _; rw [hf]; exact hx
  | next => cases hk

theorem run_counted_in (hE : TRParams E mu eta g1 g2 D0) (hU : NoBounds E.lb E.ub) (hev : EvaluatesIn E dom f g) (L M r : ℝ) (x0 : Fin n → ℝ)
    (hL : SmoothNear L r dom (levelSet dom f x0) f g) {a b b' c eps : ℝ} (hC : CountConst mu a b b' ((L + M) / 2) c) (hcr : c ≤ r)
    (startId : String) (hess0 : Hess0 Num) (st0 : St Num n) (hdec : Decreasing E g M a b b' eps x0 startId hess0 st0)
    (k : ℕ) (st : St Num n) (cur : Funout Num n) (h : LoopHead E (ofV x0) startId hess0 st0 k st cur)
    (hbig : ∀ j < k, ∀ st' cur' x', LoopHead E (ofV x0) startId hess0 st0 j st' cur' → st'.x = ofV x' → eps ≤ rnorm (g x')) :
    ∃ x D G K, Counted f g x0 g1 g2 D0 (min D0 (min g1 (1 / 4) * c)) (mu * (a * min (min D0 (min g1 (1 / 4) * c)) b)) k st x D G K := by
  induction k generalizing st cur with
  | zero =>
    have h1 := start_point hU x0 startId hess0 st0 st cur h
    obtain ⟨_, _, h2, h3⟩ := head_values_in hU hev _ startId hess0 st0 0 st cur h x0 h1
    refine ⟨x0, D0, 0, 0, rfl, h1, h2, h3, ?_, min_le_left _ _, by simp, by simp⟩
    rw [start_delta E _ _ _ _ st cur h, hE.deltaInit]
  | succ k ih =>
    obtain ⟨prev, cur0, step, new, hh, hp⟩ := loopHead_pass E _ startId hess0 st0 k st cur h
    obtain ⟨x, D, G, K, hi⟩ := ih prev cur0 hh (fun j hj => hbig j (by omega))
    have hdp := hC.dec_pos hE
    set lo := min D0 (min g1 (1 / 4) * c) with hlo
    have hcpos : 0 < c := by
      rw [hC.c_def]
      exact lt_min hC.b'_pos (lt_min hC.b_pos (div_pos (mul_pos (sub_pos.mpr hE.mu_lt) hC.a_pos) hC.C_pos))
    have hlop : 0 < lo := lt_min hE.D0_pos (mul_pos (lt_min hE.g1_pos (by norm_num)) hcpos)
    have hDpos : 0 < D := hlop.trans_le hi.lower
    have hxS : x ∈ levelSet dom f x0 := by
      refine ⟨(head_values_in hU hev _ startId hess0 st0 k prev cur0 hh x hi.hx).1, hi.reduced.trans ?_⟩
      have : 0 ≤ (G : ℝ) * (mu * (a * min lo b)) := mul_nonneg (Nat.cast_nonneg _) hdp.le
      linarith
    obtain ⟨B, p, hH, hM, hss, htr, hq, hqd, hlen⟩ := hdec k prev cur0 step new st cur hh hp x D hi.hx hi.grad hi.delta hDpos
      (hbig k (by omega) prev cur0 x hh hi.hx)
    have hab : 0 < a * min D b := mul_pos hC.a_pos (lt_min hDpos hC.b_pos)
    have hneg : quad B (g x) p < 0 := by linarith
    have hnx : new.x = ofV (x + p) := by rw [hp.point, htr]
    obtain ⟨m, raw, hraw, hty⟩ := pass_evaluated hp
    rw [hnx] at hraw hty
    -- a pass that shrinks the radius
    have shrunk : ∀ (x' : Fin n → ℝ) (D' : ℝ), st.x = ofV x' → st.fval = fin (f x') → st.grad = ofV (g x') → st.delta = fin D' →
        D' = min (g1 * D) (rnorm p / 4) → f x' ≤ f x → c ≤ rnorm p ∧ c ≤ D → ∃ x D G K, Counted f g x0 g1 g2 D0 lo (mu * (a * min lo b)) (k + 1) st x D G K := by
      intro x' D' hx' hf' hg' hd' hD' hle ⟨hc1, hc2⟩
      refine ⟨x', D', G, K + 1, by have := hi.count; omega, hx', hf', hg', hd', ?_, ?_, ?_⟩
      · refine (min_le_right _ _).trans ?_
        rw [hD']
        refine le_min ?_ ?_
        · exact mul_le_mul (min_le_left _ _) hc2 hcpos.le hE.g1_pos.le
        · have : min g1 (1 / 4) * c ≤ 1 / 4 * rnorm p := mul_le_mul (min_le_right _ _) hc1 hcpos.le (by norm_num)
          linarith
      · calc D' ≤ g1 * D := by rw [hD']; exact min_le_left _ _
          _ ≤ g1 * (D0 * g2 ^ G * g1 ^ K) := mul_le_mul_of_nonneg_left hi.upper hE.g1_pos.le
          _ = D0 * g2 ^ G * g1 ^ (K + 1) := by rw [pow_succ]; ring
      · exact hle.trans hi.reduced
    have hcb' : c ≤ b' := by rw [hC.c_def]; exact min_le_left _ _
    -- a step that leaves the ball on which the function is smooth is long
    have far : r ≤ rnorm p → c ≤ rnorm p ∧ c ≤ D := by
      intro hr
      refine ⟨hcr.trans hr, ?_⟩
      rcases hlen with hl | hl
      · exact (hcr.trans hr).trans hl
      · exact hcb'.trans (hl.trans (min_le_left _ _))
    by_cases hdom : x + p ∈ dom
    · obtain ⟨hnf, hng⟩ := hev.inside m (x + p) _ raw new hdom hraw hty
      obtain ⟨x', D', hx', hf', hg', hd', hcase⟩ := pass_progress_at hE hU hp x p B D hi.hx hi.fval hi.grad hH hi.delta hss hnx hnf hng hq hneg
      rcases hcase with ⟨hgood, hxp, hD'⟩ | ⟨hbad, hle, _, hD'⟩
      · refine ⟨x', D', G + 1, K, by have := hi.count; omega, hx', hf', hg', hd', ?_, ?_, ?_⟩
        · refine hi.lower.trans ?_
          rcases hD' with rfl | rfl
          · exact le_rfl
          · nlinarith [hE.g2_ge]
        · have h1 : D' ≤ g2 * D := by
            rcases hD' with rfl | rfl
            · nlinarith [hE.g2_ge]
            · exact le_rfl
          have hg2 : 0 ≤ g2 := by linarith [hE.g2_ge]
          calc D' ≤ g2 * D := h1
            _ ≤ g2 * (D0 * g2 ^ G * g1 ^ K) := mul_le_mul_of_nonneg_left hi.upper hg2
            _ = D0 * g2 ^ (G + 1) * g1 ^ K := by rw [pow_succ]; ring
        · have h1 : mu * (a * min lo b) ≤ mu * (a * min D b) :=
            mul_le_mul_of_nonneg_left (mul_le_mul_of_nonneg_left (min_le_min_right b hi.lower) hC.a_pos.le) hE.mu_pos.le
          have h2 : mu * (a * min D b) ≤ mu * -quad B (g x) p := mul_le_mul_of_nonneg_left (by linarith) hE.mu_pos.le
          have h3 := hi.reduced
          rw [hxp]
          push_cast
          linarith
      · refine shrunk x' D' hx' hf' hg' hd' hD' hle ?_
        rcases lt_or_ge (rnorm p) r with hpr | hpr
        · have hup := near_upper hL x p hxS hpr
          have herr : -quad B (g x) p - (f x - f (x + p)) ≤ (L + M) / 2 * (rnorm p * rnorm p) := by
            have h1 := hM p
            rw [rnorm_sq]
            unfold quad
            linarith
          exact shrink_long hC hE.mu_lt (rnorm_nonneg p) hDpos (by linarith) hlen herr hbad
        · exact far hpr
    · have hnf := hev.outside m (x + p) _ raw new hdom hraw hty
      obtain ⟨h1, h2, h3, h4⟩ := pass_undefined hE hp p D hi.delta hss hnf
      refine shrunk x _ (by rw [h1, hi.hx]) (by rw [h2, hi.fval]) (by rw [h3, hi.grad]) h4 rfl le_rfl (far ?_)
      by_contra hcon
      push Not at hcon
      exact hdom (hL.inside x hxS p hcon)

/-- counting the passes -/
theorem counted_bound_in (hE : TRParams E mu eta g1 g2 D0) {x0 x : Fin n → ℝ} {lo dec D fmin : ℝ} (hdec : 0 < dec) {k G K : ℕ} {st : St Num n}
    (h : Counted f g x0 g1 g2 D0 lo dec k st x D G K) (hmin : fmin ≤ f x) (G' K' : ℕ) (hG : f x0 - fmin < G' * dec)
    (hK : D0 * g2 ^ G' * g1 ^ K' < lo) : k < G' + K' := by
  have h1 := h.count
  have hGG : G < G' := by
    by_contra hcon
    push Not at hcon
    have h2 : (G' : ℝ) ≤ G := by exact_mod_cast hcon
    have := mul_le_mul_of_nonneg_right h2 hdec.le
    linarith [h.reduced]
  by_contra hcon
  push Not at hcon
  have hKK : K' ≤ K := by omega
  have e1 : g2 ^ G ≤ g2 ^ G' := pow_le_pow_right₀ hE.g2_ge hGG.le
  have e2 : g1 ^ K ≤ g1 ^ K' := pow_le_pow_of_le_one hE.g1_pos.le hE.g1_lt.le hKK
  have hg2 : 0 < g2 := by linarith [hE.g2_ge]
  have e3 : D0 * g2 ^ G * g1 ^ K ≤ D0 * g2 ^ G' * g1 ^ K' := by
    apply mul_le_mul _ e2 (pow_nonneg hE.g1_pos.le _) (mul_nonneg hE.D0_pos.le (pow_nonneg hg2.le _))
    exact mul_le_mul_of_nonneg_left e1 hE.D0_pos.le
  linarith [h.lower, h.upper]

section
variable {L M r a b b' c : ℝ}

theorem visits_in (hE : TRParams E mu eta g1 g2 D0) (hU : NoBounds E.lb E.ub) (hev : EvaluatesIn E dom f g) (x0 : Fin n → ℝ)
    (hL : SmoothNear L r dom (levelSet dom f x0) f g) (fmin : ℝ)
    (hC : CountConst mu a b b' ((L + M) / 2) c) (hcr : c ≤ r) (hmin : ∀ y ∈ dom, fmin ≤ f y) (startId : String) (hess0 : Hess0 Num) (st0 : St Num n)
    (eps : ℝ) (hdec : Decreasing E g M a b b' eps x0 startId hess0 st0)
    (k : ℕ) (st : St Num n) (cur : Funout Num n) (h : LoopHead E (ofV x0) startId hess0 st0 k st cur) (N : ℕ)
    (hN : N = passBound g1 g2 D0 (f x0 - fmin) (min D0 (min g1 (1 / 4) * c)) (mu * (a * min (min D0 (min g1 (1 / 4) * c)) b))) (hk : N ≤ k) :
    ∃ j < N, ∃ st' cur' x', LoopHead E (ofV x0) startId hess0 st0 j st' cur' ∧ st'.x = ofV x' ∧ rnorm (g x') < eps := by
  obtain ⟨G, K, hGK, hG, hK⟩ := passBound_spec hE.g1_pos hE.g1_lt hE.g2_ge hE.D0_pos (f x0 - fmin) _ _ (hC.lo_pos hE) (hC.dec_pos hE)
  obtain ⟨stN, curN, hhN⟩ := loopHead_prefix E _ startId hess0 st0 k st cur h _ hk
  by_contra hcon
  push Not at hcon
  obtain ⟨x, D, G', K', hcount⟩ := run_counted_in hE hU hev L M r x0 hL hC hcr startId hess0 st0 hdec _ stN curN hhN
    (fun j hj st' cur' x' hh hx => hcon j hj st' cur' x' hh hx)
  have := counted_bound_in hE (hC.dec_pos hE) hcount (hmin x (head_values_in hU hev _ startId hess0 st0 _ stN curN hhN x hcount.hx).1) G K hG hK
  omega

/-- at a loop head that is not the last one the gradient is longer than the tolerance -/
theorem gradient_in (hU : NoBounds E.lb E.ub) (hev : EvaluatesIn E dom f g) (x0 : Fin n → ℝ) (startId : String) (hess0 : Hess0 Num) (st0 : St Num n)
    (ga : ℝ) (hga : E.opts.gatol = fin ga) (hstart : ga < rnorm (g x0)) (k : ℕ) (st : St Num n) (cur : Funout Num n)
    (h : LoopHead E (ofV x0) startId hess0 st0 k st cur) (hc : st.converged = false) (gr : Fin n → ℝ) (hg : st.grad = ofV gr) : ga < rnorm gr :=
  head_gradient (ofV x0) startId hess0 st0 ga hga (fun s c gr hs hg => by
    have h2 := (head_values_in hU hev _ startId hess0 st0 0 s c hs x0 (start_point hU x0 startId hess0 st0 s c hs)).2.2.2
    rw [hg, ofV_inj] at h2
    rw [h2]; exact hstart) k st cur h hc gr hg

theorem stops_in (hE : TRParams E mu eta g1 g2 D0) (hU : NoBounds E.lb E.ub) (hev : EvaluatesIn E dom f g) (x0 : Fin n → ℝ)
    (hL : SmoothNear L r dom (levelSet dom f x0) f g) (fmin : ℝ)
    (hC : CountConst mu a b b' ((L + M) / 2) c) (hcr : c ≤ r) (hmin : ∀ y ∈ dom, fmin ≤ f y) (startId : String) (hess0 : Hess0 Num) (st0 : St Num n)
    (ga : ℝ) (hdec : Decreasing E g M a b b' ga x0 startId hess0 st0) (hga : E.opts.gatol = fin ga) (hstart : ga < rnorm (g x0)) (N : ℕ)
    (hN : N = passBound g1 g2 D0 (f x0 - fmin) (min D0 (min g1 (1 / 4) * c)) (mu * (a * min (min D0 (min g1 (1 / 4) * c)) b)))
    (k : ℕ) (st : St Num n) (cur : Funout Num n) (h : LoopHead E (ofV x0) startId hess0 st0 k st cur) : k < N := by
  by_contra hcon
  push Not at hcon
  obtain ⟨j, hj, st', cur', x', hh, hx, hsmall⟩ := visits_in hE hU hev x0 hL fmin hC hcr hmin startId hess0 st0 ga hdec k st cur h N hN hcon
  obtain ⟨st1, cur1, h1⟩ := loopHead_prefix E _ startId hess0 st0 k st cur h (j + 1) (by omega)
  obtain ⟨prev, cur0, step, new, hh2, hp⟩ := loopHead_pass E _ startId hess0 st0 j st1 cur1 h1
  obtain ⟨rfl, rfl⟩ := loopHead_unique E _ startId hess0 st0 j _ _ _ _ hh hh2
  have hgr := (head_values_in hU hev _ startId hess0 st0 j st' cur' hh x' hx).2.2.2
  have := gradient_in hU hev x0 startId hess0 st0 ga hga hstart j st' cur' hh (continues_live E _ _ hp.continues) (g x') hgr
  linarith

theorem live_in (hE : TRParams E mu eta g1 g2 D0) (hU : NoBounds E.lb E.ub) (hev : EvaluatesIn E dom f g) (x0 : Fin n → ℝ)
    (hL : SmoothNear L r dom (levelSet dom f x0) f g)
    (hC : CountConst mu a b b' ((L + M) / 2) c) (hcr : c ≤ r) (startId : String) (hess0 : Hess0 Num) (st0 : St Num n)
    (ga : ℝ) (hdec : Decreasing E g M a b b' ga x0 startId hess0 st0) (hga : E.opts.gatol = fin ga) (hstart : ga < rnorm (g x0))
    (k : ℕ) (st : St Num n) (cur : Funout Num n) (h : LoopHead E (ofV x0) startId hess0 st0 k st cur) :
    ∃ x D, st.x = ofV x ∧ x ∈ levelSet dom f x0 ∧ cur.x = ofV x ∧ st.fval = fin (f x) ∧ st.grad = ofV (g x) ∧ st.delta = fin D ∧
      min D0 (min g1 (1 / 4) * c) ≤ D ∧ 0 < D := by
  have hfl := hC.lo_pos hE
  have hdp := hC.dec_pos hE
  obtain ⟨x, D, G', K', hc⟩ := run_counted_in (eps := ga) hE hU hev L M r x0 hL hC hcr startId hess0 st0 hdec k st cur h
    (fun j hj st' cur' x' hh hx => by
      obtain ⟨st1, cur1, h1⟩ := loopHead_prefix E _ startId hess0 st0 k st cur h (j + 1) (by omega)
      obtain ⟨prev, cur0, step, new, hh2, hp⟩ := loopHead_pass E _ startId hess0 st0 j st1 cur1 h1
      obtain ⟨rfl, rfl⟩ := loopHead_unique E _ startId hess0 st0 j _ _ _ _ hh hh2
      have hgr := (head_values_in hU hev _ startId hess0 st0 j st' cur' hh x' hx).2.2.2
      exact (gradient_in hU hev x0 startId hess0 st0 ga hga hstart j st' cur' hh (continues_live E _ _ hp.continues) (g x') hgr).le)
  obtain ⟨h1, h2, _⟩ := head_values_in hU hev _ startId hess0 st0 k st cur h x hc.hx
  refine ⟨x, D, hc.hx, ⟨h1, hc.reduced.trans ?_⟩, h2, hc.fval, hc.grad, hc.delta, hc.lower, hfl.trans_le hc.lower⟩
  have := mul_nonneg (Nat.cast_nonneg (α := ℝ) G') hdp.le
  linarith

end
end Fides
