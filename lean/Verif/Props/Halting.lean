import Verif.Lemmas.Converge
import Verif.Props.Radius
import Verif.Props.Finite
import Verif.Props.Inside

/-!
# C64: with a positive `fatol` a run stops without help of the limits
-/

namespace Fides
open Num Spec
variable {n : ℕ}

namespace Spec

/-- no call of the objective at a real point within the bounds returns a finite value below `fmin` -/
def BoundedBelow (E : Env Num n) (fmin : ℝ) : Prop :=
  ∀ (k : ℕ) (x : Fin n → ℝ) (xId : ℕ) (raw : RawOut Num) (fo : Funout Num n), InBox E.lb E.ub x → funEval E.nargout E.resfun (E.obj k (ofV x)) = .ok raw →
    raw.typed (ofV x) xId = some fo → ∀ v, fo.fval = fin v → fmin ≤ v

/-- the options the bound depends on: `fatol`, `mu`, `eta`, `gamma1`, `gamma2`, `delta_init` -/
structure HaltParams (E : Env Num n) (fa g1 g2 D0 : ℝ) : Prop where
  fatol : E.opts.fatol = fin fa
  frtol : ∃ fr : ℝ, E.opts.frtol = fin fr ∧ 0 ≤ fr
  muEta : ∃ mu eta : ℝ, E.opts.mu = fin mu ∧ E.opts.eta = fin eta ∧ 0 ≤ mu ∧ mu < eta
  gamma1 : E.opts.gamma1 = fin g1
  gamma2 : E.opts.gamma2 = fin g2
  deltaInit : E.opts.deltaInit = fin D0
  fa_pos : 0 < fa
  g1_pos : 0 < g1
  g1_lt : g1 < 1
  g2_ge : 1 ≤ g2
  D0_pos : 0 < D0

end Spec

variable {E : Env Num n} {fa g1 g2 D0 : ℝ}

/-- what a pass does to value and radius -/
theorem pass_halting (hE : HaltParams E fa g1 g2 D0) {prev next : St Num n} {cur cur' new : Funout Num n} {step : Step Num n}
    (hp : Pass E prev cur step new next cur') (v D : ℝ) (hv : prev.fval = fin v) (hd : prev.delta = fin D) (hD : 0 ≤ D)
    (hnan : isNaN next.trRatio = false) (hconv : next.converged = false) :
    ∃ v' D' : ℝ, next.fval = fin v' ∧ next.delta = fin D' ∧ 0 ≤ D' ∧ ((v' ≤ v - fa ∧ D' ≤ g2 * D) ∨ (v' ≤ v ∧ D' ≤ g1 * D)) := by
  obtain ⟨fr, hfr, hfr0⟩ := hE.frtol
  obtain ⟨mu, eta, hmu, heta, hmu0, hmueta⟩ := hE.muEta
  have hF := pass_facts E _ _ _ _ _ _ hp
  have hg1 := hE.g1_pos
  have hg2 := hE.g2_ge
  have hmono : ∃ v' : ℝ, next.fval = fin v' ∧ v' ≤ v := by
    rcases C07_decrease E _ _ _ _ _ _ hp with ⟨_, h1, _, h2, h3⟩ | ⟨_, _, h1, _⟩
    · rw [hv] at h3
      cases hn : next.fval with
      | fin v' => rw [hn] at h3; exact ⟨v', rfl, (by simpa using h3 : v' < v).le⟩
      | pinf => rw [hn] at h2; cases h2
      | ninf => rw [hn] at h2; cases h2
      | nan => rw [hn] at h2; cases h2
    · exact ⟨v, by rw [h1, hv], le_rfl⟩
  obtain ⟨v', hv', hvv⟩ := hmono
  have hshrink : ∃ D' : ℝ, shrunkDelta E prev.delta step = fin D' ∧ 0 ≤ D' ∧ D' ≤ g1 * D := by
    obtain ⟨d', h1, h2, h3⟩ := shrunk_bound (D * g1) (by positivity) (vadd step.ss step.ss0)
    exact ⟨d', by unfold shrunkDelta; rw [hd, hE.gamma1, fin_mul]; exact h1, h2, by linarith⟩
  obtain ⟨Ds, hDs, hDs0, hDs1⟩ := hshrink
  have hrs : radiusStep E prev step new = updateTrRadius E new step (trInput E (preIter prev)).dv (afterEval prev step (.ok new)) := rfl
  have hst : (afterEval prev step (.ok new)).delta = prev.delta ∧ (afterEval prev step (.ok new)).fval = prev.fval := ⟨rfl, rfl⟩
  have hratio := hF.ratio
  have hdelta := hF.delta
  have hcv := hF.converged
  have hcases := hF.cases
  rw [hrs] at hratio hdelta hcv hcases
  have hsucc : ∀ r : Num, next.trRatio = r → lt (fin mu) r = true → (updateTrRadius E new step (trInput E (preIter prev)).dv (afterEval prev step (.ok new))).1 = lt (lit 0) r →
      (updateTrRadius E new step (trInput E (preIter prev)).dv (afterEval prev step (.ok new))).2.fval = prev.fval → v' ≤ v - fa := by
    intro r hr hlt hacc hfv
    have hpos : lt (lit 0) r = true := by
      revert hlt
      cases r with
      | fin r => intro h; simp at h ⊢; linarith
      | pinf => intro _; rfl
      | ninf => intro h; cases h
      | nan => intro h; cases h
    rw [hpos] at hacc
    have hnew : next.fval = new.fval := by
      rcases hcases with ⟨_, _, _, _, h, _⟩ | ⟨h, _⟩
      · exact h
      · rw [hacc] at h; cases h
    have hlt2 : lt E.opts.mu (updateTrRadius E new step (trInput E (preIter prev)).dv (afterEval prev step (.ok new))).2.trRatio = true := by
      rw [← hratio, hr, hmu]; exact hlt
    rcases checkConvergence_cases E step new (updateTrRadius E new step (trInput E (preIter prev)).dv (afterEval prev step (.ok new))).2 with
      ⟨_, _, h⟩ | ⟨_, _, h⟩ | ⟨_, h⟩ | h
    · rw [h, hconv] at hcv; cases hcv
    · rw [h, hconv] at hcv; cases hcv
    · rw [h, hconv] at hcv; cases hcv
    · by_contra hcon
      push Not at hcon
      have hft : lt (FloatOps.abs (new.fval - (updateTrRadius E new step (trInput E (preIter prev)).dv (afterEval prev step (.ok new))).2.fval))
          (E.opts.fatol + E.opts.frtol * FloatOps.abs (updateTrRadius E new step (trInput E (preIter prev)).dv (afterEval prev step (.ok new))).2.fval) = true := by
        rw [hfv, ← hnew, hv', hv, hE.fatol, hfr]
        simp
        rw [abs_of_nonpos (by linarith)]
        have : 0 ≤ fr * |v| := by positivity
        linarith
      unfold checkConvergence at h
      simp only [hlt2, hft, Bool.and_self, if_true] at h
      have := congrArg St.converged h
      cases this
  rcases updateTrRadius_cases E new step (trInput E (preIter prev)).dv (afterEval prev step (.ok new)) with
    ⟨_, h⟩ | ⟨_, r, _, ⟨h1, _, h⟩ | ⟨_, _, h⟩ | ⟨_, h1, m, h⟩⟩
  · exact ⟨v', Ds, hv', by rw [hdelta, h]; exact hDs, hDs0, Or.inr ⟨hvv, hDs1⟩⟩
  · refine ⟨v', g2 * D, hv', by rw [hdelta, h]; show E.opts.gamma2 * prev.delta = _; rw [hE.gamma2, hd, fin_mul], by positivity, Or.inl ⟨?_, le_rfl⟩⟩
    refine hsucc r (by rw [hratio, h]) ?_ (by rw [h]) (by rw [h]; rfl)
    rw [heta] at h1
    revert h1
    cases r with
    | fin r => intro h; simp at h ⊢; linarith
    | pinf => intro _; rfl
    | ninf => intro h; cases h
    | nan => intro h; cases h
  · exact ⟨v', Ds, hv', by rw [hdelta, h]; exact hDs, hDs0, Or.inr ⟨hvv, hDs1⟩⟩
  · refine ⟨v', D, hv', by rw [hdelta, h]; exact hd, hD, Or.inl ⟨?_, by nlinarith⟩⟩
    refine hsucc r (by rw [hratio, h]) ?_ (by rw [h]) (by rw [h]; rfl)
    have hr : next.trRatio = r := by rw [hratio, h]
    rw [hr] at hnan
    rw [hmu] at h1
    revert h1 hnan
    cases r with
    | fin r => intro _ h; simpa using h
    | pinf => intro _ _; rfl
    | ninf => intro _ h; cases h
    | nan => intro h; cases h

/-- The loop head after `k` iterations exists only if `k` is at most this: values fall by `fatol` in every successful iteration, the radius
shrinks in every other one, and stays above the machine precision. -/
theorem halting_count (hE : HaltParams E fa g1 g2 D0) (x0 : Vec Num n) (startId : String) (hess0 : Hess0 Num) (st0 : St Num n)
    (hnan : ∀ j prev cur step new next cur', LoopHead E x0 startId hess0 st0 j prev cur → Pass E prev cur step new next cur' → isNaN next.trRatio = false)
    (s : St Num n) (c : Funout Num n) (h0 : LoopHead E x0 startId hess0 st0 0 s c) (v0 : ℝ) (hv0 : s.fval = fin v0)
    (k : ℕ) (st : St Num n) (cur : Funout Num n) (h : LoopHead E x0 startId hess0 st0 k st cur) (hcv : st.converged = false) :
    ∃ (v D : ℝ) (G K : ℕ), st.fval = fin v ∧ st.delta = fin D ∧ 0 ≤ D ∧ G + K = k ∧ v ≤ v0 - G * fa ∧ D ≤ D0 * g2 ^ G * g1 ^ K := by
  induction k generalizing st cur with
  | zero =>
    obtain ⟨rfl, rfl⟩ := loopHead_unique E x0 startId hess0 st0 0 _ _ _ _ h h0
    exact ⟨v0, D0, 0, 0, hv0, by rw [start_delta E x0 startId hess0 st0 st cur h, hE.deltaInit], hE.D0_pos.le, rfl, by simp, by simp⟩
  | succ k ih =>
    obtain ⟨prev, cur0, step, new, hh, hp⟩ := loopHead_pass E x0 startId hess0 st0 k st cur h
    obtain ⟨v, D, G, K, hv, hd, hD, hGK, hvG, hDG⟩ := ih prev cur0 hh (continues_live E _ _ hp.continues)
    obtain ⟨v', D', hv', hd', hD', hcase⟩ := pass_halting hE hp v D hv hd hD (hnan k _ _ _ _ _ _ hh hp) hcv
    have hg1 := hE.g1_pos
    have hg2 : 0 < g2 := by linarith [hE.g2_ge]
    rcases hcase with ⟨h1, h2⟩ | ⟨h1, h2⟩
    · refine ⟨v', D', G + 1, K, hv', hd', hD', by omega, by push_cast; linarith, h2.trans ?_⟩
      calc g2 * D ≤ g2 * (D0 * g2 ^ G * g1 ^ K) := mul_le_mul_of_nonneg_left hDG hg2.le
        _ = D0 * g2 ^ (G + 1) * g1 ^ K := by ring
    · refine ⟨v', D', G, K + 1, hv', hd', hD', by omega, by linarith, h2.trans ?_⟩
      calc g1 * D ≤ g1 * (D0 * g2 ^ G * g1 ^ K) := mul_le_mul_of_nonneg_left hDG hg1.le
        _ = D0 * g2 ^ G * g1 ^ (K + 1) := by ring


/-- **C64.** Any bounds, any solver and step-back strategy, any external routines, any objective (it need not be continuous, deterministic or
finite) whose finite values stay above `fmin`; `fatol > 0`.  If no recorded ratio of actual to predicted reduction is NaN, the run makes fewer
iterations than a number that depends only on the options, the value at the start and `fmin`; `maxiter` and `maxtime` are not needed. -/
theorem C64_stops (hE : HaltParams E fa g1 g2 D0) (fmin : ℝ) (hmin : BoundedBelow E fmin) (x0 : Vec Num n) (startId : String) (hess0 : Hess0 Num) (st0 : St Num n)
    (hnan : ∀ j prev cur step new next cur', LoopHead E x0 startId hess0 st0 j prev cur → Pass E prev cur step new next cur' → isNaN next.trRatio = false)
    (s : St Num n) (c : Funout Num n) (h0 : LoopHead E x0 startId hess0 st0 0 s c) (v0 : ℝ) (hv0 : s.fval = fin v0)
    (k : ℕ) (st : St Num n) (cur : Funout Num n) (h : LoopHead E x0 startId hess0 st0 k st cur) :
    k < passBound g1 g2 D0 (v0 - fmin) (1 / 4503599627370496) fa := by
  obtain ⟨G, K, hGK, hG, hK⟩ := passBound_spec hE.g1_pos hE.g1_lt hE.g2_ge hE.D0_pos (v0 - fmin) (1 / 4503599627370496) fa (by norm_num) hE.fa_pos
  have hg1 := hE.g1_pos
  have hg2 : 0 < g2 := by linarith [hE.g2_ge]
  have hD0 := hE.D0_pos
  have hfa := hE.fa_pos
  rw [hGK]
  cases k with
  | zero =>
    by_contra hcon
    obtain rfl : G = 0 := by omega
    obtain ⟨m, raw, h1, h2⟩ := head_evaluated E x0 startId hess0 st0 0 s c h0
    obtain ⟨x, hx, hbox⟩ := inBounds_real_of _ _ _ (headInv E x0 startId hess0 st0 0 s c h0).bounds
    rw [hx] at h1 h2
    have := hmin m x _ _ _ hbox h1 h2 v0 (by rw [← (headInv E x0 startId hess0 st0 0 s c h0).fval, hv0])
    simp at hG
    linarith
  | succ k =>
    obtain ⟨prev, cur0, step, new, hh, hp⟩ := loopHead_pass E x0 startId hess0 st0 k st cur h
    obtain ⟨v, D, G', K', hv, hd, hD, hc, h1, h2⟩ := halting_count hE x0 startId hess0 st0 hnan s c h0 v0 hv0 k prev cur0 hh (continues_live E _ _ hp.continues)
    have hdel := (checkContinue_true E prev _ hp.continues).2.2.2.2
    rw [hd, show (spacing1 : Num) = fin (1 / 4503599627370496) by norm_num [spacing1]] at hdel
    simp only [fin_lt, decide_eq_false_iff_not, not_lt] at hdel
    obtain ⟨m, raw, h3, h4⟩ := head_evaluated E x0 startId hess0 st0 k prev cur0 hh
    obtain ⟨x, hx, hbox⟩ := inBounds_real_of _ _ _ (headInv E x0 startId hess0 st0 k prev cur0 hh).bounds
    rw [hx] at h3 h4
    have hlow := hmin m x _ _ _ hbox h3 h4 v (by rw [← (headInv E x0 startId hess0 st0 k prev cur0 hh).fval, hv])
    have hG' : G' < G := by
      by_contra hcon
      push Not at hcon
      have : (G : ℝ) * fa ≤ G' * fa := mul_le_mul_of_nonneg_right (by exact_mod_cast hcon) hfa.le
      linarith
    have hK' : K' < K := by
      by_contra hcon
      push Not at hcon
      have e1 : g1 ^ K' ≤ g1 ^ K := pow_le_pow_of_le_one hg1.le hE.g1_lt.le hcon
      have e2 : g2 ^ G' ≤ g2 ^ G := pow_le_pow_right₀ hE.g2_ge hG'.le
      have : D0 * g2 ^ G' * g1 ^ K' ≤ D0 * g2 ^ G * g1 ^ K :=
        mul_le_mul (mul_le_mul_of_nonneg_left e2 hD0.le) e1 (pow_pos hg1 _).le (by positivity)
      linarith
    omega

/-- **C64**, as a statement about the result: a run that returns has made fewer iterations than that, and with limits that were not reached
its flag is FTOL, XTOL, GTOL or DELTA_TOO_SMALL. -/
theorem C64_flag (hE : HaltParams E fa g1 g2 D0) (fmin : ℝ) (hmin : BoundedBelow E fmin) (x0 : Vec Num n) (startId : String) (hess0 : Hess0 Num) (st0 : St Num n)
    (hnan : ∀ j prev cur step new next cur', LoopHead E x0 startId hess0 st0 j prev cur → Pass E prev cur step new next cur' → isNaN next.trRatio = false)
    (v0 : ℝ) (hv0 : ∀ s c, LoopHead E x0 startId hess0 st0 0 s c → s.fval = fin v0) (fuel : ℕ) (st' : St Num n) (hmz : minimize E fuel x0 startId hess0 st0 = .ok st') :
    st'.iteration < passBound g1 g2 D0 (v0 - fmin) (1 / 4503599627370496) fa ∧
      ((passBound g1 g2 D0 (v0 - fmin) (1 / 4503599627370496) fa : ℤ) ≤ E.opts.maxiter → E.opts.maxtime = pinf → (∀ k, ∃ t : ℝ, E.clock k = fin t) →
        st'.exitflag = .ftol ∨ st'.exitflag = .xtol ∨ st'.exitflag = .gtol ∨ st'.exitflag = .deltaTooSmall) := by
  have hstop : ∀ k st cur, LoopHead E x0 startId hess0 st0 k st cur → k < passBound g1 g2 D0 (v0 - fmin) (1 / 4503599627370496) fa := by
    intro k st cur hh
    obtain ⟨s, c, h0⟩ := loopHead_prefix E x0 startId hess0 st0 k st cur hh 0 (Nat.zero_le _)
    exact C64_stops hE fmin hmin x0 startId hess0 st0 hnan s c h0 v0 (hv0 s c h0) k st cur hh
  obtain ⟨k, st1, cur, st2, f, hk, hh, hc, rfl⟩ := run_end E x0 startId hess0 st0 fuel st' hmz
  have hhead := headInv E _ startId hess0 st0 k st1 cur hh
  have hlt := hstop k st1 cur hh
  have hit : st2.iteration = st1.iteration := by
    rcases checkContinue_false E st1 st2 hc with ⟨_, rfl⟩ | ⟨_, _, rfl⟩ | ⟨_, _, _, rfl⟩ | ⟨_, _, _, rfl⟩ <;> rfl
  refine ⟨by show st2.iteration < _; rw [hit, hhead.iteration]; exact hlt, ?_⟩
  intro hiter htime hclock
  show st2.exitflag = _ ∨ st2.exitflag = _ ∨ st2.exitflag = _ ∨ st2.exitflag = _
  have hflag := C10_flag E x0 startId hess0 st0 fuel _ hmz
  rcases checkContinue_false E st1 st2 hc with ⟨hcv, rfl⟩ | ⟨_, hm, rfl⟩ | ⟨_, _, ht, rfl⟩ | ⟨_, _, _, rfl⟩
  · have hsign := (C11_sign E x0 startId hess0 st0 fuel _ hmz).2.1.mp hcv
    replace hsign : 0 < st2.exitflag.toInt := hsign
    cases he : st2.exitflag <;> rw [he] at hsign <;> simp [ExitFlag.toInt] at hsign ⊢
  · exfalso
    rw [hhead.iteration] at hm
    omega
  · exfalso
    obtain ⟨t1, ht1⟩ := hclock st1.ticks
    obtain ⟨t0, ht0⟩ := hclock st0.ticks
    rw [hhead.starttime, htime, ht1, ht0] at ht
    have hne : ((if st1.iteration = 0 then 1 else st1.iteration : ℕ) : ℝ) ≠ 0 := by
      split <;> simp_all
    generalize (if st1.iteration = 0 then 1 else st1.iteration : ℕ) = m at ht hne
    rw [show (lit ((m : ℕ) : ℚ) : Num) = fin (m : ℝ) by simp] at ht
    simp only [fin_sub, pinf_sub_fin, fin_div _ _ hne] at ht
    cases ht
  · simp

/-- **C64**, as a statement about `minimize`: that many passes of the loop are enough, whatever `maxiter` and `maxtime` are; the call returns or
raises. -/
theorem C64_halts (hE : HaltParams E fa g1 g2 D0) (fmin : ℝ) (hmin : BoundedBelow E fmin) (x0 : Vec Num n) (startId : String) (hess0 : Hess0 Num) (st0 : St Num n)
    (hnan : ∀ j prev cur step new next cur', LoopHead E x0 startId hess0 st0 j prev cur → Pass E prev cur step new next cur' → isNaN next.trRatio = false)
    (v0 : ℝ) (hv0 : ∀ s c, LoopHead E x0 startId hess0 st0 0 s c → s.fval = fin v0)
    (htr : ∀ k I, E.tr k I ≠ .error .diverges) (hevs : ∀ m, E.evs m ≠ .error .diverges) (hcond : ∀ m, E.cond m ≠ .error .diverges)
    (fuel : ℕ) (hfuel : passBound g1 g2 D0 (v0 - fmin) (1 / 4503599627370496) fa ≤ fuel) (st' : St Num n) :
    minimize E fuel x0 startId hess0 st0 ≠ .error (.diverges, st') := by
  refine terminates_of E x0 startId hess0 st0 fuel (fun k st1 cur1 st2 hh _ => ?_) htr hevs hcond st'
  obtain ⟨s, c, h0⟩ := loopHead_prefix E x0 startId hess0 st0 k st1 cur1 hh 0 (Nat.zero_le _)
  exact (C64_stops hE fmin hmin x0 startId hess0 st0 hnan s c h0 v0 (hv0 s c h0) k st1 cur1 hh).trans_le hfuel

end Fides
