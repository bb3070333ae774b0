import Verif.Lemmas.B64Cut
import Verif.Props.Binary64
import Verif.Props.LogType
import Verif.Lemmas.B64InDemo
import Verif.Lemmas.Converge

/-!
# C59: when evaluations stay within the bounds in double precision
-/

namespace Fides
open Num Spec Dbl

section
variable {F : Type} [FloatOps F] {n : ℕ}

theorem npMin2_below [LawfulFloat F] (a b : F) (h : isNaN (npMin2 a b) = false) :
    isNaN a = false ∧ isNaN b = false ∧ le (npMin2 a b) a = true ∧ le (npMin2 a b) b = true := by
  unfold npMin2 at h ⊢
  cases ha : isNaN a
  · cases hb : isNaN b
    · have ha' : le a a = true := by simpa [isNaN] using ha
      have hb' : le b b = true := by simpa [isNaN] using hb
      cases hl : lt b a
      · refine ⟨rfl, rfl, by simp [ha'], ?_⟩
        simp only [Bool.false_eq_true, if_false]
        rcases LawfulFloat.le_total a b ha' hb' with h1 | h1
        · exact h1
        · by_contra hc
          have := (LawfulFloat.lt_iff b a).mpr ⟨h1, by simpa using hc⟩
          rw [this] at hl; cases hl
      · have := ((LawfulFloat.lt_iff b a).mp hl).1
        exact ⟨rfl, rfl, by simp [this], by simp [hb']⟩
    · rw [ha, hb] at h; simp [hb] at h
  · rw [ha] at h; simp [ha] at h

theorem foldl_npMin2_below [LawfulFloat F] (l : List F) (a : F) (h : isNaN (l.foldl npMin2 a) = false) :
    le (l.foldl npMin2 a) a = true ∧ ∀ b ∈ l, le (l.foldl npMin2 a) b = true := by
  induction l generalizing a with
  | nil => exact ⟨by simpa [isNaN] using h, by simp⟩
  | cons c l ih =>
    obtain ⟨h1, h2⟩ := ih (npMin2 a c) h
    have h3 : isNaN (npMin2 a c) = false := by
      have := LawfulFloat.le_self_right _ _ h1
      simp [isNaN, this]
    obtain ⟨-, -, h4, h5⟩ := npMin2_below a c h3
    refine ⟨LawfulFloat.le_trans _ _ _ h1 h4, ?_⟩
    intro b hb
    rcases List.mem_cons.mp hb with rfl | hb
    · exact LawfulFloat.le_trans _ _ _ h1 h5
    · exact h2 b hb

theorem vmin_below [LawfulFloat F] (v : Vec F n) (h : isNaN (vmin v) = false) (i : Fin n) : le (vmin v) (v i) = true :=
  (foldl_npMin2_below _ _ h).2 _ (by simp [List.mem_ofFn])

/-- the candidates that are neither reflections nor truncations start at the current point -/
theorem cand_plain [LawfulFloat F] (O : Oracles F) (fuel : ℕ) (P : Prob F n) (dim : SubSpaceDim) (st : Step F n) (h : Cand O fuel P dim st)
    (hr : st.type ≠ .trr) (ht : st.type ≠ .trt) : ∃ (a : Step F n) (q : F), st = { a.stepBack P with qpval := q } ∧ a.x = P.x ∧ a.s0 = vzero := by
  have hcalc : ∀ st st' : Step F n, st.calculate O.sub P = .ok st' → ∃ (a : Step F n) (q : F), st' = { a.stepBack P with qpval := q } ∧ a.x = st.x ∧ a.s0 = st.s0 ∧ a.type = st.type := by
    intro st st' h
    unfold Step.calculate at h
    split at h
    · cases h
    · rename_i st1 hc
      obtain ⟨h1, h2, -⟩ := computeStep_frame _ _ _ _ hc
      have h3 : st1.type = st.type := by
        unfold Step.computeStep at hc
        split at hc
        · cases hc; rfl
        · cases hc; rfl
        · simp only at hc
          split at hc
          · cases hc
          · cases hc; rfl
      cases h
      exact ⟨_, _, rfl, h1, h2, h3⟩
  cases h with
  | base _ h =>
    cases dim with
    | two =>
      simp only [trStep, step2d] at h
      split at h
      · cases h
      · obtain ⟨a, q, h1, h2, h3, -⟩ := hcalc _ _ h
        exact ⟨a, q, h1, h2, h3⟩
    | full =>
      obtain ⟨a, q, h1, h2, h3, -⟩ := hcalc _ _ h
      exact ⟨a, q, h1, h2, h3⟩
    | steihaug =>
      simp only [trStep, stepSteihaug] at h
      split at h
      · cases h
      · split at h
        · cases h
        · cases h; exact ⟨_, _, rfl, rfl, rfl⟩
    | other => cases h
  | grad _ h =>
    obtain ⟨a, q, h1, h2, h3, -⟩ := hcalc _ _ h
    exact ⟨a, q, h1, h2, h3⟩
  | refl cur _ _ _ h =>
    obtain ⟨a, q, rfl, -, -, h4⟩ := hcalc _ _ h
    exact absurd h4 hr
  | trunc cur _ _ _ h =>
    obtain ⟨a, q, rfl, -, -, h4⟩ := hcalc _ _ h
    exact absurd h4 ht
  | refined cur _ _ h =>
    unfold stepRefined at h
    split at h
    · cases h
    · cases h; exact ⟨_, _, rfl, rfl, rfl⟩

/-- with one variable, or with the refine strategy, no step is reflected or truncated -/
theorem plain_type (O : Oracles F) (fuel : ℕ) (dim : SubSpaceDim) (strat : StepBackStrategy) (I : TRIn F n) (st : Step F n) (h : trustRegion O fuel dim strat I = .ok st)
    (hp : (st.type ≠ .trr ∧ st.type ≠ .trt) ∨ n = 1 ∨ strat = .refine) : st.type ≠ .trr ∧ st.type ≠ .trt := by
  rcases hp with hp | hp
  · exact hp
  have hs : st.type.text ≠ "trr" ∧ st.type.text ≠ "trt" := by
    rcases trustRegion_type _ _ _ _ _ _ h with h1 | ⟨h1, h2⟩
    · rw [h1]; cases dim <;> decide
    · rcases hp with rfl | rfl
      · omega
      · generalize st.type.text = t at h2
        cases h2 <;> decide
  constructor <;> intro e <;> rw [e] at hs <;> simp [StepType.text] at hs

end

section
variable {R : Rounding} {n : ℕ}

/-- a step cut at the bounds stays within them, whatever the roundings -/
theorem stepBack_inside (P : Prob (Dbl R) n) (st : Step (Dbl R) n) (hx : ∀ i, le (P.lb i) (st.x i) = true ∧ le (st.x i) (P.ub i) = true ∧ isFinite (st.x i) = true)
    (hs : ∀ i, isFinite (st.s i) = true) (th : ℝ) (hth : P.theta.val = .fin th) (h0 : 0 < th) (h1 : th ≤ 1 - 1 / 2 ^ 50)
    (a : ℝ) (ha : (st.stepBack P).alpha.val = .fin a) (ha0 : a = 0 ∨ (2 : ℝ) ^ (-1021 : ℤ) ≤ a) (i : Fin n) :
    le (P.lb i) (st.x i + (st.stepBack P).s i) = true ∧ le (st.x i + (st.stepBack P).s i) (P.ub i) = true := by
  have real : ∀ v : Dbl R, isFinite v = true → ∃ r, v.val = .fin r := by
    intro v hv
    have hv : isFinite v.val = true := hv
    cases h : v.val with
    | fin r => exact ⟨r, rfl⟩
    | pinf => rw [h] at hv; cases hv
    | ninf => rw [h] at hv; cases hv
    | nan => rw [h] at hv; cases hv
  obtain ⟨xv, hxv⟩ := real _ (hx i).2.2
  obtain ⟨sv, hsv⟩ := real _ (hs i)
  have hal : (st.stepBack P).alpha = npMin2 (lit 1) (P.theta * vmin (st.stepBack P).br) := rfl
  have hnan : isNaN (npMin2 (lit 1) (P.theta * vmin (st.stepBack P).br)) = false := by rw [← hal]; exact nn ha
  obtain ⟨-, h2, h3, h4⟩ := npMin2_below _ _ hnan
  rw [← hal] at h3 h4
  rw [le_iff ha val_lit_one, decide_eq_true_eq] at h3
  have h5 : isNaN (vmin (st.stepBack P).br) = false := by
    cases h : isNaN (vmin (st.stepBack P).br)
    · rfl
    · rw [LawfulFloat.nan_mul_right _ _ h] at h2; cases h2
  have h6 := vmin_below _ h5 i
  refine cut_coord (P.lb i) (P.ub i) (st.x i) (st.s i) P.theta (vmin (st.stepBack P).br) (st.stepBack P).alpha xv sv th a hxv hsv (hx i).1 (hx i).2.1 hth h0 (by norm_num at h1 ⊢; linarith)
    ?_ ha h3 h4 ha0
  intro hlt
  have : (st.stepBack P).br i = npMax2 ((P.ub i - st.x i) / st.s i) ((P.lb i - st.x i) / st.s i) := by
    show (if lt (lit 0) (FloatOps.abs (st.s i)) then _ else _) = _
    rw [if_pos hlt]
  rwa [this] at h6

/-- the proposal of one call of `trust_region` stays within the bounds -/
theorem trustRegion_inside (O : Oracles (Dbl R)) (fuel : ℕ) (dim : SubSpaceDim) (strat : StepBackStrategy) (I : TRIn (Dbl R) n) (step : Step (Dbl R) n)
    (h : trustRegion O fuel dim strat I = .ok step) (hx : ∀ i, le (I.lb i) (I.x i) = true ∧ le (I.x i) (I.ub i) = true ∧ isFinite (I.x i) = true)
    (hp : (step.type ≠ .trr ∧ step.type ≠ .trt) ∨ n = 1 ∨ strat = .refine) (hs : ∀ i, isFinite (step.ogS i) = true)
    (th : ℝ) (hth : I.theta.val = .fin th) (h0 : 0 < th) (h1 : th ≤ 1 - 1 / 2 ^ 50)
    (a : ℝ) (ha : step.alpha.val = .fin a) (ha0 : a = 0 ∨ (2 : ℝ) ^ (-1021 : ℤ) ≤ a) (i : Fin n) :
    le (I.lb i) (vadd (vadd I.x step.s) step.s0 i) = true ∧ le (vadd (vadd I.x step.s) step.s0 i) (I.ub i) = true := by
  obtain ⟨h2, h3⟩ := plain_type O fuel dim strat I step h hp
  obtain ⟨b, q, rfl, hbx, hb0⟩ := cand_plain O fuel I.prob dim step (trustRegion_cand O fuel dim strat I step h) h2 h3
  have hbx' : b.x = I.x := hbx
  obtain ⟨h4, h5⟩ := stepBack_inside I.prob b (by rw [hbx']; exact hx) hs th hth h0 h1 a ha ha0 i
  have hval : (vadd (vadd I.x (b.stepBack I.prob).s) (b.stepBack I.prob).s0 i).val = (b.x i + (b.stepBack I.prob).s i).val := by
    have e0 : (b.stepBack I.prob).s0 = vzero := hb0
    rw [e0, hbx']
    show (I.x i + (b.stepBack I.prob).s i + lit 0 : Dbl R).val = _
    rw [val_add, val_lit_zero]
    have hz : ∀ v : Num, v + .fin 0 = v := by intro v; cases v <;> simp
    rw [hz, rd_val]
  constructor
  · show le (I.lb i).val _ = true
    rw [show ((vadd (vadd I.x (b.stepBack I.prob).s) (b.stepBack I.prob).s0 i)).val = _ from hval]; exact h4
  · show le _ (I.ub i).val = true
    rw [show ((vadd (vadd I.x (b.stepBack I.prob).s) (b.stepBack I.prob).s0 i)).val = _ from hval]; exact h5

/-- **C59, what holds** in double precision, whatever the tie rule, the summation order, the objective and the external routines: an iteration that starts within the
bounds evaluates the objective within the bounds, provided the step-back factor `theta` is at most `1 - 2^-50` (it is unless `theta_max` is larger or the
point is stationary to about that precision, which is what the counterexample uses), the uncut step is finite, `alpha` is not so small that it is
subnormal, and the step is not a reflection or truncation (always true for problems with one variable and for the strategy `refine`; the history
contains `theta`, `alpha` and the type of the step).  Missing: reflected and truncated steps, whose starting point carries a rounding error of its own. -/
theorem C59_inside_partial (E : Env (Dbl R) n) (hU : UsesTrustRegion E) (prev next : St (Dbl R) n) (cur cur' new : Funout (Dbl R) n) (step : Step (Dbl R) n)
    (h : Pass E prev cur step new next cur')
    (hx : ∀ i, le (E.lb i) (prev.x i) = true ∧ le (prev.x i) (E.ub i) = true ∧ isFinite (prev.x i) = true)
    (hp : (step.type ≠ .trr ∧ step.type ≠ .trt) ∨ n = 1 ∨ E.opts.stepbackStrat = .refine) (hs : ∀ i, isFinite (step.ogS i) = true)
    (th : ℝ) (hth : (thetaOf E.opts.thetaMax (affineV E.lb E.ub prev.x prev.grad) prev.grad).val = .fin th) (h0 : 0 < th) (h1 : th ≤ 1 - 1 / 2 ^ 50)
    (a : ℝ) (ha : step.alpha.val = .fin a) (ha0 : a = 0 ∨ (2 : ℝ) ^ (-1021 : ℤ) ≤ a) :
    ∀ i, le (E.lb i) (new.x i) = true ∧ le (new.x i) (E.ub i) = true := by
  obtain ⟨O, fuel, hO⟩ := hU
  have hpr := h.proposal
  rw [hO] at hpr
  intro i
  rw [h.point]
  exact trustRegion_inside _ _ _ _ _ step hpr hx hp hs th hth h0 h1 a ha ha0 i

/-- the hypotheses are met, by the first iteration of a run with default options -/
example : ∃ (E : Env (Dbl evenRounding) 1) (prev next : St (Dbl evenRounding) 1) (cur cur' new : Funout (Dbl evenRounding) 1) (step : Step (Dbl evenRounding) 1)
    (th a : ℝ), E.opts = resolveOpts [] ∧ UsesTrustRegion E ∧ Pass E prev cur step new next cur' ∧
    (∀ i, le (E.lb i) (prev.x i) = true ∧ le (prev.x i) (E.ub i) = true ∧ isFinite (prev.x i) = true) ∧ (∀ i, isFinite (step.ogS i) = true) ∧
    (thetaOf E.opts.thetaMax (affineV E.lb E.ub prev.x prev.grad) prev.grad).val = .fin th ∧ 0 < th ∧ th ≤ 1 - 1 / 2 ^ 50 ∧
    step.alpha.val = .fin a ∧ (2 : ℝ) ^ (-1021 : ℤ) ≤ a := by
  obtain ⟨prev, cur, step, new, next, cur', -, h, hx, hth, hs, ha, -⟩ := InnDemo.inn_pass (R := evenRounding) (O := dblOracles _)
    ⟨fun _ _ => ⟨_, rfl⟩, fun _ => ⟨_, rfl⟩⟩ (St.new (resolveOpts []) none) rfl
  have h1 := InnDemo.th_lo (R := evenRounding)
  have h2 := InnDemo.th_hi (R := evenRounding)
  refine ⟨_, prev, next, cur, cur', new, step, _, _, rfl, ⟨fun _ => dblOracles _, 10, ?_⟩, h, ?_, fun i => ff (hs i), hth, by linarith, ?_, ha, ?_⟩
  · intro k I
    show _ = trustRegion _ 10 (resolveOpts [] : Opts (Dbl evenRounding)).subspaceDim (resolveOpts [] : Opts (Dbl evenRounding)).stepbackStrat I
    rw [OutDemo.out_opts]
    rfl
  · intro i
    rw [hx]
    refine ⟨?_, ?_, ff OutDemo.v0⟩
    · show le (-FloatOps.inf : Dbl evenRounding) (lit 0) = true
      rw [le_def, OutDemo.v0]; rfl
    · show le (lit 0 : Dbl evenRounding) (lit (1 / 4)) = true
      rw [le_iff OutDemo.v0 InnDemo.vU4]; norm_num
  · refine h2.trans ?_
    norm_num
  · have h3 : (2 : ℝ) ^ (-1021 : ℤ) ≤ (2 : ℝ) ^ (-1 : ℤ) := zpow_le_zpow_right₀ (by norm_num) (by norm_num)
    have h4 : (2 : ℝ) ^ (-1 : ℤ) = 1 / 2 := by norm_num
    rw [h4] at h3
    linarith

theorem npMax2_above {F : Type} [FloatOps F] [LawfulFloat F] (a b : F) (h : isNaN (npMax2 a b) = false) :
    le a (npMax2 a b) = true ∧ le b (npMax2 a b) = true := by
  unfold npMax2 at h ⊢
  cases ha : isNaN a
  · cases hb : isNaN b
    · have ha' : le a a = true := by simpa [isNaN] using ha
      have hb' : le b b = true := by simpa [isNaN] using hb
      cases hl : lt a b
      · refine ⟨by simp [ha'], ?_⟩
        simp only [Bool.false_eq_true, if_false]
        rcases LawfulFloat.le_total a b ha' hb' with h1 | h1
        · by_contra hc
          have := (LawfulFloat.lt_iff a b).mpr ⟨h1, by simpa using hc⟩
          rw [this] at hl; cases hl
        · exact h1
      · have := ((LawfulFloat.lt_iff a b).mp hl).1
        exact ⟨by simp [this], by simp [hb']⟩
    · rw [ha, hb] at h; simp [hb] at h
  · rw [ha] at h; simp [ha] at h

theorem foldl_npMax2_above {F : Type} [FloatOps F] [LawfulFloat F] (l : List F) (a : F) (h : isNaN (l.foldl npMax2 a) = false) :
    le a (l.foldl npMax2 a) = true ∧ ∀ b ∈ l, le b (l.foldl npMax2 a) = true := by
  induction l generalizing a with
  | nil => exact ⟨by simpa [isNaN] using h, by simp⟩
  | cons c l ih =>
    obtain ⟨h1, h2⟩ := ih (npMax2 a c) h
    have h3 : isNaN (npMax2 a c) = false := by
      have := LawfulFloat.le_self_left _ _ h1
      simp [isNaN, this]
    obtain ⟨h4, h5⟩ := npMax2_above a c h3
    refine ⟨LawfulFloat.le_trans _ _ _ h4 h1, ?_⟩
    intro b hb
    rcases List.mem_cons.mp hb with rfl | hb
    · exact LawfulFloat.le_trans _ _ _ h5 h1
    · exact h2 b hb

/-- the step-back factor is at most `1 - 2^-50` unless every product `v_i g_i` is below `2^-50` -/
theorem theta_below (tm : Dbl R) (v g : Vec (Dbl R) n) (t : ℝ) (ht : tm.val = .fin t) (h0 : 0 < t) (h1 : t ≤ 1 - 1 / 2 ^ 50)
    (i : Fin n) (hi : le (lit (1 / 2 ^ 50)) (FloatOps.abs (v i * g i)) = true) :
    ∃ th : ℝ, (thetaOf tm v g).val = .fin th ∧ 0 < th ∧ th ≤ 1 - 1 / 2 ^ 50 := by
  unfold thetaOf pyMax
  set p := normInf fun i => v i * g i with hp
  by_cases hl : lt tm (lit 1 - p) = true
  swap
  · rw [if_neg hl]; exact ⟨t, ht, h0, h1⟩
  rw [if_pos hl]
  have hq : (lit (1 / 2 ^ 50) : Dbl R).val = .fin (1 / 2 ^ 50) := by
    have := v_lit (R := R) (1 / 2 ^ 50) ⟨1, -50, by norm_num, by norm_num, by norm_num, by norm_num⟩
    rw [this]; norm_num
  have hpn : isNaN p = false := by
    cases h : isNaN p
    · rfl
    · have h2 : isNaN (lit 1 - p) = true := LawfulFloat.nan_sub_right _ _ h
      have h3 := LawfulFloat.le_self_right _ _ ((LawfulFloat.lt_iff _ _).mp hl).1
      rw [isNaN, h3] at h2; cases h2
  have hle : le (lit (1 / 2 ^ 50)) p = true := by
    refine LawfulFloat.le_trans _ _ _ hi ?_
    exact (foldl_npMax2_above _ _ hpn).2 _ (List.mem_ofFn.mpr ⟨i, rfl⟩)
  rw [le_def, hq] at hle
  cases hpv : p.val with
  | nan => rw [hpv] at hle; cases hle
  | ninf => rw [hpv] at hle; cases hle
  | pinf =>
    rw [lt_def, val_sub, hpv, val_lit_one, ht] at hl
    cases hl
  | fin r =>
    rw [hpv] at hle
    have hr : (1 / 2 ^ 50 : ℝ) ≤ r := by simpa using hle
    rw [lt_def, val_sub, hpv, val_lit_one, ht, fin_sub] at hl
    have hm := rd_mono (R := R) (.fin (1 - r)) (.fin (1 - 1 / 2 ^ 50)) (by rw [fin_le, decide_eq_true_eq]; linarith)
    have hs : rd R (.fin (1 - 1 / 2 ^ 50)) = .fin (1 - 1 / 2 ^ 50) :=
      rd_self _ ⟨1125899906842623, -50, by norm_num, by norm_num, by norm_num, by norm_num⟩
        (lt_of_le_of_lt (by rw [abs_of_pos] <;> norm_num) overflow_big)
    rw [hs] at hm
    rw [val_sub, hpv, val_lit_one, fin_sub]
    cases hv : rd R (.fin (1 - r)) with
    | fin q =>
      rw [hv] at hm hl
      have h5 : t < q := by simpa using hl
      have h6 : q ≤ 1 - 1 / 2 ^ 50 := by simpa using hm
      exact ⟨q, rfl, h0.trans h5, h6⟩
    | pinf => rw [hv] at hm; cases hm
    | ninf => rw [hv] at hl; cases hl
    | nan => rw [hv] at hl; cases hl

/-- **C59, what holds, for runs**: in double precision, if `theta_max` is at most `1 - 2^-50` and every iteration starts within the bounds with
some `|v_i g_i|` at least `2^-50` and makes a finite step that is not reflected, truncated or subnormally small, all evaluations of the run are
within the bounds. -/
theorem C59_run_partial (E : Env (Dbl R) n) (hU : UsesTrustRegion E) (x0 : Vec (Dbl R) n) (startId : String) (hess0 : Hess0 (Dbl R)) (st0 : St (Dbl R) n)
    (t : ℝ) (ht : E.opts.thetaMax.val = .fin t) (h0 : 0 < t) (h1 : t ≤ 1 - 1 / 2 ^ 50) (K : ℕ)
    (hrun : ∀ k prev cur step new next cur', k < K → LoopHead E x0 startId hess0 st0 k prev cur → Pass E prev cur step new next cur' →
      (∀ i, le (E.lb i) (prev.x i) = true ∧ le (prev.x i) (E.ub i) = true ∧ isFinite (prev.x i) = true) ∧
      (∃ i, le (lit (1 / 2 ^ 50)) (FloatOps.abs (affineV E.lb E.ub prev.x prev.grad i * prev.grad i)) = true) ∧
      ((step.type ≠ .trr ∧ step.type ≠ .trt) ∨ n = 1 ∨ E.opts.stepbackStrat = .refine) ∧ (∀ i, isFinite (step.ogS i) = true) ∧
      ∃ a : ℝ, step.alpha.val = .fin a ∧ (a = 0 ∨ (2 : ℝ) ^ (-1021 : ℤ) ≤ a))
    (st : St (Dbl R) n) (cur : Funout (Dbl R) n) (h : LoopHead E x0 startId hess0 st0 K st cur) :
    ∀ r ∈ st.evals, r ∈ st0.evals ∨ ∀ i, le (E.lb i) (r.arg i) = true ∧ le (r.arg i) (E.ub i) = true := by
  induction K generalizing st cur with
  | zero =>
    generalize hk : 0 = k at h
    cases h with
    | start st1 st cur hb hs =>
      obtain ⟨rfl, hb'⟩ := checkInBounds_ok _ _ _ _ hb
      obtain ⟨raw, happ, h1, _, _, h2, _, _, _, rfl⟩ := setup_ok _ _ _ _ _ hs
      obtain ⟨a, b, c, d, hfr⟩ := setupState_frame (startState E x0 startId st0) cur happ
      intro r hr
      have hev : r ∈ (setupState (startState E x0 startId st0) cur happ).evals := hr
      rw [hfr] at hev
      rcases List.mem_cons.mp hev with rfl | hr
      · right
        intro i
        obtain ⟨h3, h4, -⟩ := inBounds_spec _ _ _ hb' i
        exact ⟨h3, h4⟩
      · exact Or.inl hr
    | next _ _ _ _ _ _ _ _ _ => omega
  | succ k ih =>
    obtain ⟨prev, cur0, step, new, hh, hp⟩ := loopHead_pass _ _ _ _ _ _ _ _ h
    obtain ⟨hx, ⟨i, hi⟩, hty, hs, a, ha, ha0⟩ := hrun k prev cur0 step new st cur (by omega) hh hp
    obtain ⟨th, hth, hth0, hth1⟩ := theta_below _ _ _ t ht h0 h1 i hi
    have hin := C59_inside_partial E hU prev st cur0 cur new step hp hx hty hs th hth hth0 hth1 a ha ha0
    intro r hr
    rw [hp.evaluated] at hr
    rcases List.mem_cons.mp hr with rfl | hr
    · right; intro j; rw [← hp.point]; exact hin j
    · exact ih (fun j _ _ _ _ _ _ hj => hrun j _ _ _ _ _ _ (by omega)) prev cur0 hh r hr

/-- the hypotheses are met, by the same run -/
example : ∃ (E : Env (Dbl evenRounding) 1) (t : ℝ) (st0 st : St (Dbl evenRounding) 1) (cur : Funout (Dbl evenRounding) 1),
    E.opts = resolveOpts [] ∧ E.opts.thetaMax.val = .fin t ∧ 0 < t ∧ t ≤ 1 - 1 / 2 ^ 50 ∧ LoopHead E vzero "run" .hessStr st0 1 st cur ∧
    ∀ k prev cur step new next cur', k < 1 → LoopHead E vzero "run" .hessStr st0 k prev cur → Pass E prev cur step new next cur' →
      (∀ i, le (E.lb i) (prev.x i) = true ∧ le (prev.x i) (E.ub i) = true ∧ isFinite (prev.x i) = true) ∧
      (∃ i, le (lit (1 / 2 ^ 50)) (FloatOps.abs (affineV E.lb E.ub prev.x prev.grad i * prev.grad i)) = true) ∧
      (∀ i, isFinite (step.ogS i) = true) ∧ ∃ a : ℝ, step.alpha.val = .fin a ∧ (2 : ℝ) ^ (-1021 : ℤ) ≤ a := by
  obtain ⟨prev, cur, step, new, next, cur', hh, h, hx, hth, hs, ha, hg⟩ := InnDemo.inn_pass (R := evenRounding) (O := dblOracles _)
    ⟨fun _ _ => ⟨_, rfl⟩, fun _ => ⟨_, rfl⟩⟩ (St.new (resolveOpts []) none) rfl
  have h1 := InnDemo.th_lo (R := evenRounding)
  have h2 := InnDemo.th_hi (R := evenRounding)
  refine ⟨innEnv evenRounding (dblOracles _), InnDemo.th95 evenRounding, St.new (resolveOpts []) none, next, cur', rfl, ?_, by linarith, h2.trans (by norm_num), ?_, ?_⟩
  · show (resolveOpts [] : Opts (Dbl evenRounding)).thetaMax.val = _
    rw [OutDemo.out_opts]; exact InnDemo.vth
  · exact LoopHead.next 0 prev _ next cur cur' hh h.continues h.body
  · intro k prev2 cur2 step2 new2 next2 cur2' hk hh2 hp2
    obtain rfl : k = 0 := by omega
    obtain ⟨rfl, rfl⟩ := loopHead_unique _ _ _ _ _ _ _ _ _ _ hh hh2
    obtain rfl : step = step2 := by
      have := h.proposal.symm.trans hp2.proposal
      cases this; rfl
    refine ⟨?_, ⟨0, ?_⟩, fun i => ff (hs i), _, ha, ?_⟩
    · intro i
      rw [hx]
      refine ⟨?_, ?_, ff OutDemo.v0⟩
      · show le (-FloatOps.inf : Dbl evenRounding) (lit 0) = true
        rw [le_def, OutDemo.v0]; rfl
      · show le (lit 0 : Dbl evenRounding) (lit (1 / 4)) = true
        rw [le_iff OutDemo.v0 InnDemo.vU4]; norm_num
    · rw [hx, hg]
      have hq : (lit (1 / 2 ^ 50) : Dbl evenRounding).val = .fin (1 / 2 ^ 50) := by
        have := v_lit (R := evenRounding) (1 / 2 ^ 50) ⟨1, -50, by norm_num, by norm_num, by norm_num, by norm_num⟩
        rw [this]; norm_num
      have hp := v_mul (R := evenRounding) (InnDemo.vV (O := dblOracles _) 0) InnDemo.vm1 (by norm_num; simpa using InnDemo.bq)
      rw [le_iff hq (v_abs hp)]
      norm_num
    · have h3 : (2 : ℝ) ^ (-1021 : ℤ) ≤ (2 : ℝ) ^ (-1 : ℤ) := zpow_le_zpow_right₀ (by norm_num) (by norm_num)
      have h4 : (2 : ℝ) ^ (-1 : ℤ) = 1 / 2 := by norm_num
      rw [h4] at h3
      linarith

end

end Fides
