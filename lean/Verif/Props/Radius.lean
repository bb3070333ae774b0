import Verif.Props.Flags
import Verif.Lemmas.Radius
import Verif.Lemmas.NanDemo
import Mathlib.Analysis.SpecificLimits.Basic

/-!
# Bounds on the trust radius over whole runs (exact arithmetic with infinities and NaN)
-/

set_option linter.unusedSectionVars false

namespace Fides
open Spec Num
variable {n : ℕ}

/-- a length is a non-negative real, `+inf` or NaN -/
theorem norm_cases (v : Vec Num n) : (∃ r : ℝ, 0 ≤ r ∧ norm v = fin r) ∨ norm v = pinf ∨ norm v = nan := by
  have hsum : le (fin 0) (dot v v) = true ∨ isNaN (dot v v) = true := by
    have := LawfulFloat.sum_nonneg (F := Num) (List.ofFn fun i => v i * v i) (by
      intro a ha
      obtain ⟨i, rfl⟩ := List.mem_ofFn' _ _ |>.mp ha
      beta_reduce
      cases v i with
      | fin r => left; simp [mul_self_nonneg]
      | pinf => left; rfl
      | ninf => left; rfl
      | nan => right; rfl)
    simpa [dot] using this
  unfold norm
  revert hsum
  cases h : dot v v with
  | fin r =>
    intro hs
    have hr : 0 ≤ r := by simpa using hs
    exact Or.inl ⟨Real.sqrt r, Real.sqrt_nonneg r, by rw [fin_sqrt r hr]⟩
  | pinf => intro _; right; left; rfl
  | ninf => intro hs; simp at hs
  | nan => intro _; right; right; rfl

/-- `nanmin(a, len / 4)` for a non-negative `a`: non-negative and at most `a` -/
theorem shrunk_bound (a : ℝ) (ha : 0 ≤ a) (v : Vec Num n) :
    ∃ d : ℝ, nanMin2 (fin a) (norm v / lit 4) = fin d ∧ 0 ≤ d ∧ d ≤ a := by
  rcases norm_cases v with ⟨r, hr, h⟩ | h | h
  · rw [h, lit_def, fin_div _ _ (by norm_num)]
    unfold nanMin2
    rw [fin_isNaN, fin_isNaN, fin_lt]
    simp only [Bool.false_eq_true, if_false, decide_eq_true_eq]
    split
    · rename_i h'
      exact ⟨_, rfl, by positivity, h'.le⟩
    · exact ⟨a, rfl, ha, le_refl _⟩
  · rw [h, lit_def, pinf_div_fin]
    refine ⟨a, ?_, ha, le_refl _⟩
    norm_num [nanMin2]
  · rw [h, nan_div]
    exact ⟨a, by simp [nanMin2], ha, le_refl _⟩

variable (E : Env Num n) (x0 : Vec Num n) (startId : String) (hess0 : Hess0 Num) (st0 : St Num n)

/-- the radius at the first loop head is the option `delta_init` -/
theorem start_delta (st : St Num n) (cur : Funout Num n) (h : LoopHead E x0 startId hess0 st0 0 st cur) :
    st.delta = E.opts.deltaInit := by
  generalize hk : 0 = k at h
  cases h with
  | start st1 st cur hb hs =>
    obtain ⟨rfl, _⟩ := checkInBounds_ok _ _ _ _ hb
    obtain ⟨raw, happ, _, _, _, _, _, _, _, rfl⟩ := setup_ok _ _ _ _ _ hs
    obtain ⟨a, b, c, d, hf⟩ := setupState_frame (startState E x0 startId st0) cur happ
    show (setupState _ _ _).delta = _
    rw [hf]
    rfl
  | next => cases hk

/-- C16: after `k` iterations the trust radius is a real number between 0 and `delta_init * gamma2^k`, whatever the
objective, the clock, the external routines and even the proposals do. -/
theorem C16_bound (D0 g1 g2 : ℝ) (hD : E.opts.deltaInit = fin D0) (hg1 : E.opts.gamma1 = fin g1) (hg2 : E.opts.gamma2 = fin g2)
    (hD0 : 0 ≤ D0) (hg10 : 0 ≤ g1) (hg11 : g1 ≤ 1) (hg21 : 1 ≤ g2) (k : ℕ) (st : St Num n) (cur : Funout Num n)
    (h : LoopHead E x0 startId hess0 st0 k st cur) :
    ∃ d : ℝ, st.delta = fin d ∧ 0 ≤ d ∧ d ≤ D0 * g2 ^ k := by
  induction k generalizing st cur with
  | zero =>
    exact ⟨D0, by rw [start_delta E x0 startId hess0 st0 st cur h, hD], hD0, by simp⟩
  | succ k ih =>
    obtain ⟨prev, cur0, step, new, hhp, hpass⟩ := loopHead_pass E x0 startId hess0 st0 k st cur h
    obtain ⟨d, hd, hd0, hdk⟩ := ih prev cur0 hhp
    have hr := C16_rule E prev st cur0 cur new step hpass
    simp only at hr
    have hpow : (0 : ℝ) ≤ D0 * g2 ^ k := hd0.trans hdk
    have hstep : D0 * g2 ^ k ≤ D0 * g2 ^ (k + 1) := by
      rw [pow_succ, ← mul_assoc]
      nlinarith
    rw [hr, hd, hg1, hg2]
    split
    · refine ⟨g2 * d, fin_mul _ _, by positivity, ?_⟩
      rw [pow_succ, ← mul_assoc, mul_comm g2 d]
      exact mul_le_mul_of_nonneg_right hdk (by linarith)
    · split
      · rw [fin_mul]
        obtain ⟨d', h1, h2, h3⟩ := shrunk_bound (d * g1) (by positivity) (vadd step.ss step.ss0)
        refine ⟨d', h1, h2, ?_⟩
        have : d * g1 ≤ d := by nlinarith
        linarith
      · exact ⟨d, rfl, hd0, hdk.trans hstep⟩

/-- the hypotheses are met by the default options and a run that reaches the loop after one iteration -/
example : ∃ st cur, (demoEnv (1 / 100000000) (Num.fin 0) (Num.fin 0)).opts.deltaInit = fin 1 ∧
    (demoEnv (1 / 100000000) (Num.fin 0) (Num.fin 0)).opts.gamma1 = fin (1 / 4) ∧
    (demoEnv (1 / 100000000) (Num.fin 0) (Num.fin 0)).opts.gamma2 = fin 2 ∧
    LoopHead (demoEnv (1 / 100000000) (Num.fin 0) (Num.fin 0)) (v1 1) "run" .hessStr demoSt0 0 st cur := by
  obtain ⟨st, cur, h⟩ := demo_head (1 / 100000000) (Num.fin 0) (Num.fin 0)
  refine ⟨st, cur, ?_, ?_, ?_, h⟩ <;> rw [demo_default, demo_opts]

/-- `K` consecutive passes whose proposals were all rejected (the current evaluation stays `cur`), with recorded ratios
that are not NaN -/
inductive Rejections (E : Env Num n) (cur : Funout Num n) : ℕ → St Num n → St Num n → Prop
  | none (st : St Num n) : Rejections E cur 0 st st
  | more (K : ℕ) (st prev next : St Num n) (step : Step Num n) (new : Funout Num n) : Rejections E cur K st prev →
      Pass E prev cur step new next cur → new ≠ cur → isNaN next.trRatio = false → Rejections E cur (K + 1) st next

/-- a rejected step with a real ratio shrinks the radius by `gamma1` or more -/
theorem rejected_shrinks (g1 mu eta d : ℝ) (hg1 : E.opts.gamma1 = fin g1) (hmu : E.opts.mu = fin mu) (heta : E.opts.eta = fin eta)
    (hg10 : 0 ≤ g1) (hmu0 : 0 ≤ mu) (heta0 : 0 < eta) (prev next : St Num n) (step : Step Num n) (new cur : Funout Num n)
    (h : Pass E prev cur step new next cur) (hne : new ≠ cur) (hnan : isNaN next.trRatio = false) (hd : prev.delta = fin d)
    (hd0 : 0 ≤ d) : ∃ d' : ℝ, next.delta = fin d' ∧ 0 ≤ d' ∧ d' ≤ g1 * d := by
  have hp := pass_facts E _ _ _ _ _ _ h
  have hrej : (radiusStep E prev step new).1 = false := by
    rcases hp.cases with ⟨_, h1, _⟩ | ⟨h1, _⟩
    · exact absurd h1.symm hne
    · exact h1
  have hle : le next.trRatio (lit 0) = true := by
    rw [hp.ratio] at hnan ⊢
    revert hrej hnan
    unfold radiusStep
    rcases updateTrRadius_cases E new step (trInput E (preIter prev)).dv (afterEval prev step (.ok new)) with
      ⟨_, h'⟩ | ⟨hf, r, hr, ⟨_, _, h'⟩ | ⟨_, _, h'⟩ | ⟨_, _, m, h'⟩⟩
    · rw [h']; intro _ _; simp
    all_goals
      rw [h']
      intro h2 h1
      have h1' : lt (lit 0) r = false := h1
      have h2' : isNaN r = false := h2
      show le r (lit 0) = true
      cases r with
      | fin r => simpa using h1'
      | pinf => simp at h1'
      | ninf => simp
      | nan => simp at h2'
  have hr := C16_rule E prev next cur cur new step h
  simp only at hr
  have hg : le E.opts.eta next.trRatio = false := by
    rw [heta]
    revert hle
    cases next.trRatio with
    | fin r => intro h; simp at h ⊢; linarith
    | pinf => intro h; simp at h
    | ninf => intro _; rfl
    | nan => intro _; rfl
  have hm : le next.trRatio E.opts.mu = true := by
    rw [hmu]
    revert hle
    cases next.trRatio with
    | fin r => intro h; simp at h ⊢; linarith
    | pinf => intro h; simp at h
    | ninf => intro _; rfl
    | nan => intro h; simp at h
  rw [hg, hm, hd, hg1] at hr
  simp only [Bool.false_and, Bool.and_false, Bool.false_eq_true, if_false, Bool.or_true, if_true, fin_mul] at hr
  obtain ⟨d', h1, h2, h3⟩ := shrunk_bound (d * g1) (by positivity) (vadd step.ss step.ss0)
  exact ⟨d', by rw [hr]; exact h1, h2, by linarith⟩

theorem rejections_shrink (g1 mu eta d : ℝ) (hg1 : E.opts.gamma1 = fin g1) (hmu : E.opts.mu = fin mu) (heta : E.opts.eta = fin eta)
    (hg10 : 0 ≤ g1) (hmu0 : 0 ≤ mu) (heta0 : 0 < eta) (cur : Funout Num n) (K : ℕ) (st st' : St Num n)
    (h : Rejections E cur K st st') (hd : st.delta = fin d) (hd0 : 0 ≤ d) :
    ∃ d' : ℝ, st'.delta = fin d' ∧ 0 ≤ d' ∧ d' ≤ g1 ^ K * d := by
  induction h with
  | none st => exact ⟨d, hd, hd0, by simp⟩
  | more K st prev next step new _ hpass hne hnan ih =>
    obtain ⟨d1, h1, h2, h3⟩ := ih hd
    obtain ⟨d', h4, h5, h6⟩ := rejected_shrinks E g1 mu eta d1 hg1 hmu heta hg10 hmu0 heta0 prev next step new cur hpass hne hnan h1 h2
    refine ⟨d', h4, h5, h6.trans ?_⟩
    rw [pow_succ, mul_comm (g1 ^ K) g1, mul_assoc]
    exact mul_le_mul_of_nonneg_left h3 hg10

/-- C17: with `0 ≤ gamma1 < 1`, `mu ≥ 0`, `eta > 0`, `K` consecutive rejections with real ratios shrink the radius by at least
`gamma1^K`; there is a number of consecutive rejections, depending only on the radius and gamma1, after which the run stops
for any limits and any objective. -/
theorem C17_persistent (g1 d : ℝ) (hg10 : 0 ≤ g1) (hg11 : g1 < 1) (hd0 : 0 ≤ d) :
    ∃ K0 : ℕ, ∀ (E : Env Num n) (mu eta : ℝ) (cur : Funout Num n) (st st' : St Num n) (K : ℕ),
      E.opts.gamma1 = fin g1 → E.opts.mu = fin mu → E.opts.eta = fin eta → 0 ≤ mu → 0 < eta → st.delta = fin d →
      Rejections E cur K st st' →
      (∃ d' : ℝ, st'.delta = fin d' ∧ d' ≤ g1 ^ K * d) ∧ (K0 ≤ K → (checkContinue E st').1 = false) := by
  obtain ⟨K0, hK0⟩ : ∃ K0 : ℕ, g1 ^ K0 * d < 1 / 4503599627370496 := by
    rcases hd0.eq_or_lt with h | h
    · exact ⟨0, by rw [← h]; norm_num⟩
    · obtain ⟨K, hK⟩ := exists_pow_lt_of_lt_one (show (0 : ℝ) < 1 / 4503599627370496 / d by positivity) hg11
      exact ⟨K, by rwa [lt_div_iff₀ h] at hK⟩
  refine ⟨K0, fun E mu eta cur st st' K hg1 hmu heta hmu0 heta0 hd h => ?_⟩
  obtain ⟨d', h1, h2, h3⟩ := rejections_shrink E g1 mu eta d hg1 hmu heta hg10 hmu0 heta0 cur K st st' h hd hd0
  refine ⟨⟨d', h1, h3⟩, fun hK => ?_⟩
  cases hc : checkContinue E st' with
  | mk b st1 =>
    cases b with
    | false => rfl
    | true =>
      have hlt := (checkContinue_true E st' st1 hc).2.2.2.2
      rw [h1] at hlt
      have hpow : g1 ^ K ≤ g1 ^ K0 := pow_le_pow_of_le_one hg10 hg11.le hK
      have : d' < 1 / 4503599627370496 := by nlinarith
      simp only [spacing1, lit_def, fin_lt, decide_eq_false_iff_not, not_lt] at hlt
      push_cast at hlt
      linarith

/-- `K` rejected passes of the NaN demo run with NaN trial values: the recorded ratio is 0 -/
theorem nan_rejections (K : ℕ) (hK : K ≤ 27) : ∃ (st st' : St Num 1) (j : ℕ),
    LoopHead (nanEnv 1000 nan) (v1 1) "run" .hessStr demoSt0 0 st (nanFirst j) ∧
    LoopHead (nanEnv 1000 nan) (v1 1) "run" .hessStr demoSt0 K st' (nanFirst j) ∧ st.delta = fin 1 ∧
    Stuck K ((1 / 4) ^ K) st' ∧ Rejections (nanEnv 1000 nan) (nanFirst j) K st st' := by
  induction K with
  | zero =>
    obtain ⟨st, j, h1, h2⟩ := nan_start 1000 nan demoSt0 rfl
    exact ⟨st, st, j, h1, h1, h2.delta, by simpa using h2, .none st⟩
  | succ K ih =>
    obtain ⟨st, st', j, h1, h2, h3, h4, h5⟩ := ih (by omega)
    have hd : (1 : ℝ) / 4503599627370496 ≤ (1 / 4) ^ K := by
      have : (1 / 4 : ℝ) ^ 26 ≤ (1 / 4) ^ K := pow_le_pow_of_le_one (by norm_num) (by norm_num) (by omega)
      refine le_trans ?_ this
      norm_num
    obtain ⟨st2, h6, h7, h8, step, new, h9, h10, h11⟩ := nan_pass 1000 nan demoSt0 K _ st' j (Or.inl rfl) h2 h4 (by push_cast; omega) hd
    refine ⟨st, st2, j, h1, h6, h3, ?_, .more K st st' st2 step new h5 h9 ?_ ?_⟩
    · have : (1 / 4 : ℝ) ^ (K + 1) = (1 / 4) ^ K / 4 := by rw [pow_succ]; ring
      rw [this]; simpa using h7
    · intro h
      have := congrFun (congrArg Funout.x h) 0
      rw [h11] at this
      simp [nanFirst, v1] at this
    · rw [h8]; simp

/-- the hypotheses are met by 27 consecutive rejections with the default options -/
example : ∃ (st st' : St Num 1) (cur : Funout Num 1), Rejections (nanEnv 1000 nan) cur 27 st st' ∧ st.delta = fin 1 ∧
    (nanEnv 1000 nan).opts.gamma1 = fin (1 / 4) ∧ (nanEnv 1000 nan).opts.mu = fin (1 / 4) ∧
    (nanEnv 1000 nan).opts.eta = fin (3 / 4) := by
  obtain ⟨st, st', j, _, _, h3, _, h5⟩ := nan_rejections 27 le_rfl
  exact ⟨st, st', _, h5, h3, by rw [nan_opts], by rw [nan_opts], by rw [nan_opts]⟩

/-- C17 is false without the condition that the ratios are not NaN: for every `M` there is a run of `minimize` with default
options except `maxiter = M`, proposals computed by `trust_region`, and a finite objective, that performs `M` iterations without
any change of point or radius and stops only because of `maxiter`. -/
theorem C17_counterexample (M : ℕ) : ∃ (E : Env Num 1) (st' : St Num 1),
    E.opts = { resolveOpts [] with maxiter := M } ∧ UsesTrustRegion E ∧
    (∀ k x, ∃ f g h : ℝ, E.obj k x = .tuple [.scalar (fin f), .arr [1] [fin g], .arr [1, 1] [fin h]]) ∧
    minimize E M (v1 1) "run" .hessStr demoSt0 = .ok st' ∧ st'.iteration = M ∧ st'.x = v1 1 ∧
    st'.delta = E.opts.deltaInit ∧ st'.exitflag = .maxiter := by
  have hsr : ∀ k, stuckRadius (fin 1) k = 1 := fun k => by simp [stuckRadius]
  obtain ⟨st, j, h1, h2⟩ := nan_heads M (fin 1) demoSt0 rfl (Or.inr ⟨1, rfl⟩) M le_rfl (fun i _ => by rw [hsr]; norm_num)
  rw [hsr] at h2
  have hc : checkContinue (nanEnv M (fin 1)) st = (false, { st with exitflag := .maxiter }) := by
    unfold checkContinue
    rw [nan_opts]
    simp only [h2.converged, h2.iteration, Bool.false_eq_true, if_false, le_refl, if_true]
  refine ⟨nanEnv M (fin 1), { st with exitflag := .maxiter }, rfl, ⟨fun _ => zeroOracles, 10, fun k I => ?_⟩, fun k x => ?_, ?_, h2.iteration, h2.x, ?_, rfl⟩
  · rw [nan_opts]; rfl
  · by_cases hx : x = v1 1
    · exact ⟨1 / 2, 1, 0, by simp [nanEnv, hx]⟩
    · exact ⟨1, 1, 0, by simp [nanEnv, hx]⟩
  · have := minimize_from_head _ _ _ _ _ _ _ _ (by norm_num) h1 0
    rw [Nat.add_zero] at this
    rw [this, loop_stop _ _ _ _ _ hc]
    simp only [writeHistory]
    rw [nan_opts]
    rfl
  · rw [nan_opts]; exact h2.delta

/-- C52 is false, with consequences: minimising in one unbounded variable from a point where the second derivative is 0 (here
gradient 1), with default options and an objective that returns NaN at NaN, only ever evaluates at NaN after the first
evaluation, and stops with DELTA_TOO_SMALL after 27 iterations without having moved. -/
theorem C52_stuck_counterexample : ∃ (E : Env Num 1) (st' : St Num 1),
    E.opts = { resolveOpts [] with maxiter := 1000 } ∧ UsesTrustRegion E ∧
    (E.obj 0 (v1 1) = .tuple [.scalar (fin (1 / 2)), .arr [1] [fin 1], .arr [1, 1] [fin 0]]) ∧
    minimize E 27 (v1 1) "run" .hessStr demoSt0 = .ok st' ∧ st'.x = v1 1 ∧ st'.iteration = 27 ∧ st'.exitflag = .deltaTooSmall ∧
    ∃ prev cur step new next cur', LoopHead E (v1 1) "run" .hessStr demoSt0 0 prev cur ∧ Pass E prev cur step new next cur' ∧
      prev.x = v1 1 ∧ prev.delta = fin 1 ∧ prev.grad = v1 1 ∧ prev.hess = (fun _ _ => fin 0) ∧ ∀ i, step.s i = nan := by
  obtain ⟨st, st', j, h1, h2, h3, h4, h5⟩ := nan_rejections 27 le_rfl
  have hc : checkContinue (nanEnv 1000 nan) st' = (false, { st' with ticks := st'.ticks + 1, exitflag := .deltaTooSmall }) := by
    have hck : ∀ k, (nanEnv 1000 nan).clock k = fin 0 := fun _ => rfl
    unfold checkContinue
    rw [nan_opts]
    simp only [h4.converged, h4.iteration, h4.delta, h4.starttime, hck]
    norm_num [spacing1]
  refine ⟨nanEnv 1000 nan, { st' with ticks := st'.ticks + 1, exitflag := .deltaTooSmall }, rfl, ⟨fun _ => zeroOracles, 10, fun k I => ?_⟩, ?_, ?_, ?_, ?_, ?_, ?_⟩
  · rw [nan_opts]; rfl
  · simp [nanEnv]
  · have := minimize_from_head _ _ _ _ _ _ _ _ (by norm_num) h2 0
    rw [Nat.add_zero] at this
    rw [this, loop_stop _ _ _ _ _ hc]
    simp only [writeHistory]
    rw [nan_opts]
    rfl
  · exact h4.x
  · exact h4.iteration
  · rfl
  · obtain ⟨st, j, h1, h2⟩ := nan_start 1000 nan demoSt0 rfl
    obtain ⟨st2, _, _, _, step, new, h9, h10, _⟩ := nan_pass 1000 nan demoSt0 0 1 st j (Or.inl rfl) h1 h2 (by norm_num) (by norm_num)
    exact ⟨st, nanFirst j, step, new, st2, nanFirst j, h1, h9, h2.x, h2.delta, h2.grad, h2.hess, fun i => by rw [h10]⟩

end Fides
