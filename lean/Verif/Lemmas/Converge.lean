import Verif.Lemmas.Progress
import Verif.Props.Evaluations

/-!
Helper lemmas: a run whose proposals have sufficient decrease in the model stops.
-/

namespace Fides
open Num Spec
variable {n : ℕ} {E : Env Num n} {f : (Fin n → ℝ) → ℝ} {g : (Fin n → ℝ) → Fin n → ℝ} {mu eta g1 g2 D0 : ℝ}

theorem loopHead_prefix {F : Type} [FloatOps F] (E : Env F n) (x0 : Vec F n) (startId : String) (hess0 : Hess0 F) (st0 : St F n) (k : ℕ)
    (st : St F n) (cur : Funout F n) (h : LoopHead E x0 startId hess0 st0 k st cur) (j : ℕ) (hj : j ≤ k) :
    ∃ st' cur', LoopHead E x0 startId hess0 st0 j st' cur' := by
  induction k generalizing st cur with
  | zero =>
    obtain rfl : j = 0 := by omega
    exact ⟨st, cur, h⟩
  | succ k ih =>
    rcases Nat.lt_or_ge k j with hjk | hjk
    · obtain rfl : j = k + 1 := by omega
      exact ⟨st, cur, h⟩
    · obtain ⟨prev, cur0, step, new, hh, _⟩ := loopHead_pass E x0 startId hess0 st0 k st cur h
      exact ih prev cur0 hh hjk

/-- a run is deterministic -/
theorem loopHead_unique {F : Type} [FloatOps F] (E : Env F n) (x0 : Vec F n) (startId : String) (hess0 : Hess0 F) (st0 : St F n) (k : ℕ)
    (st st' : St F n) (cur cur' : Funout F n) (h : LoopHead E x0 startId hess0 st0 k st cur) (h' : LoopHead E x0 startId hess0 st0 k st' cur') :
    st = st' ∧ cur = cur' := by
  induction k generalizing st cur st' cur' with
  | zero =>
    cases h with
    | start s1 _ _ hb hs =>
      cases h' with
      | start s2 _ _ hb' hs' =>
        rw [hb] at hb'
        cases hb'
        rw [hs] at hs'
        cases hs'
        exact ⟨rfl, rfl⟩
  | succ k ih =>
    cases h with
    | next _ p s1 _ c _ hh hc hi =>
      cases h' with
      | next _ p' s1' _ c' _ hh' hc' hi' =>
        obtain ⟨rfl, rfl⟩ := ih _ _ _ _ hh hh'
        rw [hc] at hc'
        cases hc'
        rw [hi] at hi'
        cases hi'
        exact ⟨rfl, rfl⟩

/-- value and gradient at a loop head of an unbounded problem -/
theorem head_values (hU : NoBounds E.lb E.ub) (hev : Evaluates E f g) (x0 : Vec Num n) (startId : String) (hess0 : Hess0 Num) (st0 : St Num n) (k : ℕ)
    (st : St Num n) (cur : Funout Num n) (h : LoopHead E x0 startId hess0 st0 k st cur) (x : Fin n → ℝ) (hx : st.x = ofV x) :
    cur.x = ofV x ∧ st.fval = fin (f x) ∧ st.grad = ofV (g x) := by
  have hi := headInv E x0 startId hess0 st0 k st cur h
  have hcx : cur.x = ofV x := by
    rcases hi.x with ⟨_, h1⟩ | h1 | h1
    · rw [← h1, hx]
    · rw [← h1, hx]
    · rw [C51_nudge _ _ _ hU] at h1; rw [← h1, hx]
  obtain ⟨m, raw, h1, h2⟩ := head_evaluated E x0 startId hess0 st0 k st cur h
  rw [hcx] at h1 h2
  obtain ⟨h3, h4⟩ := hev m x _ raw cur h1 h2
  exact ⟨hcx, by rw [hi.fval, h3], by rw [hi.grad, h4]⟩

/-- a call of such an objective -/
theorem Spec.Returns.eval {H : (Fin n → ℝ) → Fin n → Fin n → ℝ} (h : Returns E f g H) (k : ℕ) (x : Fin n → ℝ) :
    ∃ raw, funEval E.nargout E.resfun (E.obj k (ofV x)) = .ok raw ∧ checkdims n raw = .ok () ∧ raw.hess ≠ .none ∧
      ∀ xId, raw.typed (ofV x) xId = some { x := ofV x, xId := xId, fval := fin (f x), grad := ofV (g x), hess := some (ofM (H x)), res := none } := by
  refine ⟨{ fval := .scalar (fin (f x)), grad := .ofVec (ofV (g x)), hess := .ofMat (ofM (H x)), res := .none, sres := .none }, ?_, ?_, ?_, ?_⟩
  · rw [h.nargout, h.resfun, h.obj]; rfl
  · simp [checkdims, PyVal.ofVec, PyVal.ofMat]
  · simp [PyVal.ofMat]
  · intro xId
    have e1 := toMat_ofMat (ofM (H x))
    simp only [RawOut.typed, toVec_ofVec]
    simp only [PyVal.ofMat] at e1 ⊢
    rw [e1]
    rfl

theorem Spec.Returns.evaluates {H : (Fin n → ℝ) → Fin n → Fin n → ℝ} (h : Returns E f g H) : Evaluates E f g := by
  intro k x xId raw fo h1 h2
  obtain ⟨raw', h3, _, _, h4⟩ := h.eval k x
  rw [h1] at h3; cases h3
  rw [h4] at h2; cases h2
  exact ⟨rfl, rfl⟩

theorem passBound_spec (hg1 : 0 < g1) (hg11 : g1 < 1) (hg2 : 1 ≤ g2) (hD0 : 0 < D0) (gap lo dec : ℝ) (hfl : 0 < lo) (hdec : 0 < dec) :
    ∃ G K, passBound g1 g2 D0 gap lo dec = G + K ∧ gap < G * dec ∧ D0 * g2 ^ G * g1 ^ K < lo := by
  refine ⟨_, _, rfl, ?_, ?_⟩
  · have := Nat.lt_floor_add_one (gap / dec)
    rw [div_lt_iff₀ hdec] at this
    push_cast; exact this
  · set G := ⌊gap / dec⌋₊ + 1
    have hg2 : 0 < g2 := by linarith
    have hlog : 0 < Real.log (1 / g1) := Real.log_pos (by rw [lt_div_iff₀ hg1, one_mul]; exact hg11)
    have h1 := Nat.lt_floor_add_one (Real.log (D0 * g2 ^ G / lo) / Real.log (1 / g1))
    set K := ⌊Real.log (D0 * g2 ^ G / lo) / Real.log (1 / g1)⌋₊ + 1 with hK
    have h2 : Real.log (D0 * g2 ^ G / lo) < K * Real.log (1 / g1) := by
      rw [div_lt_iff₀ hlog] at h1
      rw [hK]; push_cast; exact h1
    have hpos : 0 < D0 * g2 ^ G / lo := div_pos (mul_pos hD0 (pow_pos hg2 _)) hfl
    have hgk : 0 < g1 ^ K := pow_pos hg1 _
    rw [← Real.log_pow, Real.log_lt_log_iff hpos (pow_pos (by positivity) _), one_div, inv_pow, div_lt_iff₀ hfl,
      inv_mul_eq_div, lt_div_iff₀ hgk] at h2
    exact h2

theorem CountConst.lo_pos {a b b' C c : ℝ} (hE : TRParams E mu eta g1 g2 D0) (hC : CountConst mu a b b' C c) : 0 < min D0 (min g1 (1 / 4) * c) := by
  have hcpos : 0 < c := by
    rw [hC.c_def]
    exact lt_min hC.b'_pos (lt_min hC.b_pos (div_pos (mul_pos (sub_pos.mpr hE.mu_lt) hC.a_pos) hC.C_pos))
  exact lt_min hE.D0_pos (mul_pos (lt_min hE.g1_pos (by norm_num)) hcpos)

theorem CountConst.dec_pos {a b b' C c : ℝ} (hE : TRParams E mu eta g1 g2 D0) (hC : CountConst mu a b b' C c) :
    0 < mu * (a * min (min D0 (min g1 (1 / 4) * c)) b) :=
  mul_pos hE.mu_pos (mul_pos hC.a_pos (lt_min (hC.lo_pos hE) hC.b_pos))

/-- at a loop head that is not the last one the gradient is longer than the tolerance `gatol` -/
theorem head_gradient (x0 : Vec Num n) (startId : String) (hess0 : Hess0 Num) (st0 : St Num n) (ga : ℝ) (hga : E.opts.gatol = fin ga)
    (hstart : ∀ st cur gr, LoopHead E x0 startId hess0 st0 0 st cur → st.grad = ofV gr → ga < rnorm gr) (k : ℕ) (st : St Num n) (cur : Funout Num n)
    (h : LoopHead E x0 startId hess0 st0 k st cur) (hc : st.converged = false) (gr : Fin n → ℝ) (hg : st.grad = ofV gr) : ga < rnorm gr := by
  induction k generalizing st cur with
  | zero => exact hstart st cur gr h hg
  | succ k ih =>
    obtain ⟨prev, cur0, step, new, hh, hp⟩ := loopHead_pass E x0 startId hess0 st0 k st cur h
    have hF := pass_facts E _ _ _ _ _ _ hp
    rcases hF.cases with ⟨_, _, _, _, _, h1⟩ | ⟨_, _, _, _, h1, _⟩
    · have hcc := hF.converged
      rw [hc] at hcc
      by_contra hcon
      push Not at hcon
      have hle : le (norm new.grad) E.opts.gatol = true := by
        rw [← h1, hg, hga, norm_ofV, fin_le]; simpa using hcon
      unfold checkConvergence at hcc
      simp only [hle, if_true] at hcc
      split at hcc
      · cases hcc
      · split at hcc <;> cases hcc
    · have hpc : prev.converged = false := by
        have := hp.continues
        unfold checkContinue at this
        split at this
        · cases this
        · rename_i h; simpa using h
      exact ih prev cur0 hh hpc (by rw [← h1, hg])

theorem continues_live (E : Env Num n) (st st1 : St Num n) (h : checkContinue E st = (true, st1)) : st.converged = false :=
  (checkContinue_true E st st1 h).2.1

/-- the Hessian in use at a loop head when the objective returns it -/
theorem returned_hess (hU : NoBounds E.lb E.ub) {H : (Fin n → ℝ) → Fin n → Fin n → ℝ} (hR : Returns E f g H) (x0 : Vec Num n) (startId : String)
    (hess0 : Hess0 Num) (st0 : St Num n) (h0 : st0.happ = none) (k : ℕ) (st : St Num n) (cur : Funout Num n)
    (h : LoopHead E x0 startId hess0 st0 k st cur) (x : Fin n → ℝ) (hx : st.x = ofV x) : st.hess = ofM (H x) := by
  have hi := headInv E x0 startId hess0 st0 k st cur h
  have hcx := (head_values hU hR.evaluates x0 startId hess0 st0 k st cur h x hx).1
  obtain ⟨m, raw, h1, h2⟩ := head_evaluated E x0 startId hess0 st0 k st cur h
  rw [hcx] at h1 h2
  obtain ⟨raw', h3, _, _, h4⟩ := hR.eval m x
  rw [h1] at h3; cases h3
  rw [h4] at h2
  have h5 := hi.hess (hi.happ.mpr h0)
  have h6 : cur.hess = some (ofM (H x)) := by rw [← Option.some.inj h2]
  rw [h6] at h5
  exact (Option.some.inj h5).symm

theorem historyRow_total {F : Type} [FloatOps F] (E : Env F n) (hevs : ∀ m, ∃ r, E.evs m = .ok r) (hcond : ∀ m, ∃ r, E.cond m = .ok r) (b : Bool)
    (step : Step F n) (fo : Funout F n) (th : F) (sh : Mat F n n) (st : St F n) (e : PyErr) : historyRow E b step fo th sh st ≠ .error e := by
  intro h
  have he : ∀ m e, E.evs m ≠ .error e := by
    intro m e h; obtain ⟨r, hr⟩ := hevs m; rw [hr] at h; cases h
  have hc : ∀ m e, E.cond m ≠ .error e := by
    intro m e h; obtain ⟨r, hr⟩ := hcond m; rw [hr] at h; cases h
  unfold historyRow at h
  simp only at h
  split at h
  · rename_i h1; exact he _ _ h1
  · split at h
    · rename_i h1
      split at h1
      · cases h1
      · split at h1
        · exact he _ _ h1
        · cases h1
    · split at h
      · rename_i h1
        split at h1 <;> first | (split at h1 <;> first | exact he _ _ h1 | cases h1) | cases h1
      · split at h
        · rename_i h1; exact hc _ _ h1
        · split at h
          · rename_i h1; exact hc _ _ h1
          · cases h

/-- the proposals of the run have sufficient decrease wherever the gradient is at least `eps` long -/
def Decreasing (E : Env Num n) (g : (Fin n → ℝ) → Fin n → ℝ) (M a b b' eps : ℝ) (x0 : Fin n → ℝ) (startId : String) (hess0 : Hess0 Num) (st0 : St Num n) : Prop :=
  ∀ k prev cur step new next cur', LoopHead E (ofV x0) startId hess0 st0 k prev cur → Pass E prev cur step new next cur' →
    ModelDecrease E g M a b b' eps prev step

section
variable {L M a b b' c : ℝ}

theorem visits_of (hE : TRParams E mu eta g1 g2 D0) (hU : NoBounds E.lb E.ub) (hev : Evaluates E f g) (hL : SmoothWith L f g) (fmin : ℝ)
    (hC : CountConst mu a b b' ((L + M) / 2) c) (hmin : ∀ y, fmin ≤ f y) (x0 : Fin n → ℝ) (startId : String) (hess0 : Hess0 Num) (st0 : St Num n)
    (eps : ℝ) (hdec : Decreasing E g M a b b' eps x0 startId hess0 st0)
    (k : ℕ) (st : St Num n) (cur : Funout Num n) (h : LoopHead E (ofV x0) startId hess0 st0 k st cur) (N : ℕ)
    (hN : N = passBound g1 g2 D0 (f x0 - fmin) (min D0 (min g1 (1 / 4) * c)) (mu * (a * min (min D0 (min g1 (1 / 4) * c)) b))) (hk : N ≤ k) :
    ∃ j < N, ∃ st' cur' x', LoopHead E (ofV x0) startId hess0 st0 j st' cur' ∧ st'.x = ofV x' ∧ rnorm (g x') < eps := by
  obtain ⟨G, K, hGK, hG, hK⟩ := passBound_spec hE.g1_pos hE.g1_lt hE.g2_ge hE.D0_pos (f x0 - fmin) _ _ (hC.lo_pos hE) (hC.dec_pos hE)
  obtain ⟨stN, curN, hhN⟩ := loopHead_prefix E _ startId hess0 st0 k st cur h _ hk
  by_contra hcon
  push Not at hcon
  obtain ⟨x, D, G', K', hcount⟩ := run_counted hE hU hev L M hL hC x0 startId hess0 st0 hdec _ stN curN hhN
    (fun j hj st' cur' x' hh hx => hcon j hj st' cur' x' hh hx)
  have := counted_bound hE (hC.dec_pos hE) hcount hmin G K hG hK
  omega

theorem stops_of (hE : TRParams E mu eta g1 g2 D0) (hU : NoBounds E.lb E.ub) (hev : Evaluates E f g) (hL : SmoothWith L f g) (fmin : ℝ)
    (hC : CountConst mu a b b' ((L + M) / 2) c) (hmin : ∀ y, fmin ≤ f y) (x0 : Fin n → ℝ) (startId : String) (hess0 : Hess0 Num) (st0 : St Num n)
    (ga : ℝ) (hdec : Decreasing E g M a b b' ga x0 startId hess0 st0) (hga : E.opts.gatol = fin ga) (hstart : ga < rnorm (g x0)) (N : ℕ)
    (hN : N = passBound g1 g2 D0 (f x0 - fmin) (min D0 (min g1 (1 / 4) * c)) (mu * (a * min (min D0 (min g1 (1 / 4) * c)) b)))
    (k : ℕ) (st : St Num n) (cur : Funout Num n) (h : LoopHead E (ofV x0) startId hess0 st0 k st cur) : k < N := by
  by_contra hcon
  push Not at hcon
  obtain ⟨j, hj, st', cur', x', hh, hx, hsmall⟩ := visits_of hE hU hev hL fmin hC hmin x0 startId hess0 st0 ga hdec k st cur h N hN hcon
  -- the run goes on after `j`
  obtain ⟨st1, cur1, h1⟩ := loopHead_prefix E _ startId hess0 st0 k st cur h (j + 1) (by omega)
  obtain ⟨prev, cur0, step, new, hh2, hp⟩ := loopHead_pass E _ startId hess0 st0 j st1 cur1 h1
  obtain ⟨rfl, rfl⟩ := loopHead_unique E _ startId hess0 st0 j _ _ _ _ hh hh2
  have hpc : st'.converged = false := by
    have := hp.continues
    unfold checkContinue at this
    split at this
    · cases this
    · rename_i h; simpa using h
  have hgr := (head_values hU hev _ startId hess0 st0 j st' cur' hh x' hx).2.2
  have := head_gradient (ofV x0) startId hess0 st0 ga hga (fun s c gr hs hg => by
    have h2 := (start_values hU hev x0 startId hess0 st0 s c hs).2.2
    rw [hg, ofV_inj] at h2
    rw [h2]; exact hstart) j st' cur' hh hpc (g x') hgr
  linarith

theorem live_of (hE : TRParams E mu eta g1 g2 D0) (hU : NoBounds E.lb E.ub) (hev : Evaluates E f g) (hL : SmoothWith L f g)
    (hC : CountConst mu a b b' ((L + M) / 2) c) (x0 : Fin n → ℝ) (startId : String) (hess0 : Hess0 Num) (st0 : St Num n)
    (ga : ℝ) (hdec : Decreasing E g M a b b' ga x0 startId hess0 st0) (hga : E.opts.gatol = fin ga) (hstart : ga < rnorm (g x0))
    (k : ℕ) (st : St Num n) (cur : Funout Num n) (h : LoopHead E (ofV x0) startId hess0 st0 k st cur) :
    ∃ x D, st.x = ofV x ∧ cur.x = ofV x ∧ st.fval = fin (f x) ∧ st.grad = ofV (g x) ∧ st.delta = fin D ∧ min D0 (min g1 (1 / 4) * c) ≤ D ∧ 0 < D := by
  have hfl := hC.lo_pos hE
  obtain ⟨x, D, G', K', hc⟩ := run_counted (eps := ga) hE hU hev L M hL hC x0 startId hess0 st0 hdec k st cur h
    (fun j hj st' cur' x' hh hx => by
      obtain ⟨st1, cur1, h1⟩ := loopHead_prefix E _ startId hess0 st0 k st cur h (j + 1) (by omega)
      obtain ⟨prev, cur0, step, new, hh2, hp⟩ := loopHead_pass E _ startId hess0 st0 j st1 cur1 h1
      obtain ⟨rfl, rfl⟩ := loopHead_unique E _ startId hess0 st0 j _ _ _ _ hh hh2
      have hgr := (head_values hU hev _ startId hess0 st0 j st' cur' hh x' hx).2.2
      exact (head_gradient (ofV x0) startId hess0 st0 ga hga (fun s c gr hs hg => by
        have h2 := (start_values hU hev x0 startId hess0 st0 s c hs).2.2
        rw [hg, ofV_inj] at h2
        rw [h2]; exact hstart) j st' cur' hh (continues_live E _ _ hp.continues) (g x') hgr).le)
  exact ⟨x, D, hc.hx, (head_values hU hev _ startId hess0 st0 k st cur h x hc.hx).1, hc.fval, hc.grad, hc.delta, hc.lower, hfl.trans_le hc.lower⟩

/-- the solver returns a step to a real vector from every state with such data -/
def ProposesAt (E : Env Num n) (g : (Fin n → ℝ) → Fin n → ℝ) (H : (Fin n → ℝ) → Fin n → Fin n → ℝ) (ga : ℝ) (st : St Num n) : Prop :=
  ∀ x D, st.x = ofV x → st.grad = ofV (g x) → st.hess = ofM (H x) → st.delta = fin D → 0 < D → ga < rnorm (g x) →
    ∃ step p, E.tr st.proposals (trInput E (preIter { st with ticks := st.ticks + 1 })) = .ok step ∧ trialPoint st step = ofV (x + p)

/-- ... in every state -/
def Proposes (E : Env Num n) (g : (Fin n → ℝ) → Fin n → ℝ) (H : (Fin n → ℝ) → Fin n → Fin n → ℝ) (ga : ℝ) : Prop :=
  ∀ (st : St Num n), ProposesAt E g H ga st

/-- a run whose length and radius are bounded returns normally -/
theorem total_core (hn : 0 < n) (hU : NoBounds E.lb E.ub) (H : (Fin n → ℝ) → Fin n → Fin n → ℝ) (hR : Returns E f g H)
    (x0 : Fin n → ℝ) (startId : String) (hess0 : Hess0 Num) (st0 : St Num n) (lo : ℝ)
    (ga : ℝ) (hprop : ∀ k st cur, LoopHead E (ofV x0) startId hess0 st0 k st cur → ProposesAt E g H ga st) (hga : E.opts.gatol = fin ga) (hstart : ga < rnorm (g x0)) (N : ℕ)
    (hstop : ∀ k st cur, LoopHead E (ofV x0) startId hess0 st0 k st cur → k < N)
    (hlive : ∀ k st cur, LoopHead E (ofV x0) startId hess0 st0 k st cur →
      ∃ x D, st.x = ofV x ∧ cur.x = ofV x ∧ st.fval = fin (f x) ∧ st.grad = ofV (g x) ∧ st.delta = fin D ∧ lo ≤ D ∧ 0 < D)
    (happ : st0.happ = none) (hevs : ∀ m, ∃ r, E.evs m = .ok r) (hcond : ∀ m, ∃ r, E.cond m = .ok r) (hfile : ∀ grp ∈ st0.file, grp.1 ≠ startId)
    (fuel : ℕ) (hfuel : N ≤ fuel) :
    ∃ st', minimize E fuel (ofV x0) startId hess0 st0 = .ok st' ∧ st'.iteration < N := by
  have hev := hR.evaluates
  have hxs : (startState E (ofV x0) startId st0).x = ofV x0 := by
    show nudge E.lb E.ub (ofV x0) = _
    rw [C51_nudge _ _ _ hU]
  have hrow := historyRow_total E hevs hcond
  cases hmz : minimize E fuel (ofV x0) startId hess0 st0 with
  | ok st' =>
    refine ⟨st', rfl, ?_⟩
    obtain ⟨_, k, st1, cur, st2, _, hh, hc, hw⟩ := minimize_ok E (ofV x0) startId hess0 st0 fuel st' hmz
    obtain ⟨fl, rfl⟩ := writeHistory_ok E _ _ hw
    have hit := (headInv E _ startId hess0 st0 k st1 cur hh).iteration
    have : st2.iteration = st1.iteration := by
      rcases checkContinue_false E st1 st2 hc with ⟨_, rfl⟩ | ⟨_, _, rfl⟩ | ⟨_, _, _, rfl⟩ | ⟨_, _, _, rfl⟩ <;> rfl
    show st2.iteration < _
    rw [this, hit]
    exact hstop k st1 cur hh
  | error e =>
    exfalso
    obtain ⟨e, st'⟩ := e
    rcases minimize_error E (ofV x0) startId hess0 st0 fuel st' e hmz with ⟨h0, _⟩ | h | ⟨st1, hb, hs⟩ | ⟨k, st1, cur1, st2, hh, hc, h⟩ | ⟨k, st1, cur, st2, hh, hc, hw⟩
    · omega
    · have := (checkInBounds_error _ _ _ _ _ h).1
      rw [hxs, inBounds_real _ _ _ (hU.inBox x0)] at this
      cases this
    · obtain ⟨rfl, _⟩ := checkInBounds_ok _ _ _ _ hb
      have hh0 : (startState E (ofV x0) startId st0).happ = none := happ
      unfold setup at hs
      obtain ⟨raw, h1, h2, h3, h4⟩ := hR.eval (startState E (ofV x0) startId st0).evals.length x0
      have h5 : initialHapp (startState E (ofV x0) startId st0).happ hess0 raw = .ok none := by
        rw [hh0]
        unfold initialHapp
        simp only
      rw [hxs, h1] at hs
      simp only at hs
      rw [h5, h2] at hs
      simp only [h4] at hs
      unfold checkFinite at hs
      rw [if_pos] at hs
      · cases hs
      · simp [allFinite, vfinite, mfinite]
    · obtain ⟨rfl, hcv, _⟩ := checkContinue_true E st1 st2 hc
      obtain ⟨x, D, hx, hcx, hf, hg, hd, _, hDp⟩ := hlive k st1 cur1 hh
      have hH := returned_hess hU hR _ startId hess0 st0 happ k st1 cur1 hh x hx
      have hhead := headInv E _ startId hess0 st0 k st1 cur1 hh
      have hnone : st1.happ = none := hhead.happ.mpr happ
      rcases h with ⟨_, _, hk⟩ | h
      · have := hstop k st1 cur1 hh
        omega
      · have hgr := (head_gradient (ofV x0) startId hess0 st0 ga hga (fun s c gr hs hg => by
          have h2 := (start_values hU hev x0 startId hess0 st0 s c hs).2.2
          rw [hg, ofV_inj] at h2
          rw [h2]; exact hstart) k st1 cur1 hh hcv (g x) hg)
        obtain ⟨step, p, hstep, hp⟩ := hprop k st1 cur1 hh x D hx hg hH hd hDp hgr
        have hout : ∃ new, trialOut E { st1 with ticks := st1.ticks + 1 } step = .ok new ∧ new.x = ofV (x + p) ∧ new.fval = fin (f (x + p)) ∧
            new.grad = ofV (g (x + p)) ∧ new.hess = some (ofM (H (x + p))) := by
          obtain ⟨raw, h1, _, _, h4⟩ := hR.eval st1.evals.length (x + p)
          refine ⟨{ x := ofV (x + p), xId := st1.nextId, fval := fin (f (x + p)), grad := ofV (g (x + p)), hess := some (ofM (H (x + p))), res := none },
            ?_, rfl, rfl, rfl, rfl⟩
          have e1 : trialPoint { st1 with ticks := st1.ticks + 1 } step = ofV (x + p) := hp
          unfold trialOut
          rw [e1]
          unfold evaluate
          have e2 : ({ preIter { st1 with ticks := st1.ticks + 1 } with proposals := st1.proposals + 1, nextId := st1.nextId + 1 } : St Num n).evals.length = st1.evals.length := rfl
          simp only [e2, h1, h4]
        obtain ⟨new, hnew, hnx, hnf, hng, hnh⟩ := hout
        rcases iterate_error E _ st' cur1 e h with ⟨h1, _⟩ | ⟨_, h | ⟨step', hs', h⟩⟩
        · have : allFinite st1.fval st1.grad (some st1.hess) = true := by
            rw [hf, hg, hH]; simp [allFinite, vfinite, mfinite]
          have h1' : allFinite st1.fval st1.grad (some st1.hess) = false := h1
          rw [this] at h1'; cases h1'
        · have h1 := h.1
          simp only at h1
          rw [hstep] at h1; cases h1
        · simp only at hs'
          rw [hstep] at hs'; cases hs'
          rcases h with ⟨h, _⟩ | ⟨new', hnew', _, _, h⟩
          · rw [hnew] at h; cases h
          · rw [hnew] at hnew'; cases hnew'
            rcases h with ⟨_, h, _⟩ | ⟨_, ⟨_, h⟩ | ⟨_, _, h⟩ | ⟨_, _, h⟩⟩
            · rw [hnf, hng, hnh] at h; simp [allFinite, vfinite, mfinite] at h
            · obtain ⟨r, d, i, m, ef, c, mx, mxi, mf, mg, hpf⟩ := postCheck_frame E { st1 with ticks := st1.ticks + 1 } step new
              have hap : (postCheck E { st1 with ticks := st1.ticks + 1 } step new).happ = none := by rw [hpf]; exact hnone
              unfold update at h
              rw [hap, hnh] at h
              simp only [checkInBounds, hnx, inBounds_real _ _ _ (hU.inBox (x + p)), if_true] at h
              cases h
            · exact hrow _ _ _ _ _ _ _ h
            · exact hrow _ _ _ _ _ _ _ h
    · unfold writeHistory at hw
      have hhead := headInv E _ startId hess0 st0 k st1 cur hh
      have hfs : st2.file = st0.file ∧ st2.startId = startId := by
        have h1 := hhead.file
        have h2 := hhead.startId_eq
        rcases checkContinue_false E st1 st2 hc with ⟨_, rfl⟩ | ⟨_, _, rfl⟩ | ⟨_, _, _, rfl⟩ | ⟨_, _, _, rfl⟩ <;> exact ⟨h1, h2⟩
      split at hw
      · split at hw
        · rename_i hany
          rw [hfs.1, hfs.2, List.any_eq_true] at hany
          obtain ⟨grp, hgm, hge⟩ := hany
          exact hfile grp hgm (by simpa using hge)
        · cases hw
      · cases hw

theorem total_of (hn : 0 < n) (hE : TRParams E mu eta g1 g2 D0) (hU : NoBounds E.lb E.ub) (H : (Fin n → ℝ) → Fin n → Fin n → ℝ) (hR : Returns E f g H) (hL : SmoothWith L f g) (fmin : ℝ)
    (hC : CountConst mu a b b' ((L + M) / 2) c) (hmin : ∀ y, fmin ≤ f y) (x0 : Fin n → ℝ) (startId : String) (hess0 : Hess0 Num) (st0 : St Num n)
    (ga : ℝ) (hdec : Decreasing E g M a b b' ga x0 startId hess0 st0) (hprop : Proposes E g H ga) (hga : E.opts.gatol = fin ga) (hstart : ga < rnorm (g x0)) (N : ℕ)
    (hN : N = passBound g1 g2 D0 (f x0 - fmin) (min D0 (min g1 (1 / 4) * c)) (mu * (a * min (min D0 (min g1 (1 / 4) * c)) b)))
    (happ : st0.happ = none) (hevs : ∀ m, ∃ r, E.evs m = .ok r) (hcond : ∀ m, ∃ r, E.cond m = .ok r) (hfile : ∀ grp ∈ st0.file, grp.1 ≠ startId)
    (fuel : ℕ) (hfuel : N ≤ fuel) :
    ∃ st', minimize E fuel (ofV x0) startId hess0 st0 = .ok st' ∧ st'.iteration < N := by
  have hev := hR.evaluates
  have hstop := stops_of hE hU hev hL fmin hC hmin x0 startId hess0 st0 ga hdec hga hstart N hN
  have hlive := live_of hE hU hev hL hC x0 startId hess0 st0 ga hdec hga hstart
  exact total_core hn hU H hR x0 startId hess0 st0 _ ga (fun _ st _ _ => hprop st) hga hstart N hstop hlive happ hevs hcond hfile fuel hfuel

/-- a run whose length and radius are bounded stops with a convergence flag -/
theorem flag_given (hU : NoBounds E.lb E.ub) (hev : Evaluates E f g)
    (x0 : Fin n → ℝ) (startId : String) (hess0 : Hess0 Num) (st0 : St Num n) (lo : ℝ)
    (ga : ℝ) (hga : E.opts.gatol = fin ga) (hstart : ga < rnorm (g x0)) (N : ℕ)
    (hstop : ∀ k st cur, LoopHead E (ofV x0) startId hess0 st0 k st cur → k < N)
    (hlive : ∀ k st cur, LoopHead E (ofV x0) startId hess0 st0 k st cur →
      ∃ x D, st.x = ofV x ∧ cur.x = ofV x ∧ st.fval = fin (f x) ∧ st.grad = ofV (g x) ∧ st.delta = fin D ∧ lo ≤ D ∧ 0 < D)
    (hstep : ∀ k prev cur step new next cur', LoopHead E (ofV x0) startId hess0 st0 k prev cur → Pass E prev cur step new next cur' →
      ∀ (x : Fin n → ℝ) (D : ℝ), prev.x = ofV x → prev.grad = ofV (g x) → prev.delta = fin D → 0 < D → ga < rnorm (g x) →
      ∃ p : Fin n → ℝ, vadd step.ss step.ss0 = ofV p ∧ vadd (vadd prev.x step.s) step.s0 = ofV (x + p))
    (fuel : ℕ) (hok : ∃ st', minimize E fuel (ofV x0) startId hess0 st0 = .ok st')
    (hiter : (N : ℤ) ≤ E.opts.maxiter) (htime : E.opts.maxtime = pinf)
    (hclock : ∀ k, ∃ t : ℝ, E.clock k = fin t) (hfloor : 1 / 4503599627370496 ≤ lo) :
    ∃ st', minimize E fuel (ofV x0) startId hess0 st0 = .ok st' ∧
      (st'.exitflag = .ftol ∨ st'.exitflag = .xtol ∨ st'.exitflag = .gtol) ∧
      -- the last call of the objective, at `y`, after a step `y - x` from the point `x`; the flags refer to these
      ∃ x y fo, st'.evals.head? = some { arg := ofV y, out := .ok fo } ∧
        (st'.exitflag = .gtol → rnorm (g y) ≤ ga ∨ le (fin (rnorm (g y))) (E.opts.grtol * fin |f x|) = true) ∧
        (st'.exitflag = .ftol → lt (fin |f y - f x|) (E.opts.fatol + E.opts.frtol * fin |f x|) = true) ∧
        (st'.exitflag = .xtol → lt (fin (rnorm (y - x))) E.opts.xtol = true) := by
  obtain ⟨st', hmz⟩ := hok
  refine ⟨st', hmz, ?_⟩
  obtain ⟨_, k, st1, cur, st2, _, hh, hc, hw⟩ := minimize_ok E (ofV x0) startId hess0 st0 fuel st' hmz
  obtain ⟨fl, rfl⟩ := writeHistory_ok E _ _ hw
  have hhead := headInv E _ startId hess0 st0 k st1 cur hh
  obtain ⟨x, D, hx, hcx, hf, hg, hd, hlo, hDp⟩ := hlive k st1 cur hh
  rcases checkContinue_false E st1 st2 hc with ⟨hcv, rfl⟩ | ⟨_, hm, rfl⟩ | ⟨_, _, ht, rfl⟩ | ⟨_, _, hdl, rfl⟩
  · cases k with
    | zero => rw [loopHead_start_converged E _ startId hess0 st0 _ _ hh] at hcv; cases hcv
    | succ k =>
      obtain ⟨prev, cur0, step, new, hh0, hp⟩ := loopHead_pass E _ startId hess0 st0 k _ cur hh
      have hF := pass_facts E _ _ _ _ _ _ hp
      obtain ⟨x', D', hx', _, hf', hg', hd', _, hDp'⟩ := hlive k prev cur0 hh0
      have hgr := head_gradient (ofV x0) startId hess0 st0 ga hga (fun s c gr hs hg => by
        have h2 := (start_values hU hev x0 startId hess0 st0 s c hs).2.2
        rw [hg, ofV_inj] at h2
        rw [h2]; exact hstart) k prev cur0 hh0 (continues_live E _ _ hp.continues) (g x') hg'
      obtain ⟨p, hss, htrial⟩ := hstep k prev cur0 step new _ _ hh0 hp x' D' hx' hg' hd' hDp' hgr
      obtain ⟨hnx, hnf, hng⟩ := pass_evaluates hev hp (x' + p) htrial
      have hfl := hF.exitflag
      have hcc := hF.converged
      rw [hcv] at hcc
      have hlast : st2.evals.head? = some { arg := ofV (x' + p), out := .ok new } := by
        rw [hp.evaluated, htrial]; rfl
      have hrf : (radiusStep E prev step new).2.fval = fin (f x') := by
        rw [← hf']
        unfold radiusStep updateTrRadius
        simp only
        split
        · rfl
        · simp only
          split <;> split <;> first | rfl | (split <;> first | rfl | (split <;> rfl))
      have hsl : stepLength step = fin (rnorm (x' + p - x')) := by
        unfold stepLength
        rw [hss, norm_ofV]; congr 2; funext i; simp
      rcases checkConvergence_cases E step new (radiusStep E prev step new).2 with ⟨_, h1, h2⟩ | ⟨_, h1, h2⟩ | ⟨h1, h2⟩ | h2
      · rw [h2] at hfl
        replace hfl : st2.exitflag = .ftol := hfl
        rw [hrf, hnf, fin_sub] at h1
        refine ⟨Or.inl hfl, x', x' + p, new, hlast, ?_, fun _ => h1, ?_⟩ <;> (rw [hfl]; intro h; cases h)
      · rw [h2] at hfl
        replace hfl : st2.exitflag = .xtol := hfl
        rw [hsl] at h1
        refine ⟨Or.inr (Or.inl hfl), x', x' + p, new, hlast, ?_, ?_, fun _ => h1⟩ <;> (rw [hfl]; intro h; cases h)
      · rw [h2] at hfl
        replace hfl : st2.exitflag = .gtol := hfl
        refine ⟨Or.inr (Or.inr hfl), x', x' + p, new, hlast, fun _ => ?_, ?_, ?_⟩
        · rw [hng, hga, hrf, norm_ofV] at h1
          rcases h1 with h1 | h1
          · left; rw [fin_le] at h1; simpa using h1
          · exact Or.inr h1
        · rw [hfl]; intro h; cases h
        · rw [hfl]; intro h; cases h
      · rw [h2] at hcc; cases hcc
  · exfalso
    have h1 := hstop k st1 cur hh
    rw [hhead.iteration] at hm
    omega
  · exfalso
    obtain ⟨t1, ht1⟩ := hclock st1.ticks
    obtain ⟨t0, ht0⟩ := hclock st0.ticks
    rw [hhead.starttime, htime, ht1, ht0] at ht
    have hne : ((if st1.iteration = 0 then 1 else st1.iteration : ℕ) : ℝ) ≠ 0 := by
      split <;> simp_all
    generalize (if st1.iteration = 0 then 1 else st1.iteration : ℕ) = m at ht hne
    rw [show (lit ((m : ℕ) : ℚ) : Num) = fin (m : ℝ) by simp] at ht
    simp only [fin_sub, pinf_sub_fin, fin_div _ _ hne] at ht
    cases ht
  · exfalso
    rw [hd, show (spacing1 : Num) = fin (1 / 4503599627370496) by norm_num [spacing1]] at hdl
    simp only [fin_lt, decide_eq_true_eq] at hdl
    linarith

/-- the same for an objective with Hessian -/
theorem flag_core (hn : 0 < n) (hU : NoBounds E.lb E.ub) (H : (Fin n → ℝ) → Fin n → Fin n → ℝ) (hR : Returns E f g H)
    (x0 : Fin n → ℝ) (startId : String) (hess0 : Hess0 Num) (st0 : St Num n) (lo : ℝ)
    (ga : ℝ) (hprop : ∀ k st cur, LoopHead E (ofV x0) startId hess0 st0 k st cur → ProposesAt E g H ga st) (hga : E.opts.gatol = fin ga) (hstart : ga < rnorm (g x0)) (N : ℕ)
    (hstop : ∀ k st cur, LoopHead E (ofV x0) startId hess0 st0 k st cur → k < N)
    (hlive : ∀ k st cur, LoopHead E (ofV x0) startId hess0 st0 k st cur →
      ∃ x D, st.x = ofV x ∧ cur.x = ofV x ∧ st.fval = fin (f x) ∧ st.grad = ofV (g x) ∧ st.delta = fin D ∧ lo ≤ D ∧ 0 < D)
    (hstep : ∀ k prev cur step new next cur', LoopHead E (ofV x0) startId hess0 st0 k prev cur → Pass E prev cur step new next cur' →
      ∀ (x : Fin n → ℝ) (D : ℝ), prev.x = ofV x → prev.grad = ofV (g x) → prev.delta = fin D → 0 < D → ga < rnorm (g x) →
      ∃ p : Fin n → ℝ, vadd step.ss step.ss0 = ofV p ∧ vadd (vadd prev.x step.s) step.s0 = ofV (x + p))
    (happ : st0.happ = none) (hevs : ∀ m, ∃ r, E.evs m = .ok r) (hcond : ∀ m, ∃ r, E.cond m = .ok r) (hfile : ∀ grp ∈ st0.file, grp.1 ≠ startId)
    (fuel : ℕ) (hfuel : N ≤ fuel)
    (hiter : (N : ℤ) ≤ E.opts.maxiter) (htime : E.opts.maxtime = pinf)
    (hclock : ∀ k, ∃ t : ℝ, E.clock k = fin t) (hfloor : 1 / 4503599627370496 ≤ lo) :
    ∃ st', minimize E fuel (ofV x0) startId hess0 st0 = .ok st' ∧
      (st'.exitflag = .ftol ∨ st'.exitflag = .xtol ∨ st'.exitflag = .gtol) ∧
      -- the last call of the objective, at `y`, after a step `y - x` from the point `x`; the flags refer to these
      ∃ x y fo, st'.evals.head? = some { arg := ofV y, out := .ok fo } ∧
        (st'.exitflag = .gtol → rnorm (g y) ≤ ga ∨ le (fin (rnorm (g y))) (E.opts.grtol * fin |f x|) = true) ∧
        (st'.exitflag = .ftol → lt (fin |f y - f x|) (E.opts.fatol + E.opts.frtol * fin |f x|) = true) ∧
        (st'.exitflag = .xtol → lt (fin (rnorm (y - x))) E.opts.xtol = true) := by
  have hev := hR.evaluates
  obtain ⟨st', hmz, _⟩ := total_core hn hU H hR x0 startId hess0 st0 _ ga hprop hga hstart N hstop hlive happ hevs hcond hfile fuel hfuel
  exact flag_given hU hev x0 startId hess0 st0 lo ga hga hstart N hstop hlive hstep fuel ⟨st', hmz⟩ hiter htime hclock hfloor

theorem flag_of (hn : 0 < n) (hE : TRParams E mu eta g1 g2 D0) (hU : NoBounds E.lb E.ub) (H : (Fin n → ℝ) → Fin n → Fin n → ℝ) (hR : Returns E f g H) (hL : SmoothWith L f g) (fmin : ℝ)
    (hC : CountConst mu a b b' ((L + M) / 2) c) (hmin : ∀ y, fmin ≤ f y) (x0 : Fin n → ℝ) (startId : String) (hess0 : Hess0 Num) (st0 : St Num n)
    (ga : ℝ) (hdec : Decreasing E g M a b b' ga x0 startId hess0 st0) (hprop : Proposes E g H ga) (hga : E.opts.gatol = fin ga) (hstart : ga < rnorm (g x0)) (N : ℕ)
    (hN : N = passBound g1 g2 D0 (f x0 - fmin) (min D0 (min g1 (1 / 4) * c)) (mu * (a * min (min D0 (min g1 (1 / 4) * c)) b)))
    (happ : st0.happ = none) (hevs : ∀ m, ∃ r, E.evs m = .ok r) (hcond : ∀ m, ∃ r, E.cond m = .ok r) (hfile : ∀ grp ∈ st0.file, grp.1 ≠ startId)
    (fuel : ℕ) (hfuel : N ≤ fuel)
    (hiter : (N : ℤ) ≤ E.opts.maxiter) (htime : E.opts.maxtime = pinf)
    (hclock : ∀ k, ∃ t : ℝ, E.clock k = fin t) (hfloor : 1 / 4503599627370496 ≤ min D0 (min g1 (1 / 4) * c)) :
    ∃ st', minimize E fuel (ofV x0) startId hess0 st0 = .ok st' ∧
      (st'.exitflag = .ftol ∨ st'.exitflag = .xtol ∨ st'.exitflag = .gtol) ∧
      -- the last call of the objective, at `y`, after a step `y - x` from the point `x`; the flags refer to these
      ∃ x y fo, st'.evals.head? = some { arg := ofV y, out := .ok fo } ∧
        (st'.exitflag = .gtol → rnorm (g y) ≤ ga ∨ le (fin (rnorm (g y))) (E.opts.grtol * fin |f x|) = true) ∧
        (st'.exitflag = .ftol → lt (fin |f y - f x|) (E.opts.fatol + E.opts.frtol * fin |f x|) = true) ∧
        (st'.exitflag = .xtol → lt (fin (rnorm (y - x))) E.opts.xtol = true) := by
  have hev := hR.evaluates
  have hstop := stops_of hE hU hev hL fmin hC hmin x0 startId hess0 st0 ga hdec hga hstart N hN
  have hlive := live_of hE hU hev hL hC x0 startId hess0 st0 ga hdec hga hstart
  exact flag_core hn hU H hR x0 startId hess0 st0 _ ga (fun _ st _ _ => hprop st) hga hstart N hstop hlive
    (fun k prev cur step new next cur' hh hp x D hx hg hd hD hgr => by
      obtain ⟨B, p, _, _, hss, htrial, _⟩ := hdec k prev cur step new _ _ hh hp x D hx hg hd hD hgr.le
      exact ⟨p, hss, htrial⟩) happ hevs hcond hfile fuel hfuel hiter htime hclock hfloor

end

end Fides
