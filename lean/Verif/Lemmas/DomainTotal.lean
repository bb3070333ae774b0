import Verif.Lemmas.Domain

/-!
Helper lemmas: such runs return normally.
-/

namespace Fides.Num
open Spec
variable {n : ℕ}

theorem add_finite {a b : Num} (h : Fides.isFinite (Num.add a b) = true) : Fides.isFinite a = true ∧ Fides.isFinite b = true := by
  cases a <;> cases b <;> first | exact ⟨rfl, rfl⟩ | (simp [Num.add] at h)

theorem foldr_finite (l : List Num) (h : Fides.isFinite (l.foldr Num.add (fin 0)) = true) : ∀ x ∈ l, Fides.isFinite x = true := by
  induction l with
  | nil => simp
  | cons b l ih =>
    obtain ⟨h1, h2⟩ := add_finite h
    intro x hx
    rcases List.mem_cons.mp hx with rfl | hx
    · exact h1
    · exact ih h2 x hx

theorem sq_finite {a : Num} (h : Fides.isFinite (a * a) = true) : Fides.isFinite a = true := by
  cases a <;> first | rfl | exact absurd h (by simp [show (pinf * pinf : Num) = pinf from rfl, show (ninf * ninf : Num) = pinf from rfl, show (nan * nan : Num) = nan from rfl])

theorem norm_undefined (w : Vec Num n) (h : ∃ i, Fides.isFinite (w i) = false) : norm w = nan ∨ norm w = pinf := by
  have hd : Fides.isFinite (dot w w) = false := by
    by_contra hcon
    rw [Bool.not_eq_false] at hcon
    obtain ⟨i, hi⟩ := h
    have := sq_finite (foldr_finite _ hcon (w i * w i) (List.mem_ofFn.mpr ⟨i, rfl⟩))
    rw [hi] at this; cases this
  unfold Fides.norm
  cases hq : dot w w with
  | fin a => rw [hq] at hd; cases hd
  | nan => exact Or.inl rfl
  | pinf => exact Or.inr rfl
  | ninf => exact Or.inl rfl

end Fides.Num

namespace Fides
open Num Spec
variable {n : ℕ} {E : Env Num n} {dom : Set (Fin n → ℝ)} {f : (Fin n → ℝ) → ℝ} {g : (Fin n → ℝ) → Fin n → ℝ} {H : (Fin n → ℝ) → Fin n → Fin n → ℝ}
  {mu eta g1 g2 D0 : ℝ}

/-- a call of an objective that returns a tuple of the right shape -/
theorem tuple_eval (hn3 : E.nargout = 3) (hr : E.resfun = false) (k : ℕ) (x : Vec Num n) (v : Num) (w : Vec Num n) (h : Mat Num n n)
    (hobj : E.obj k x = .tuple [.scalar v, .ofVec w, .ofMat h]) :
    ∃ raw, funEval E.nargout E.resfun (E.obj k x) = .ok raw ∧ checkdims n raw = .ok () ∧ raw.hess ≠ .none ∧
      ∀ xId, raw.typed x xId = some { x := x, xId := xId, fval := v, grad := w, hess := some h, res := none } := by
  refine ⟨{ fval := .scalar v, grad := .ofVec w, hess := .ofMat h, res := .none, sres := .none }, ?_, ?_, ?_, ?_⟩
  · rw [hn3, hr, hobj]; rfl
  · simp [checkdims, PyVal.ofVec, PyVal.ofMat]
  · simp [PyVal.ofMat]
  · intro xId
    have e1 := toMat_ofMat h
    simp only [RawOut.typed, toVec_ofVec]
    simp only [PyVal.ofMat] at e1 ⊢
    rw [e1]
    rfl

theorem returnsIn_inside (h : ReturnsIn E dom f g H) (k : ℕ) (x : Fin n → ℝ) (hx : x ∈ dom) :
    ∃ raw, funEval E.nargout E.resfun (E.obj k (ofV x)) = .ok raw ∧ checkdims n raw = .ok () ∧ raw.hess ≠ .none ∧
      ∀ xId, raw.typed (ofV x) xId = some { x := ofV x, xId := xId, fval := fin (f x), grad := ofV (g x), hess := some (ofM (H x)), res := none } :=
  tuple_eval h.nargout h.resfun k _ _ _ _ (h.inside k x hx)

theorem returnsIn_evaluates (h : ReturnsIn E dom f g H) : EvaluatesIn E dom f g where
  inside k x xId raw fo hx h1 h2 := by
    obtain ⟨raw', h3, _, _, h4⟩ := returnsIn_inside h k x hx
    rw [h1] at h3; cases h3
    rw [h4] at h2; cases h2
    exact ⟨rfl, rfl⟩
  outside k x xId raw fo hx h1 h2 := by
    obtain ⟨v, w, m, hv, _, ho⟩ := h.outside k x hx
    obtain ⟨raw', h3, _, _, h4⟩ := tuple_eval h.nargout h.resfun k _ _ _ _ ho
    rw [h1] at h3; cases h3
    rw [h4] at h2; cases h2
    exact hv

/-- the Hessian in use at a loop head when the objective returns it -/
theorem returned_hess_in (hU : NoBounds E.lb E.ub) (hR : ReturnsIn E dom f g H) (x0 : Vec Num n) (startId : String)
    (hess0 : Hess0 Num) (st0 : St Num n) (h0 : st0.happ = none) (k : ℕ) (st : St Num n) (cur : Funout Num n)
    (h : LoopHead E x0 startId hess0 st0 k st cur) (x : Fin n → ℝ) (hx : st.x = ofV x) : st.hess = ofM (H x) := by
  have hi := headInv E x0 startId hess0 st0 k st cur h
  obtain ⟨hdom, hcx, _⟩ := head_values_in hU (returnsIn_evaluates hR) x0 startId hess0 st0 k st cur h x hx
  obtain ⟨m, raw, h1, h2⟩ := head_evaluated E x0 startId hess0 st0 k st cur h
  rw [hcx] at h1 h2
  obtain ⟨raw', h3, _, _, h4⟩ := returnsIn_inside hR m x hdom
  rw [h1] at h3; cases h3
  rw [h4] at h2
  have h5 := hi.hess (hi.happ.mpr h0)
  have h6 : cur.hess = some (ofM (H x)) := by rw [← Option.some.inj h2]
  rw [h6] at h5
  exact (Option.some.inj h5).symm

/-- a run whose length and radius are bounded returns normally -/
theorem total_core_in (hn : 0 < n) (hU : NoBounds E.lb E.ub) (hR : ReturnsIn E dom f g H)
    (x0 : Fin n → ℝ) (hx0 : x0 ∈ dom) (startId : String) (hess0 : Hess0 Num) (st0 : St Num n) (lo : ℝ)
    (ga : ℝ) (hprop : ∀ k st cur, LoopHead E (ofV x0) startId hess0 st0 k st cur → ProposesAt E g H ga st) (hga : E.opts.gatol = fin ga) (hstart : ga < rnorm (g x0)) (N : ℕ)
    (hstop : ∀ k st cur, LoopHead E (ofV x0) startId hess0 st0 k st cur → k < N)
    (hlive : ∀ k st cur, LoopHead E (ofV x0) startId hess0 st0 k st cur →
      ∃ x D, st.x = ofV x ∧ x ∈ levelSet dom f x0 ∧ cur.x = ofV x ∧ st.fval = fin (f x) ∧ st.grad = ofV (g x) ∧ st.delta = fin D ∧ lo ≤ D ∧ 0 < D)
    (happ : st0.happ = none) (hevs : ∀ m, ∃ r, E.evs m = .ok r) (hcond : ∀ m, ∃ r, E.cond m = .ok r) (hfile : ∀ grp ∈ st0.file, grp.1 ≠ startId)
    (fuel : ℕ) (hfuel : N ≤ fuel) :
    ∃ st', minimize E fuel (ofV x0) startId hess0 st0 = .ok st' ∧ st'.iteration < N := by
  have hev := returnsIn_evaluates hR
  have hxs : (startState E (ofV x0) startId st0).x = ofV x0 := by
    show nudge E.lb E.ub (ofV x0) = _
    rw [C51_nudge _ _ _ hU]
  have hrow := historyRow_total E hevs hcond
  cases hmz : minimize E fuel (ofV x0) startId hess0 st0 with
  | ok st' =>
    refine ⟨st', rfl, ?_⟩
    obtain ⟨_, k, st1, cur, st2, _, hh, hc, hw⟩ := minimize_ok E (ofV x0) startId hess0 st0 fuel st' hmz
    obtain ⟨fl, rfl⟩ := writeHistory_ok E _ _ hw
    have hit := (headInv E _ startId hess0 st0 k st1 cur hh).iteration
    have : st2.iteration = st1.iteration := by
      rcases checkContinue_false E st1 st2 hc with ⟨_, rfl⟩ | ⟨_, _, rfl⟩ | ⟨_, _, _, rfl⟩ | ⟨_, _, _, rfl⟩ <;> rfl
    show st2.iteration < _
    rw [this, hit]
    exact hstop k st1 cur hh
  | error e =>
    exfalso
    obtain ⟨e, st'⟩ := e
    rcases minimize_error E (ofV x0) startId hess0 st0 fuel st' e hmz with ⟨h0, _⟩ | h | ⟨st1, hb, hs⟩ | ⟨k, st1, cur1, st2, hh, hc, h⟩ | ⟨k, st1, cur, st2, hh, hc, hw⟩
    · omega
    · have := (checkInBounds_error _ _ _ _ _ h).1
      rw [hxs, inBounds_real _ _ _ (hU.inBox x0)] at this
      cases this
    · obtain ⟨rfl, _⟩ := checkInBounds_ok _ _ _ _ hb
      have hh0 : (startState E (ofV x0) startId st0).happ = none := happ
      unfold setup at hs
      obtain ⟨raw, h1, h2, h3, h4⟩ := returnsIn_inside hR (startState E (ofV x0) startId st0).evals.length x0 hx0
      have h5 : initialHapp (startState E (ofV x0) startId st0).happ hess0 raw = .ok none := by
        rw [hh0]
        unfold initialHapp
        simp only
      rw [hxs, h1] at hs
      simp only at hs
      rw [h5, h2] at hs
      simp only [h4] at hs
      unfold checkFinite at hs
      rw [if_pos] at hs
      · cases hs
      · simp [allFinite, vfinite, mfinite]
    · obtain ⟨rfl, hcv, _⟩ := checkContinue_true E st1 st2 hc
      obtain ⟨x, D, hx, _, hcx, hf, hg, hd, _, hDp⟩ := hlive k st1 cur1 hh
      have hH := returned_hess_in hU hR _ startId hess0 st0 happ k st1 cur1 hh x hx
      have hhead := headInv E _ startId hess0 st0 k st1 cur1 hh
      have hnone : st1.happ = none := hhead.happ.mpr happ
      rcases h with ⟨_, _, hk⟩ | h
      · have := hstop k st1 cur1 hh
        omega
      · have hgr := gradient_in hU hev x0 startId hess0 st0 ga hga hstart k st1 cur1 hh hcv (g x) hg
        obtain ⟨step, p, hstep, hp⟩ := hprop k st1 cur1 hh x D hx hg hH hd hDp hgr
        have hout : ∃ new, trialOut E { st1 with ticks := st1.ticks + 1 } step = .ok new ∧ new.x = ofV (x + p) ∧ (∃ m, new.hess = some m) ∧
            (x + p ∈ dom → new.fval = fin (f (x + p)) ∧ new.grad = ofV (g (x + p)) ∧ new.hess = some (ofM (H (x + p)))) ∧
            (x + p ∉ dom → isFinite new.fval = false) := by
          have e1 : trialPoint { st1 with ticks := st1.ticks + 1 } step = ofV (x + p) := hp
          have e2 : ({ preIter { st1 with ticks := st1.ticks + 1 } with proposals := st1.proposals + 1, nextId := st1.nextId + 1 } : St Num n).evals.length = st1.evals.length := rfl
          by_cases hdom : x + p ∈ dom
          · obtain ⟨raw, h1, _, _, h4⟩ := returnsIn_inside hR st1.evals.length (x + p) hdom
            refine ⟨{ x := ofV (x + p), xId := st1.nextId, fval := fin (f (x + p)), grad := ofV (g (x + p)), hess := some (ofM (H (x + p))), res := none },
              ?_, rfl, ⟨_, rfl⟩, fun _ => ⟨rfl, rfl, rfl⟩, fun h => absurd hdom h⟩
            unfold trialOut
            rw [e1]
            unfold evaluate
            simp only [e2, h1, h4]
          · obtain ⟨v, w, m, hv, _, ho⟩ := hR.outside st1.evals.length (x + p) hdom
            obtain ⟨raw, h1, _, _, h4⟩ := tuple_eval hR.nargout hR.resfun _ _ _ _ _ ho
            refine ⟨{ x := ofV (x + p), xId := st1.nextId, fval := v, grad := w, hess := some m, res := none },
              ?_, rfl, ⟨_, rfl⟩, fun h => absurd h hdom, fun _ => hv⟩
            unfold trialOut
            rw [e1]
            unfold evaluate
            simp only [e2, h1, h4]
        obtain ⟨new, hnew, hnx, ⟨m, hnh⟩, hin, hnd⟩ := hout
        rcases iterate_error E _ st' cur1 e h with ⟨h1, _⟩ | ⟨_, h | ⟨step', hs', h⟩⟩
        · have : allFinite st1.fval st1.grad (some st1.hess) = true := by
            rw [hf, hg, hH]; simp [allFinite, vfinite, mfinite]
          have h1' : allFinite st1.fval st1.grad (some st1.hess) = false := h1
          rw [this] at h1'; cases h1'
        · have h1 := h.1
          simp only at h1
          rw [hstep] at h1; cases h1
        · simp only at hs'
          rw [hstep] at hs'; cases hs'
          rcases h with ⟨h, _⟩ | ⟨new', hnew', _, _, h⟩
          · rw [hnew] at h; cases h
          · rw [hnew] at hnew'; cases hnew'
            rcases h with ⟨h0, h, _⟩ | ⟨_, ⟨_, h⟩ | ⟨_, _, h⟩ | ⟨_, _, h⟩⟩
            · by_cases hdom : x + p ∈ dom
              · obtain ⟨hnf, hng, hnh'⟩ := hin hdom
                rw [hnf, hng, hnh'] at h; simp [allFinite, vfinite, mfinite] at h
              · rw [hnd hdom] at h0; cases h0
            · obtain ⟨r, d, i, m, ef, c, mx, mxi, mf, mg, hpf⟩ := postCheck_frame E { st1 with ticks := st1.ticks + 1 } step new
              have hap : (postCheck E { st1 with ticks := st1.ticks + 1 } step new).happ = none := by rw [hpf]; exact hnone
              unfold update at h
              rw [hap, hnh] at h
              simp only [checkInBounds, hnx, inBounds_real _ _ _ (hU.inBox (x + p)), if_true] at h
              cases h
            · exact hrow _ _ _ _ _ _ _ h
            · exact hrow _ _ _ _ _ _ _ h
    · unfold writeHistory at hw
      have hhead := headInv E _ startId hess0 st0 k st1 cur hh
      have hfs : st2.file = st0.file ∧ st2.startId = startId := by
        have h1 := hhead.file
        have h2 := hhead.startId_eq
        rcases checkContinue_false E st1 st2 hc with ⟨_, rfl⟩ | ⟨_, _, rfl⟩ | ⟨_, _, _, rfl⟩ | ⟨_, _, _, rfl⟩ <;> exact ⟨h1, h2⟩
      split at hw
      · split at hw
        · rename_i hany
          rw [hfs.1, hfs.2, List.any_eq_true] at hany
          obtain ⟨grp, hgm, hge⟩ := hany
          exact hfile grp hgm (by simpa using hge)
        · cases hw
      · cases hw

/-- a run whose length and radius are bounded stops with a convergence flag, after a call inside the domain unless the flag is `xtol` -/
theorem flag_core_in (hn : 0 < n) (hU : NoBounds E.lb E.ub) (hR : ReturnsIn E dom f g H)
    (x0 : Fin n → ℝ) (hx0 : x0 ∈ dom) (startId : String) (hess0 : Hess0 Num) (st0 : St Num n) (lo : ℝ)
    (ga : ℝ) (hprop : ∀ k st cur, LoopHead E (ofV x0) startId hess0 st0 k st cur → ProposesAt E g H ga st) (hga : E.opts.gatol = fin ga) (hstart : ga < rnorm (g x0)) (N : ℕ)
    (hstop : ∀ k st cur, LoopHead E (ofV x0) startId hess0 st0 k st cur → k < N)
    (hlive : ∀ k st cur, LoopHead E (ofV x0) startId hess0 st0 k st cur →
      ∃ x D, st.x = ofV x ∧ x ∈ levelSet dom f x0 ∧ cur.x = ofV x ∧ st.fval = fin (f x) ∧ st.grad = ofV (g x) ∧ st.delta = fin D ∧ lo ≤ D ∧ 0 < D)
    (hstep : ∀ k prev cur step new next cur', LoopHead E (ofV x0) startId hess0 st0 k prev cur → Pass E prev cur step new next cur' →
      ∀ (x : Fin n → ℝ) (D : ℝ), prev.x = ofV x → prev.grad = ofV (g x) → prev.delta = fin D → 0 < D → ga < rnorm (g x) →
      ∃ p : Fin n → ℝ, vadd step.ss step.ss0 = ofV p ∧ vadd (vadd prev.x step.s) step.s0 = ofV (x + p))
    (happ : st0.happ = none) (hevs : ∀ m, ∃ r, E.evs m = .ok r) (hcond : ∀ m, ∃ r, E.cond m = .ok r) (hfile : ∀ grp ∈ st0.file, grp.1 ≠ startId)
    (fuel : ℕ) (hfuel : N ≤ fuel)
    (hiter : (N : ℤ) ≤ E.opts.maxiter) (htime : E.opts.maxtime = pinf)
    (hclock : ∀ k, ∃ t : ℝ, E.clock k = fin t) (hfloor : 1 / 4503599627370496 ≤ lo)
    (fa fr gr : ℝ) (hfa : E.opts.fatol = fin fa) (hfr : E.opts.frtol = fin fr) (hgrt : E.opts.grtol = fin gr) :
    ∃ st', minimize E fuel (ofV x0) startId hess0 st0 = .ok st' ∧
      (st'.exitflag = .ftol ∨ st'.exitflag = .xtol ∨ st'.exitflag = .gtol) ∧
      ∃ x y fo, x ∈ levelSet dom f x0 ∧ st'.evals.head? = some { arg := ofV y, out := .ok fo } ∧
        (st'.exitflag = .gtol → y ∈ dom ∧ (rnorm (g y) ≤ ga ∨ rnorm (g y) ≤ gr * |f x|)) ∧
        (st'.exitflag = .ftol → y ∈ dom ∧ |f y - f x| < fa + fr * |f x|) ∧
        (st'.exitflag = .xtol → lt (fin (rnorm (y - x))) E.opts.xtol = true) := by
  have hev := returnsIn_evaluates hR
  obtain ⟨st', hmz, _⟩ := total_core_in hn hU hR x0 hx0 startId hess0 st0 _ ga hprop hga hstart N hstop hlive happ hevs hcond hfile fuel hfuel
  refine ⟨st', hmz, ?_⟩
  obtain ⟨_, k, st1, cur, st2, _, hh, hc, hw⟩ := minimize_ok E (ofV x0) startId hess0 st0 fuel st' hmz
  obtain ⟨fl, rfl⟩ := writeHistory_ok E _ _ hw
  have hhead := headInv E _ startId hess0 st0 k st1 cur hh
  obtain ⟨x, D, hx, _, hcx, hf, hg, hd, hlo, hDp⟩ := hlive k st1 cur hh
  rcases checkContinue_false E st1 st2 hc with ⟨hcv, rfl⟩ | ⟨_, hm, rfl⟩ | ⟨_, _, ht, rfl⟩ | ⟨_, _, hdl, rfl⟩
  · cases k with
    | zero => rw [loopHead_start_converged E _ startId hess0 st0 _ _ hh] at hcv; cases hcv
    | succ k =>
      obtain ⟨prev, cur0, step, new, hh0, hp⟩ := loopHead_pass E _ startId hess0 st0 k _ cur hh
      have hF := pass_facts E _ _ _ _ _ _ hp
      obtain ⟨x', D', hx', hlev, _, hf', hg', hd', _, hDp'⟩ := hlive k prev cur0 hh0
      have hgr := gradient_in hU hev x0 startId hess0 st0 ga hga hstart k prev cur0 hh0 (continues_live E _ _ hp.continues) (g x') hg'
      obtain ⟨p, hss, htrial⟩ := hstep k prev cur0 step new _ _ hh0 hp x' D' hx' hg' hd' hDp' hgr
      have hnx : new.x = ofV (x' + p) := by rw [hp.point, htrial]
      obtain ⟨m, raw, hraw, hty⟩ := pass_evaluated hp
      rw [hnx] at hraw hty
      have hout : x' + p ∉ dom → isFinite new.fval = false ∧ (norm new.grad = nan ∨ norm new.grad = pinf) := by
        intro hdom
        obtain ⟨v, w, mm, hv, hw', ho⟩ := hR.outside m (x' + p) hdom
        obtain ⟨raw', h3, _, _, h4⟩ := tuple_eval hR.nargout hR.resfun m _ _ _ _ ho
        rw [hraw] at h3; cases h3
        rw [h4] at hty
        have hnew := Option.some.inj hty
        rw [← hnew]
        exact ⟨hv, norm_undefined w hw'⟩
      have hfl := hF.exitflag
      have hcc := hF.converged
      rw [hcv] at hcc
      have hlast : st2.evals.head? = some { arg := ofV (x' + p), out := .ok new } := by
        rw [hp.evaluated, htrial]; rfl
      have hrf : (radiusStep E prev step new).2.fval = fin (f x') := by
        rw [← hf']
        unfold radiusStep updateTrRadius
        simp only
        split
        · rfl
        · simp only
          split <;> split <;> first | rfl | (split <;> first | rfl | (split <;> rfl))
      have hsl : stepLength step = fin (rnorm (x' + p - x')) := by
        unfold stepLength
        rw [hss, norm_ofV]; congr 2; funext i; simp
      rcases checkConvergence_cases E step new (radiusStep E prev step new).2 with ⟨_, h1, h2⟩ | ⟨_, h1, h2⟩ | ⟨h1, h2⟩ | h2
      · rw [h2] at hfl
        replace hfl : st2.exitflag = .ftol := hfl
        refine ⟨Or.inl hfl, x', x' + p, new, hlev, hlast, ?_, fun _ => ?_, ?_⟩
        · rw [hfl]; intro h; cases h
        · rw [hrf, hfa, hfr] at h1
          by_cases hdom : x' + p ∈ dom
          · refine ⟨hdom, ?_⟩
            rw [(hev.inside m _ _ raw new hdom hraw hty).1] at h1
            simpa using h1
          · exfalso
            have hv := (hout hdom).1
            cases hv' : new.fval with
            | fin a => rw [hv'] at hv; cases hv
            | nan => rw [hv'] at h1; cases h1
            | pinf =>
              rw [hv', show FloatOps.abs ((pinf : Num) - fin (f x')) = pinf from rfl] at h1
              simp at h1
            | ninf =>
              rw [hv', show FloatOps.abs ((ninf : Num) - fin (f x')) = pinf from rfl] at h1
              simp at h1
        · rw [hfl]; intro h; cases h
      · rw [h2] at hfl
        replace hfl : st2.exitflag = .xtol := hfl
        rw [hsl] at h1
        refine ⟨Or.inr (Or.inl hfl), x', x' + p, new, hlev, hlast, ?_, ?_, fun _ => h1⟩ <;> (rw [hfl]; intro h; cases h)
      · rw [h2] at hfl
        replace hfl : st2.exitflag = .gtol := hfl
        refine ⟨Or.inr (Or.inr hfl), x', x' + p, new, hlev, hlast, fun _ => ?_, ?_, ?_⟩
        · rw [hga, hrf, hgrt] at h1
          by_cases hdom : x' + p ∈ dom
          · refine ⟨hdom, ?_⟩
            rw [(hev.inside m _ _ raw new hdom hraw hty).2, norm_ofV] at h1
            simpa using h1
          · exfalso
            rcases (hout hdom).2 with h | h <;> rw [h] at h1 <;> rcases h1 with h1 | h1 <;> simp at h1 <;> cases h1
        · rw [hfl]; intro h; cases h
        · rw [hfl]; intro h; cases h
      · rw [h2] at hcc; cases hcc
  · exfalso
    have h1 := hstop k st1 cur hh
    rw [hhead.iteration] at hm
    omega
  · exfalso
    obtain ⟨t1, ht1⟩ := hclock st1.ticks
    obtain ⟨t0, ht0⟩ := hclock st0.ticks
    rw [hhead.starttime, htime, ht1, ht0] at ht
    have hne : ((if st1.iteration = 0 then 1 else st1.iteration : ℕ) : ℝ) ≠ 0 := by
      split <;> simp_all
    generalize (if st1.iteration = 0 then 1 else st1.iteration : ℕ) = m at ht hne
    rw [show (lit ((m : ℕ) : ℚ) : Num) = fin (m : ℝ) by simp] at ht
    simp only [fin_sub, pinf_sub_fin, fin_div _ _ hne] at ht
    cases ht
  · exfalso
    rw [hd, show (spacing1 : Num) = fin (1 / 4503599627370496) by norm_num [spacing1]] at hdl
    simp only [fin_lt, decide_eq_true_eq] at hdl
    linarith

end Fides
