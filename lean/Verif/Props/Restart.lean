import Verif.Spec.Restart
import Verif.Props.Run
import Verif.Props.Saddle

/-!
# C75: continuing from a result never makes it worse
-/

namespace Fides
open Spec

section
variable {F : Type} [FloatOps F] [LawfulFloat F] {n : ℕ}

theorem away_nudge (lb ub x : Vec F n) (h : Away lb ub x) : nudge lb ub x = x := by
  unfold nudge
  split
  · funext i
    have h1 : lt (ub i - x i) degEps = false := (h i).1
    have h2 : lt (x i - lb i) degEps = false := (h i).2
    simp [h1, h2]
  · rfl

/-- every evaluation in the log of a run is what the objective returned -/
theorem head_logged (E : Env F n) (x0 : Vec F n) (startId : String) (hess0 : Hess0 F) (st0 : St F n) (k : ℕ) (st : St F n) (cur : Funout F n)
    (h : LoopHead E x0 startId hess0 st0 k st cur) :
    ∃ l, st.evals = l ++ st0.evals ∧ ∀ r ∈ l, ∀ fo, r.out = .ok fo → fo.x = r.arg ∧ ∃ m raw, funEval E.nargout E.resfun (E.obj m r.arg) = .ok raw ∧ raw.typed r.arg fo.xId = some fo := by
  induction k generalizing st cur with
  | zero =>
    obtain ⟨l, fo0, h1, h2, h3, -, -, h4, -⟩ := (headInv E _ startId hess0 st0 0 st cur h).evals
    obtain rfl : l = [] := List.length_eq_zero_iff.mp h2
    refine ⟨[{ arg := nudge E.lb E.ub x0, out := .ok fo0 }], by rw [h1]; rfl, ?_⟩
    intro r hr fo hfo
    rw [List.mem_singleton] at hr
    subst hr
    cases hfo
    obtain ⟨m, raw, h5, h6⟩ := head_evaluated E _ startId hess0 st0 0 st cur h
    simp only [List.nil_append, List.mem_singleton, EvalRec.mk.injEq, Except.ok.injEq] at h4
    obtain ⟨h7, rfl⟩ := h4
    rw [h7] at h5 h6
    exact ⟨h7, m, raw, h5, h6⟩
  | succ k ih =>
    obtain ⟨prev, cur0, step, new, hh, hp⟩ := loopHead_pass E x0 startId hess0 st0 k st cur h
    obtain ⟨l, h1, h2⟩ := ih prev cur0 hh
    refine ⟨{ arg := vadd (vadd prev.x step.s) step.s0, out := .ok new } :: l, by rw [hp.evaluated, h1]; rfl, ?_⟩
    intro r hr fo hfo
    rcases List.mem_cons.mp hr with rfl | hr
    · cases hfo
      obtain ⟨m, raw, h3, h4⟩ := pass_evaluated hp
      rw [hp.point] at h3 h4
      exact ⟨hp.point, m, raw, h3, h4⟩
    · exact h2 r hr fo hfo

theorem typed_fval (raw : RawOut F) (x : Vec F n) (k : ℕ) (fo : Funout F n) (h : raw.typed x k = some fo) : raw.fval = .scalar fo.fval := by
  unfold RawOut.typed at h
  split at h
  · rename_i f g hf hg
    rw [hf]
    split at h
    · cases h; rfl
    · split at h
      · cases h; rfl
      · cases h
  · cases h

/-- evaluations at one point have one value -/
theorem same_value {E E' : Env F n} (hS : SameProblem E E') {x : Vec F n} {m m' : ℕ} {raw raw' : RawOut F} {fo fo' : Funout F n} {i i' : ℕ}
    (h1 : funEval E.nargout E.resfun (E.obj m x) = .ok raw) (h2 : raw.typed x i = some fo)
    (h1' : funEval E'.nargout E'.resfun (E'.obj m' x) = .ok raw') (h2' : raw'.typed x i' = some fo') : fo'.fval = fo.fval := by
  have h := hS.value _ _ _ _ _ h1 h1'
  rw [typed_fval _ _ _ _ h2, typed_fval _ _ _ _ h2'] at h
  exact PyVal.scalar.inj h

/-- the values of a run started at a point that was evaluated before -/
theorem restart_core (E' : Env F n) (x1 : Vec F n) (startId' : String) (hess0' : Hess0 F) (s0 : St F n) (fuel' : ℕ) (st' : St F n)
    (h' : minimize E' fuel' x1 startId' hess0' s0 = .ok st') (haway : Away E'.lb E'.ub x1) (v : F)
    (hv : ∀ m raw i fo, funEval E'.nargout E'.resfun (E'.obj m x1) = .ok raw → raw.typed x1 i = some fo → fo.fval = v) :
    le st'.fval v = true ∧ le st'.fvalMin v = true := by
  obtain ⟨k, st1, cur, ef, t, f, hk, hh, rfl⟩ := run_end_fields E' x1 startId' hess0' s0 fuel' st' h'
  have hi := headInv E' x1 startId' hess0' s0 k st1 cur hh
  obtain ⟨l, fo0, hl, hlen, hfo0, hfofin, hall, hmem, hlt0, b, hmin⟩ := hi.evals
  obtain ⟨l', hl', hlog⟩ := head_logged E' x1 startId' hess0' s0 k st1 cur hh
  have hll : l' = l ++ [{ arg := nudge E'.lb E'.ub x1, out := .ok fo0 }] := by
    apply List.append_cancel_right (bs := s0.evals)
    rw [← hl', hl]; simp
  obtain ⟨-, m, raw, h1, h2⟩ := hlog { arg := nudge E'.lb E'.ub x1, out := .ok fo0 } (by rw [hll]; simp) fo0 rfl
  simp only [away_nudge _ _ _ haway] at h1 h2
  have hfv := hv m raw _ fo0 h1 h2
  have hfin0 := ((allFinite_iff _ _ _).mp hfofin).1
  have hle : le st1.fval v = true := by
    rw [hi.fval, ← hfv]
    rcases hlt0 with rfl | h
    · exact LawfulFloat.finite_self _ hfin0
    · exact ((LawfulFloat.lt_iff _ _).mp h).1
  refine ⟨hle, ?_⟩
  show le st1.fvalMin v = true
  rw [hmin.fval, ← hfv]
  exact firstBest_le _ _ hmin.best { arg := nudge E'.lb E'.ub x1, out := .ok fo0 } (by simp) fo0 rfl hfin0

/-- **C75.** A run with any settings that starts at the `x_min` of an earlier run on the same (deterministic) problem never ends worse: both the value it returns and its
`fval_min` are at most the earlier `fval_min`.  Assumed is that the point at which the earlier run found `fval_min` is not closer than `1e2 * 2^-52` to a
bound: otherwise `make_non_degenerate` may have moved `x_min` away from the point that was evaluated.  Any lawful float type. -/
theorem C75_best (E E' : Env F n) (hS : SameProblem E E') (x0 : Vec F n) (startId startId' : String) (hess0 hess0' : Hess0 F) (st0 s0 : St F n) (fuel fuel' : ℕ)
    (st st' : St F n) (h : minimize E fuel x0 startId hess0 st0 = .ok st) (h' : minimize E' fuel' st.xMin startId' hess0' s0 = .ok st')
    (haway : ∀ r ∈ st.evals, ∀ fo, r.out = .ok fo → fo.fval = st.fvalMin → Away E.lb E.ub r.arg) :
    le st'.fval st.fvalMin = true ∧ le st'.fvalMin st.fvalMin = true := by
  obtain ⟨k, st1, cur, ef, t, f, hk, hh, hst⟩ := run_end_fields E x0 startId hess0 st0 fuel st h
  obtain ⟨l, hl, hlog⟩ := head_logged E x0 startId hess0 st0 k st1 cur hh
  obtain ⟨l', b, c1, ⟨later, earlier, hsplit, -⟩, c3, -, c5⟩ := C06_xmin E x0 startId hess0 st0 fuel st h
  have hev : st.evals = st1.evals := by rw [hst]
  have hll : l' = l := List.append_cancel_right ((c1.symm.trans hev).trans hl)
  have hmem : ({ arg := b.x, out := .ok b } : EvalRec F n) ∈ l := by rw [← hll, hsplit]; simp
  have haw := haway { arg := b.x, out := .ok b } (by rw [hev, hl]; exact List.mem_append_left _ hmem) b rfl c3.symm
  have hx : st.xMin = b.x := by
    rcases c5 with h | ⟨-, h⟩
    · exact h
    · rw [h, away_nudge _ _ _ haw]
  obtain ⟨-, m, raw, h1, h2⟩ := hlog _ hmem b rfl
  rw [hx] at h'
  refine restart_core E' b.x startId' hess0' s0 fuel' st' h' (by rw [hS.lb, hS.ub]; exact haw) st.fvalMin ?_
  intro m' raw' i fo h3 h4
  rw [c3]
  exact same_value hS h1 h2 h3 h4

/-- **C75, returned point.** The same for a run started at the point `x` that the earlier run returned: neither the value it returns nor its `fval_min` exceeds the value
`fval` returned by the earlier run. -/
theorem C75_returned (E E' : Env F n) (hS : SameProblem E E') (x0 : Vec F n) (startId startId' : String) (hess0 hess0' : Hess0 F) (st0 s0 : St F n) (fuel fuel' : ℕ)
    (st st' : St F n) (h : minimize E fuel x0 startId hess0 st0 = .ok st) (h' : minimize E' fuel' st.x startId' hess0' s0 = .ok st')
    (haway : ∀ r ∈ st.evals, ∀ fo, r.out = .ok fo → fo.fval = st.fval → Away E.lb E.ub r.arg) :
    le st'.fval st.fval = true ∧ le st'.fvalMin st.fval = true := by
  obtain ⟨k, st1, cur, ef, t, f, hk, hh, hst⟩ := run_end_fields E x0 startId hess0 st0 fuel st h
  obtain ⟨l, hl, hlog⟩ := head_logged E x0 startId hess0 st0 k st1 cur hh
  obtain ⟨l', r, b, c1, hmem, hout, hbx, c3, -, c5, -⟩ := C08_one_call E x0 startId hess0 st0 fuel st h
  have hev : st.evals = st1.evals := by rw [hst]
  have hll : l' = l := List.append_cancel_right ((c1.symm.trans hev).trans hl)
  rw [hll] at hmem
  have haw := haway r (by rw [hev, hl]; exact List.mem_append_left _ hmem) b hout c3.symm
  have hx : st.x = r.arg := by
    rcases c5 with h | h
    · exact h
    · rw [h, away_nudge _ _ _ haw]
  obtain ⟨-, m, raw, h1, h2⟩ := hlog _ hmem b hout
  rw [hx] at h'
  refine restart_core E' r.arg startId' hess0' s0 fuel' st' h' (by rw [hS.lb, hS.ub]; exact haw) st.fval ?_
  intro m' raw' i fo h3 h4
  rw [c3]
  exact same_value hS h1 h2 h3 h4

end

open Num

/-- without bounds no point is close to a bound -/
theorem noBounds_away {n : ℕ} {lb ub : Vec Num n} (h : NoBounds lb ub) (x : Vec Num n) : Away lb ub x := by
  intro i
  rw [(h i).1, (h i).2]
  have hlit : (lit 100 * lit (1 / 4503599627370496) : Num) = .fin ((100 : ℝ) * (1 / 4503599627370496 : ℝ)) := by simp
  rw [hlit]
  rcases x i with r | _ | _ | _ <;> constructor <;> rfl

/-- The hypotheses are met by two runs on a problem with a saddle and two minima: the first starts at the saddle, the second, by another optimizer object, at the point the first returned. -/
example : ∃ st st' : St Num 2, minimize (tameEnv wellF wellG wellH) 1000 (ofV 0) "0" (.val .none) (St.new (tameEnv wellF wellG wellH).opts none) = .ok st ∧
    minimize (tameEnv wellF wellG wellH) 1000 st.x "0" (.val .none) (St.new (tameEnv wellF wellG wellH).opts none) = .ok st' ∧
    le st'.fval st.fval = true ∧ le st'.fvalMin st.fval = true := by
  have hs : ∀ x, Sym (wellH x) := fun x i j => by fin_cases i <;> fin_cases j <;> simp [wellH]
  obtain ⟨st, h, y, hy, -⟩ := well_run
  obtain ⟨st', h'⟩ := tameEnv_returns (by norm_num) wellF wellG wellH hs y
  rw [← hy] at h'
  exact ⟨st, st', h, h', C75_returned _ _ ⟨rfl, rfl, fun k k' x raw raw' h1 h2 => by rw [show (tameEnv wellF wellG wellH).obj k' x = (tameEnv wellF wellG wellH).obj k x from rfl, h1] at h2; cases h2; rfl⟩
    _ _ _ _ _ _ _ _ _ st st' h h' fun r _ fo _ _ => noBounds_away (fun _ => ⟨rfl, rfl⟩) _⟩

end Fides
