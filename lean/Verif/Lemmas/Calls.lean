import Verif.Lemmas.HeadInv
import Verif.Spec.Calls

/-! Helper lemmas: every recorded call holds the result of that call; only the last one can have failed, and then the run raises. -/

set_option linter.unusedSectionVars false

namespace Fides
open Spec
variable {F : Type} [FloatOps F] [LawfulFloat F] {n : ℕ}

/-- the record of call number `idx` -/
def Faithful (E : Env F n) (idx : ℕ) (r : EvalRec F n) : Prop :=
  (∀ e, funEval E.nargout E.resfun (E.obj idx r.arg) = .error e → r.out = .error e) ∧
  ∀ fo, r.out = .ok fo → ∃ raw k, funEval E.nargout E.resfun (E.obj idx r.arg) = .ok raw ∧ raw.typed r.arg k = some fo

theorem trialOut_faithful (E : Env F n) (st : St F n) (step : Step F n) :
    Faithful E st.evals.length { arg := trialPoint st step, out := trialOut E st step } := by
  unfold trialOut evaluate
  constructor
  · intro e he
    simp only at he
    show (match funEval E.nargout E.resfun (E.obj st.evals.length (trialPoint st step)) with | .error e => _ | .ok raw => _) = _
    rw [he]
  · intro fo hfo
    simp only at hfo ⊢
    have hfo' : (match funEval E.nargout E.resfun (E.obj st.evals.length (trialPoint st step)) with
      | .error e => (Except.error e : Except PyErr (Funout F n))
      | .ok raw => match raw.typed (trialPoint st step) st.nextId with | some fo => .ok fo | none => .error .valueError) = .ok fo := hfo
    split at hfo'
    · cases hfo'
    · rename_i raw hraw
      split at hfo'
      · rename_i fo' hty
        cases hfo'
        exact ⟨raw, st.nextId, hraw, hty⟩
      · cases hfo'

theorem checkContinue_evals (E : Env F n) (st st' : St F n) (b : Bool) (h : checkContinue E st = (b, st')) : st'.evals = st.evals := by
  unfold checkContinue at h
  simp only at h
  repeat' split at h
  all_goals cases h
  all_goals rfl

variable (E : Env F n) (x0 : Vec F n) (startId : String) (hess0 : Hess0 F) (st0 : St F n)

theorem start_len : ([] : List (EvalRec F n)).length + st0.evals.length = (startState E x0 startId st0).evals.length := by
  rw [List.length_nil, Nat.zero_add]; rfl

/-- all calls up to a loop head are faithful and succeeded -/
theorem head_calls (k : ℕ) (st : St F n) (cur : Funout F n) (h : LoopHead E x0 startId hess0 st0 k st cur) :
    ∃ l, st.evals = l ++ st0.evals ∧ l.length = k + 1 ∧ ∀ pre r suf, l = pre ++ r :: suf →
      Faithful E (suf.length + st0.evals.length) r ∧ ∃ fo, r.out = .ok fo := by
  induction k generalizing st cur with
  | zero =>
    cases h with
    | start st1 _ _ hb hs =>
      obtain ⟨rfl, _⟩ := checkInBounds_ok _ _ _ _ hb
      obtain ⟨raw, happ, h1, _, _, h4, _, _, _, h8⟩ := setup_ok _ _ _ _ _ hs
      subst h8
      obtain ⟨a, b, c, d, hf⟩ := setupState_frame (startState E x0 startId st0) cur happ
      refine ⟨[{ arg := (startState E x0 startId st0).x, out := .ok cur }], ?_, rfl, ?_⟩
      · rw [hf]; rfl
      · intro pre r suf hl
        match pre, hl with
        | [], hl =>
          cases hl
          refine ⟨⟨fun e he => ?_, fun fo hfo => ?_⟩, cur, rfl⟩
          · have h1' : funEval E.nargout E.resfun (E.obj (([] : List (EvalRec F n)).length + st0.evals.length) (startState E x0 startId st0).x) = .ok raw := by
              rw [start_len E x0 startId st0]; exact h1
            rw [h1'] at he; cases he
          · cases hfo
            refine ⟨raw, _, ?_, h4⟩
            rw [start_len E x0 startId st0]; exact h1
        | a :: pre, hl =>
          have := congrArg List.length hl
          simp at this
  | succ k ih =>
    cases h with
    | next _ st1 st2 _ cur1 _ hh hc hi =>
      obtain ⟨l, h1, h2, h3⟩ := ih _ _ hh
      obtain ⟨rfl, _⟩ := checkContinue_true E st1 st2 hc
      obtain ⟨step, new, hist, _, _, ht, _, _, _, h⟩ := iterate_ok _ _ _ _ _ hi
      have hev : st.evals = { arg := trialPoint { st1 with ticks := st1.ticks + 1 } step, out := .ok new } :: st1.evals := by
        obtain ⟨r, d, i, m, ef, c, mx, mxi, mf, mg, hpf⟩ := postCheck_frame E { st1 with ticks := st1.ticks + 1 } step new
        rcases h with ⟨_, _, st4, hu, _, rfl⟩ | ⟨_, _, _, rfl⟩
        · obtain ⟨_, happ', hess', _, hu'⟩ := update_ok _ _ _ _ _ _ hu
          rw [hu', hpf]; rfl
        · rw [hpf]; rfl
      refine ⟨{ arg := trialPoint { st1 with ticks := st1.ticks + 1 } step, out := .ok new } :: l, by rw [hev, h1]; rfl, by simp [h2], ?_⟩
      intro pre r suf hl
      match pre, hl with
      | [], hl =>
        cases hl
        refine ⟨?_, new, rfl⟩
        have := trialOut_faithful E { st1 with ticks := st1.ticks + 1 } step
        rw [ht] at this
        have hlen : l.length + st0.evals.length = st1.evals.length := by rw [h1, List.length_append]
        rw [hlen]
        exact this
      | a :: pre, hl =>
        have := (List.cons.inj hl).2
        exact h3 pre r suf this

theorem setup_fails (st : St F n) (e : PyErr) (h : funEval E.nargout E.resfun (E.obj st.evals.length st.x) = .error e) :
    setup E hess0 st = .error (e, logStart st (.error e)) := by
  unfold setup
  rw [h]
  rfl

/-- Every call of a run is recorded with its result; only the last call can have failed, and then the run raises its exception. -/
theorem run_calls (fuel : ℕ) : ∃ calls, CallsOf st0 (minimize E fuel x0 startId hess0 st0) calls ∧
    ∀ pre r suf, calls = pre ++ r :: suf → Faithful E (suf.length + st0.evals.length) r ∧
      ∀ e, r.out = .error e → pre = [] ∧ ∃ s, minimize E fuel x0 startId hess0 st0 = .error (e, s) := by
  have okcase : ∀ (l : List (EvalRec F n)), (∀ pre r suf, l = pre ++ r :: suf →
      Faithful E (suf.length + st0.evals.length) r ∧ ∃ fo, r.out = .ok fo) →
      ∀ pre r suf, l = pre ++ r :: suf → Faithful E (suf.length + st0.evals.length) r ∧
      ∀ e, r.out = .error e → pre = [] ∧ ∃ s, minimize E fuel x0 startId hess0 st0 = .error (e, s) := by
    intro l hl pre r suf h
    obtain ⟨h1, fo, h2⟩ := hl pre r suf h
    refine ⟨h1, fun e he => ?_⟩
    rw [h2] at he; cases he
  cases hm : minimize E fuel x0 startId hess0 st0 with
  | ok s =>
    rw [hm] at okcase
    obtain ⟨_, k, st1, cur, st2, _, h1, h2, h3⟩ := minimize_ok E x0 startId hess0 st0 fuel s hm
    obtain ⟨l, hl, _, hl'⟩ := head_calls E x0 startId hess0 st0 k st1 cur h1
    refine ⟨l, ?_, okcase l hl'⟩
    have e1 := checkContinue_evals E st1 st2 false h2
    have e2 : s.evals = st2.evals := by
      unfold writeHistory at h3
      split at h3
      · split at h3
        · cases h3
        · cases h3; rfl
      · cases h3; rfl
    show s.evals = _
    rw [e2, e1, hl]
  | error x =>
    obtain ⟨e, s⟩ := x
    rw [hm] at okcase
    have nocalls : s.evals = st0.evals → ∃ calls, CallsOf st0 (Except.error (e, s) : Except (PyErr × St F n) (St F n)) calls ∧
        ∀ pre r suf, calls = pre ++ r :: suf → Faithful E (suf.length + st0.evals.length) r ∧
        ∀ e', r.out = .error e' → pre = [] ∧ ∃ s', (Except.error (e, s) : Except (PyErr × St F n) (St F n)) = .error (e', s') := by
      intro h
      refine ⟨[], h, fun pre r suf h => ?_⟩
      cases pre <;> cases h
    rcases minimize_error E x0 startId hess0 st0 fuel s e hm with ⟨_, h, _⟩ | h | ⟨st1, hb, h⟩ | ⟨k, st1, cur1, st2, hh, hc, h⟩ |
      ⟨k, st1, cur, st2, hh, hc, h⟩
    · exact nocalls h
    · obtain ⟨_, _, hst⟩ := checkInBounds_error _ _ _ _ _ h
      exact nocalls (by rw [hst]; rfl)
    · obtain ⟨rfl, _⟩ := checkInBounds_ok _ _ _ _ hb
      rcases setup_error E hess0 _ s e h with ⟨rfl, _⟩ | ⟨raw, happ, fo, h1, h2, _, _, rfl⟩
      · refine ⟨[{ arg := (startState E x0 startId st0).x, out := .error e }], rfl, ?_⟩
        intro pre r suf hl
        match pre, hl with
        | [], hl =>
          cases hl
          refine ⟨⟨fun e' he => ?_, fun fo hfo => (by cases hfo)⟩, fun e' he => ⟨rfl, _, by cases he; rfl⟩⟩
          have he' : funEval E.nargout E.resfun (E.obj (startState E x0 startId st0).evals.length (startState E x0 startId st0).x) = .error e' := by
            rw [start_len E x0 startId st0] at he; exact he
          rw [setup_fails E hess0 _ e' he'] at h
          cases h; rfl
        | a :: pre, hl =>
          have := congrArg List.length hl
          simp at this
      · refine ⟨[{ arg := (startState E x0 startId st0).x, out := .ok fo }], ?_, ?_⟩
        · obtain ⟨a, b, c, d, hf⟩ := setupState_frame (startState E x0 startId st0) fo happ
          show (setupState _ _ _).evals = _
          rw [hf]; rfl
        · apply okcase
          intro pre r suf hl
          match pre, hl with
          | [], hl =>
            cases hl
            refine ⟨⟨fun e' he => ?_, fun fo' hfo => ?_⟩, fo, rfl⟩
            · have he' : funEval E.nargout E.resfun (E.obj (startState E x0 startId st0).evals.length (startState E x0 startId st0).x) = .error e' := by
                rw [start_len E x0 startId st0] at he; exact he
              rw [h1] at he'; cases he'
            · cases hfo
              exact ⟨raw, _, by rw [start_len E x0 startId st0]; exact h1, h2⟩
          | a :: pre, hl =>
            have := congrArg List.length hl
            simp at this
    · obtain ⟨l, hl, _, hl'⟩ := head_calls E x0 startId hess0 st0 k st1 cur1 hh
      obtain ⟨rfl, _⟩ := checkContinue_true E st1 st2 hc
      have same : s.evals = st1.evals → ∃ calls, CallsOf st0 (Except.error (e, s) : Except (PyErr × St F n) (St F n)) calls ∧
          ∀ pre r suf, calls = pre ++ r :: suf → Faithful E (suf.length + st0.evals.length) r ∧
          ∀ e', r.out = .error e' → pre = [] ∧ ∃ s', (Except.error (e, s) : Except (PyErr × St F n) (St F n)) = .error (e', s') :=
        fun h => ⟨l, by show s.evals = _; rw [h, hl], okcase l hl'⟩
      have more : ∀ step out, trialOut E { st1 with ticks := st1.ticks + 1 } step = out →
          s.evals = { arg := trialPoint { st1 with ticks := st1.ticks + 1 } step, out := out } :: st1.evals →
          (∀ e', out = .error e' → e' = e) →
          ∃ calls, CallsOf st0 (Except.error (e, s) : Except (PyErr × St F n) (St F n)) calls ∧
          ∀ pre r suf, calls = pre ++ r :: suf → Faithful E (suf.length + st0.evals.length) r ∧
          ∀ e', r.out = .error e' → pre = [] ∧ ∃ s', (Except.error (e, s) : Except (PyErr × St F n) (St F n)) = .error (e', s') := by
        intro step out ho hs hout
        refine ⟨{ arg := trialPoint { st1 with ticks := st1.ticks + 1 } step, out := out } :: l, by show s.evals = _; rw [hs, hl]; rfl, ?_⟩
        intro pre r suf hcs
        match pre, hcs with
        | [], hcs =>
          cases hcs
          have := trialOut_faithful E { st1 with ticks := st1.ticks + 1 } step
          rw [ho] at this
          have hlen : l.length + st0.evals.length = st1.evals.length := by rw [hl, List.length_append]
          rw [hlen]
          exact ⟨this, fun e' he => ⟨rfl, s, by rw [hout e' he]⟩⟩
        | a :: pre, hcs =>
          have := (List.cons.inj hcs).2
          obtain ⟨h1, fo, h2⟩ := hl' pre r suf this
          exact ⟨h1, fun e' he => by rw [h2] at he; cases he⟩
      rcases h with ⟨_, rfl, _⟩ | h
      · exact same rfl
      rcases iterate_error E _ s cur1 _ h with ⟨_, _, rfl⟩ | ⟨_, ⟨_, rfl⟩ | ⟨step, _, h⟩⟩
      · exact same rfl
      · exact same rfl
      · rcases h with ⟨ht, rfl⟩ | ⟨new, hout, _, _, h⟩
        · exact more step _ ht rfl (fun e' he => by cases he; rfl)
        · obtain ⟨r, d, i, m, ef, c, mx, mxi, mf, mg, hpf⟩ := postCheck_frame E { st1 with ticks := st1.ticks + 1 } step new
          have hpe : (postCheck E { st1 with ticks := st1.ticks + 1 } step new).evals =
              { arg := trialPoint { st1 with ticks := st1.ticks + 1 } step, out := .ok new } :: st1.evals := by rw [hpf]; rfl
          refine more step _ hout ?_ (fun e' he => by cases he)
          rcases h with ⟨_, _, _, rfl⟩ | ⟨_, ⟨_, h⟩ | ⟨_, h, _⟩ | ⟨_, rfl, _⟩⟩
          · rfl
          · rcases update_error E step new cur1 _ s _ h with ⟨rfl, _⟩ | ⟨_, _, happ', hess', rfl⟩
            · exact hpe
            · exact hpe
          · obtain ⟨_, happ', hess', _, rfl⟩ := update_ok _ _ _ _ _ _ h
            exact hpe
          · exact hpe
    · obtain ⟨l, hl, _, hl'⟩ := head_calls E x0 startId hess0 st0 k st1 cur hh
      refine ⟨l, ?_, okcase l hl'⟩
      have e1 := checkContinue_evals E st1 st2 false hc
      have e2 : s.evals = st2.evals := by
        unfold writeHistory at h
        split at h
        · split at h
          · cases h; rfl
          · cases h
        · cases h
      show s.evals = _
      rw [e2, e1, hl]

end Fides
