import Verif.Spec.History
import Verif.Lemmas.Pass
import Verif.Lemmas.Demo

/-!
# C47: the history is complete, faithful and atomic
-/

set_option linter.unusedSectionVars false

namespace Fides
open Spec
variable {F : Type} [FloatOps F] {n : ℕ}

theorem append_keys (h : History F) (key : String) (v : HVal F) :
    (h.append key v).map Prod.fst = if key ∈ h.map Prod.fst then h.map Prod.fst else h.map Prod.fst ++ [key] := by
  induction h with
  | nil => simp [History.append]
  | cons p rest ih =>
    obtain ⟨k, l⟩ := p
    unfold History.append
    by_cases hk : k = key
    · simp [hk]
    · rw [if_neg hk]
      simp only [List.map_cons, ih, List.mem_cons]
      by_cases hm : key ∈ rest.map Prod.fst
      · simp only [hm, if_true, or_true]
      · have : key ≠ k := fun h => hk h.symm
        simp only [hm, this, if_false, or_false, List.cons_append]

theorem append_entries (h : History F) (key key' : String) (v : HVal F) :
    entries (h.append key v) key' = if key = key' then entries h key' ++ [v] else entries h key' := by
  induction h with
  | nil => by_cases hk : key = key' <;> simp [History.append, entries, hk]
  | cons p rest ih =>
    obtain ⟨k, l⟩ := p
    unfold History.append
    by_cases hk : k = key
    · subst hk
      rw [if_pos rfl]
      by_cases hk' : k = key' <;> simp [entries, hk']
    · rw [if_neg hk]
      unfold entries
      rw [ih]
      by_cases hk' : k = key'
      · have : key ≠ key' := fun h => hk (hk'.trans h.symm)
        simp [hk', this]
      · simp only [hk', if_false]

theorem appendRow_entries (row : List (String × HVal F)) (h : History F) (key : String) :
    entries (appendRow h row) key = entries h key ++ (row.filter (fun kv => decide (kv.1 = key))).map Prod.snd := by
  induction row generalizing h with
  | nil => simp [appendRow]
  | cons kv row ih =>
    have : appendRow h (kv :: row) = appendRow (h.append kv.1 kv.2) row := rfl
    rw [this, ih, append_entries]
    by_cases hk : kv.1 = key <;> simp [hk]

theorem appendRow_keys_mem (row : List (String × HVal F)) (h : History F) (hm : ∀ kv ∈ row, kv.1 ∈ h.map Prod.fst) :
    (appendRow h row).map Prod.fst = h.map Prod.fst := by
  induction row generalizing h with
  | nil => rfl
  | cons kv row ih =>
    have : appendRow h (kv :: row) = appendRow (h.append kv.1 kv.2) row := rfl
    have hk : (h.append kv.1 kv.2).map Prod.fst = h.map Prod.fst := by
      rw [append_keys, if_pos (hm kv (by simp))]
    rw [this, ih, hk]
    intro kv' h'
    rw [hk]
    exact hm kv' (by simp [h'])

theorem appendRow_keys_new (row : List (String × HVal F)) (h : History F) (hn : (h.map Prod.fst ++ row.map Prod.fst).Nodup) :
    (appendRow h row).map Prod.fst = h.map Prod.fst ++ row.map Prod.fst := by
  induction row generalizing h with
  | nil => simp [appendRow]
  | cons kv row ih =>
    have : appendRow h (kv :: row) = appendRow (h.append kv.1 kv.2) row := rfl
    have hni : kv.1 ∉ h.map Prod.fst := by
      intro hm
      rw [List.nodup_append] at hn
      exact hn.2.2 _ hm _ (by simp) rfl
    have hk : (h.append kv.1 kv.2).map Prod.fst = h.map Prod.fst ++ [kv.1] := by
      rw [append_keys, if_neg hni]
    rw [this, ih, hk]
    · simp
    · rw [hk]; simpa using hn

/-- the recorded row has the recorded names, and these values -/
theorem historyRow_ok (E : Env F n) (acc : Bool) (step : Step F n) (fo : Funout F n) (th : F) (shs : Mat F n n) (st : St F n)
    (row : List (String × HVal F)) (h : historyRow E acc step fo th shs st = .ok row) :
    row.map Prod.fst = recorded ∧
    (∀ v, ("fval", v) ∈ row ↔ v = .num fo.fval) ∧ (∀ v, ("tr_ratio", v) ∈ row ↔ v = .num st.trRatio) ∧
    (∀ v, ("tr_radius", v) ∈ row ↔ v = .num st.deltaIter) ∧ (∀ v, ("normgrad", v) ∈ row ↔ v = .num (norm st.grad)) ∧
    (∀ v, ("normstep", v) ∈ row ↔ v = .num (norm (vadd step.s step.s0))) ∧ (∀ v, ("accept", v) ∈ row ↔ v = .bool acc) ∧
    (∀ v, ("theta", v) ∈ row ↔ v = .num th) ∧ (∀ v, ("alpha", v) ∈ row ↔ v = .num step.alpha) ∧
    (∀ v, ("step_type", v) ∈ row ↔ v = .type step.type) ∧
    (∀ v, ("iterations_since_tr_update", v) ∈ row ↔ v = .int st.iterSinceTr) := by
  unfold historyRow at h
  split at h
  · cases h
  · simp only at h
    split at h
    · cases h
    · split at h
      · cases h
      · split at h
        · cases h
        · split at h
          · cases h
          · cases h
            refine ⟨rfl, ?_, ?_, ?_, ?_, ?_, ?_, ?_, ?_, ?_, ?_⟩ <;> intro v <;> simp

theorem recorded_nodup : recorded.Nodup := by decide

/-- in a row with distinct names the entry under a name is unique -/
theorem filter_row (row : List (String × HVal F)) (hn : (row.map Prod.fst).Nodup) (key : String) (v : HVal F) (hm : (key, v) ∈ row) :
    (row.filter (fun kv => decide (kv.1 = key))).map Prod.snd = [v] := by
  induction row with
  | nil => simp at hm
  | cons kv row ih =>
    simp only [List.map_cons, List.nodup_cons] at hn
    by_cases hk : kv.1 = key
    · have hnot : ∀ w, (key, w) ∉ row := by
        intro w hw
        exact hn.1 (hk ▸ List.mem_map.mpr ⟨(key, w), hw, rfl⟩)
      have hfil : row.filter (fun kv => decide (kv.1 = key)) = [] := by
        rw [List.filter_eq_nil_iff]
        intro a ha
        simp only [decide_eq_true_eq]
        intro hak
        exact hnot a.2 (by rw [← hak]; exact ha)
      rcases List.mem_cons.mp hm with h | h
      · subst h
        simp [hfil]
      · exact absurd h (hnot v)
    · rcases List.mem_cons.mp hm with h | h
      · exact absurd (by rw [← h]) hk
      · simp [hk, ih hn.2 h]

/-- what a pass adds to the history -/
theorem pass_history (E : Env F n) (prev : St F n) (cur : Funout F n) (step : Step F n) (new : Funout F n) (next : St F n)
    (cur' : Funout F n) (h : Pass E prev cur step new next cur') (hh : E.opts.history = true) :
    ∃ row, historyRow E (radiusStep E prev step new).1 step new (trInput E (preIter prev)).theta (trInput E (preIter prev)).prob.shess next = .ok row ∧
      next.history = appendRow prev.history row := by
  obtain ⟨step', new', hist, hfin0, htr, hout, hnx, hnxi, hfin, hcase⟩ := iterate_ok E _ next cur cur' h.body
  have hs : step' = step := by
    have h1 : E.tr prev.proposals (trInput E { prev with iteration := prev.iteration + 1, deltaIter := prev.delta,
                                                         ticks := prev.ticks + 1 }) = .ok step' := htr
    rw [h.proposal] at h1
    cases h1; rfl
  subst hs
  obtain ⟨r, d, i, m, ef, c, mx, mxi, mf, mg, hpf⟩ := postCheck_frame E { prev with ticks := prev.ticks + 1 } step' new'
  have hacc' : (radiusStep E { prev with ticks := prev.ticks + 1 } step' new').1 = (radiusStep E prev step' new').1 := by
    rw [radiusStep_ticks]
  have hti : trInput E (preIter { prev with ticks := prev.ticks + 1 }) = trInput E (preIter prev) := rfl
  rw [hacc', hti] at hcase
  rcases hcase with ⟨hacc, hcur, st4, hu, hist', hst⟩ | ⟨hacc, hcur, hist', hst⟩
  · obtain ⟨hbd, happ, hess, hhap, h4⟩ := update_ok E step' _ cur _ st4 hu
    have hev : next.evals = { arg := trialPoint prev step', out := .ok new' } :: prev.evals := by
      rw [hst, h4]
      show (postCheck E _ step' _).evals = _
      rw [hpf]; rfl
    have hn : new' = new := by
      have h1 := h.evaluated
      rw [hev] at h1
      simp only [List.cons.injEq, EvalRec.mk.injEq, Except.ok.injEq, and_true] at h1
      exact h1.2
    subst hn
    rw [hacc]
    rcases hist' with ⟨hf, _⟩ | ⟨_, row, hrow, hhi⟩
    · rw [hh] at hf; cases hf
    · refine ⟨row, ?_, ?_⟩
      · rw [hst]; exact hrow
      · rw [hst]
        show hist = _
        rw [hhi, h4]
        show appendRow (postCheck E _ step' _).history row = _
        rw [hpf]; rfl
  · have hev : next.evals = { arg := trialPoint prev step', out := .ok new' } :: prev.evals := by
      rw [hst]
      show (postCheck E _ step' _).evals = _
      rw [hpf]; rfl
    have hn : new' = new := by
      have h1 := h.evaluated
      rw [hev] at h1
      simp only [List.cons.injEq, EvalRec.mk.injEq, Except.ok.injEq, and_true] at h1
      exact h1.2
    subst hn
    rw [hacc]
    rcases hist' with ⟨hf, _⟩ | ⟨_, row, hrow, hhi⟩
    · rw [hh] at hf; cases hf
    · refine ⟨row, ?_, ?_⟩
      · rw [hst]; exact hrow
      · rw [hst]
        show hist = _
        rw [hhi, hpf]; rfl

section
variable (E : Env F n) (x0 : Vec F n) (startId : String) (hess0 : Hess0 F) (st0 : St F n)

theorem complete_of_entries (h : History F) (k : ℕ) (hk : h.map Prod.fst = recorded) (he : ∀ key ∈ recorded, (entries h key).length = k) :
    ∀ g ∈ h, g.2.length = k := by
  have hn : (h.map Prod.fst).Nodup := by rw [hk]; exact recorded_nodup
  have hmem : ∀ key ∈ h.map Prod.fst, (entries h key).length = k := by rw [hk]; exact he
  clear hk he
  induction h with
  | nil => simp
  | cons p rest ih =>
    obtain ⟨key, l⟩ := p
    simp only [List.map_cons, List.nodup_cons] at hn
    intro g hg
    rcases List.mem_cons.mp hg with rfl | hg
    · have := hmem key (by simp)
      simpa [entries] using this
    · refine ih hn.2 ?_ g hg
      intro key' hk'
      have hne : key ≠ key' := fun h => hn.1 (h ▸ hk')
      have := hmem key' (by simp [hk'])
      simpa [entries, hne] using this

theorem head_history (hh : E.opts.history = true) (k : ℕ) (st : St F n) (cur : Funout F n) (h : LoopHead E x0 startId hess0 st0 k st cur) :
    (k = 0 → st.history = []) ∧ (0 < k → st.history.map Prod.fst = recorded) ∧ ∀ key ∈ recorded, (entries st.history key).length = k := by
  induction k generalizing st cur with
  | zero =>
    cases h with
    | start st1 _ _ hb hs =>
      obtain ⟨rfl, _⟩ := checkInBounds_ok _ _ _ _ hb
      obtain ⟨raw, happ, _, _, _, _, _, _, _, rfl⟩ := setup_ok _ _ _ _ _ hs
      have : (setupState (startState E x0 startId st0) cur happ).history = [] := by
        obtain ⟨x, i, f, g, hs⟩ := setupState_frame (startState E x0 startId st0) cur happ
        rw [hs]; rfl
      refine ⟨fun _ => this, fun h => absurd h (lt_irrefl 0), ?_⟩
      intro key _
      show (entries (setupState (startState E x0 startId st0) cur happ).history key).length = 0
      rw [this]; rfl
  | succ k ih =>
    obtain ⟨prev, cur0, step, new, hp, hpass⟩ := loopHead_pass E x0 startId hess0 st0 k st cur h
    obtain ⟨i1, i2, i3⟩ := ih prev cur0 hp
    obtain ⟨row, hrow, hst⟩ := pass_history E prev cur0 step new st cur hpass hh
    have hnames := (historyRow_ok E _ _ _ _ _ _ _ hrow).1
    have hnd : (row.map Prod.fst).Nodup := by rw [hnames]; exact recorded_nodup
    refine ⟨fun h => absurd h (Nat.succ_ne_zero k), fun _ => ?_, ?_⟩
    · rw [hst]
      rcases Nat.eq_zero_or_pos k with hk | hk
      · rw [i1 hk, appendRow_keys_new]
        · simpa using hnames
        · simpa using hnd
      · rw [appendRow_keys_mem, i2 hk]
        intro kv hkv
        rw [i2 hk, ← hnames]
        exact List.mem_map.mpr ⟨kv, hkv, rfl⟩
    · intro key hkey
      rw [hst, appendRow_entries, List.length_append, i3 key hkey]
      rw [← hnames] at hkey
      obtain ⟨kv, hkv, rfl⟩ := List.mem_map.mp hkey
      rw [filter_row row hnd kv.1 kv.2 hkv]
      rfl

theorem update_error_file (step : Step F n) (new old : Funout F n) (st st' : St F n) (e : PyErr)
    (h : update E step new old st = .error (e, st')) : st'.file = st.file := by
  unfold update at h
  simp only [checkInBounds] at h
  cases hh : st.happ with
  | none =>
    rw [hh] at h
    simp only at h
    cases hm : new.hess with
    | none => rw [hm] at h; cases h; rfl
    | some m =>
      rw [hm] at h
      simp only at h
      by_cases hb : inBounds E.lb E.ub new.x = true
      · simp only [hb, if_true] at h; cases h
      · simp only [hb, Bool.false_eq_true, if_false] at h; cases h; rfl
  | some g =>
    rw [hh] at h
    simp only at h
    cases hm : updateHapp st g step new old with
    | error er => rw [hm] at h; cases h; rfl
    | ok g' =>
      rw [hm] at h
      simp only at h
      by_cases hb : inBounds E.lb E.ub new.x = true
      · simp only [hb, if_true] at h; cases h
      · simp only [hb, Bool.false_eq_true, if_false] at h; cases h; rfl

theorem postCheck_file (st : St F n) (step : Step F n) (new : Funout F n) : (postCheck E st step new).file = st.file := by
  obtain ⟨a1, a2, a3, a4, a5, a6, a7, a8, a9, a10, hp⟩ := postCheck_frame E st step new
  rw [hp]; rfl

theorem iterate_error_file (st st' : St F n) (old : Funout F n) (e : PyErr) (h : iterate E st old = .error (e, st')) :
    st'.file = st.file := by
  rcases iterate_error E st st' old e h with ⟨_, _, rfl⟩ | ⟨_, ⟨_, rfl⟩ | ⟨step, _, ⟨_, rfl⟩ | ⟨new, _, _, _, ⟨_, _, _, rfl⟩ |
    ⟨_, ⟨_, hu⟩ | ⟨_, hu, _⟩ | ⟨_, rfl, _⟩⟩⟩⟩⟩
  · rfl
  · rfl
  · rfl
  · rfl
  · rw [update_error_file E step new old _ st' e hu, postCheck_file]
  · obtain ⟨_, happ, hess, _, rfl⟩ := update_ok E step new old _ st' hu
    exact postCheck_file E st step new
  · exact postCheck_file E st step new

theorem checkContinue_file (st st' : St F n) (b : Bool) (h : checkContinue E st = (b, st')) :
    st'.file = st.file ∧ st'.history = st.history ∧ st'.startId = st.startId ∧ st'.iteration = st.iteration ∧ st'.evals = st.evals := by
  unfold checkContinue at h
  simp only at h
  repeat' split at h
  all_goals cases h
  all_goals exact ⟨rfl, rfl, rfl, rfl, rfl⟩

variable [LawfulFloat F]

/-- C47, first part: a normal return with a history file adds exactly one group, named by the run; the name was not used
before; the group has exactly the recorded quantities, each with one entry per iteration. -/
theorem C47_complete (hh : E.opts.history = true) (fuel : ℕ) (st' : St F n) (h : minimize E fuel x0 startId hess0 st0 = .ok st') :
    ∃ g, st'.file = st0.file ++ [(startId, g)] ∧ Complete g st'.iteration ∧ g = st'.history ∧ ∀ p ∈ st0.file, p.1 ≠ startId := by
  obtain ⟨_, k, st1, cur, st2, _, h1, h2, h3⟩ := minimize_ok E x0 startId hess0 st0 fuel st' h
  have hinv := headInv E x0 startId hess0 st0 k st1 cur h1
  obtain ⟨e1, e2, e3, e4, _⟩ := checkContinue_file E st1 st2 false h2
  obtain ⟨i1, i2, i3⟩ := head_history E x0 startId hess0 st0 hh k st1 cur h1
  unfold writeHistory at h3
  rw [if_pos hh] at h3
  split at h3
  · cases h3
  · rename_i hany
    cases h3
    refine ⟨st2.history, ?_, ?_, rfl, ?_⟩
    · show st2.file ++ [(st2.startId, st2.history)] = _
      rw [e1, hinv.file, e3, hinv.startId_eq]
    · show Complete st2.history st2.iteration
      rw [e2, e4, hinv.iteration]
      exact ⟨i1, fun hk => ⟨i2 hk, complete_of_entries _ k (i2 hk) i3⟩⟩
    · intro p hp hps
      apply hany
      rw [List.any_eq_true]
      refine ⟨p, ?_, ?_⟩
      · rw [e1, hinv.file]; exact hp
      · rw [e3, hinv.startId_eq]; simpa using hps

/-- C47, second part: when `minimize` raises, whatever the exception, the file is as before. -/
theorem C47_atomic (fuel : ℕ) (st' : St F n) (e : PyErr) (h : minimize E fuel x0 startId hess0 st0 = .error (e, st')) :
    st'.file = st0.file := by
  rcases minimize_error E x0 startId hess0 st0 fuel st' e h with ⟨_, _, h⟩ | h | ⟨st1, h1, h2⟩ | ⟨k, st1, cur, st2, h1, h2, h3⟩ |
    ⟨k, st1, cur, st2, h1, h2, h3⟩
  · exact h
  · obtain ⟨_, _, hst⟩ := checkInBounds_error _ _ _ _ _ h
    rw [hst]; rfl
  · obtain ⟨rfl, _⟩ := checkInBounds_ok _ _ _ _ h1
    rcases setup_error E hess0 _ st' e h2 with ⟨rfl, _⟩ | ⟨raw, happ, fo, _, _, _, _, rfl⟩
    · rfl
    · obtain ⟨x, i, f, g, hs⟩ := setupState_frame (startState E x0 startId st0) fo happ
      rw [hs]; rfl
  · have hf := (headInv E x0 startId hess0 st0 k st1 cur h1).file
    obtain ⟨e1, _⟩ := checkContinue_file E st1 st2 true h2
    rcases h3 with ⟨_, rfl, _⟩ | h3
    · rw [e1, hf]
    · rw [iterate_error_file E st2 st' cur e h3, e1, hf]
  · have hf := (headInv E x0 startId hess0 st0 k st1 cur h1).file
    obtain ⟨e1, _⟩ := checkContinue_file E st1 st2 false h2
    unfold writeHistory at h3
    split at h3
    · split at h3
      · cases h3; rw [e1, hf]
      · cases h3
    · cases h3

/-- C47, third part: with a history file a run whose name was used before never returns normally, and leaves the file as it was. -/
theorem C47_duplicate (hh : E.opts.history = true) (g : History F) (hdup : (startId, g) ∈ st0.file) (fuel : ℕ) :
    ∃ e s, minimize E fuel x0 startId hess0 st0 = .error (e, s) ∧ s.file = st0.file := by
  cases h : minimize E fuel x0 startId hess0 st0 with
  | ok st' =>
    obtain ⟨_, _, _, _, hn⟩ := C47_complete E x0 startId hess0 st0 hh fuel st' h
    exact absurd rfl (hn _ hdup)
  | error x =>
    obtain ⟨e, s⟩ := x
    exact ⟨e, s, rfl, C47_atomic E x0 startId hess0 st0 fuel s e h⟩

/-- C47: without the option nothing is written. -/
theorem C47_off (hh : E.opts.history = false) (fuel : ℕ) : (finalState (minimize E fuel x0 startId hess0 st0)).file = st0.file := by
  cases h : minimize E fuel x0 startId hess0 st0 with
  | ok st' =>
    obtain ⟨_, k, st1, cur, st2, _, h1, h2, h3⟩ := minimize_ok E x0 startId hess0 st0 fuel st' h
    have hf := (headInv E x0 startId hess0 st0 k st1 cur h1).file
    obtain ⟨e1, _⟩ := checkContinue_file E st1 st2 false h2
    unfold writeHistory at h3
    rw [hh] at h3
    simp only [Bool.false_eq_true, if_false] at h3
    cases h3
    show st'.file = _
    rw [e1, hf]
  | error x => exact C47_atomic E x0 startId hess0 st0 fuel x.2 x.1 h

/-- C47, the recorded values: each pass appends to every list, and the appended value is the trial value (`fval`), the ratio
and radius used in that pass, whether the step was accepted, the norm of the gradient at the point after the pass, the
length of the step, its type, theta and the step-back factor. -/
theorem C47_row (hh : E.opts.history = true) (k : ℕ) (prev next : St F n) (cur cur' : Funout F n) (step : Step F n) (new : Funout F n)
    (_hd : LoopHead E x0 startId hess0 st0 k prev cur) (hp : Pass E prev cur step new next cur') :
    entries next.history "fval" = entries prev.history "fval" ++ [.num new.fval] ∧
    entries next.history "tr_ratio" = entries prev.history "tr_ratio" ++ [.num next.trRatio] ∧
    entries next.history "tr_radius" = entries prev.history "tr_radius" ++ [.num prev.delta] ∧
    entries next.history "normgrad" = entries prev.history "normgrad" ++ [.num (norm next.grad)] ∧
    entries next.history "normstep" = entries prev.history "normstep" ++ [.num (norm (vadd step.s step.s0))] ∧
    entries next.history "alpha" = entries prev.history "alpha" ++ [.num step.alpha] ∧
    entries next.history "step_type" = entries prev.history "step_type" ++ [.type step.type] ∧
    ∃ acc : Bool, entries next.history "accept" = entries prev.history "accept" ++ [.bool acc] ∧
      (acc = true → cur' = new ∧ next.fval = new.fval ∧ next.grad = new.grad) ∧
      (acc = false → cur' = cur ∧ next.x = prev.x ∧ next.fval = prev.fval ∧ next.grad = prev.grad) := by
  obtain ⟨row, hrow, hst⟩ := pass_history E prev cur step new next cur' hp hh
  obtain ⟨hnames, r1, r2, r3, r4, r5, r6, r7, r8, r9, r10⟩ := historyRow_ok E _ _ _ _ _ _ _ hrow
  have hf := pass_facts E prev cur step new next cur' hp
  have hnd : (row.map Prod.fst).Nodup := by rw [hnames]; exact recorded_nodup
  have key : ∀ name v, (name, v) ∈ row → entries next.history name = entries prev.history name ++ [v] := by
    intro name v hm
    rw [hst, appendRow_entries, filter_row row hnd name v hm]
  refine ⟨key _ _ ((r1 _).mpr rfl), key _ _ ((r2 _).mpr rfl), ?_, key _ _ ((r4 _).mpr rfl), key _ _ ((r5 _).mpr rfl),
    key _ _ ((r8 _).mpr rfl), key _ _ ((r9 _).mpr rfl), (radiusStep E prev step new).1, key _ _ ((r6 _).mpr rfl), ?_, ?_⟩
  · rw [key _ _ ((r3 _).mpr rfl), hf.deltaIter]
  · intro ha
    rcases hf.cases with ⟨_, h2, _, _, h5, h6⟩ | ⟨h1, _⟩
    · exact ⟨h2, h5, h6⟩
    · rw [ha] at h1; cases h1
  · intro ha
    rcases hf.cases with ⟨h1, _⟩ | ⟨_, h2, h3, h4, h5, _⟩
    · rw [ha] at h1; cases h1
    · exact ⟨h2, h3, h4, h5⟩

/-- C47, the remaining recorded values: the numbers of reflected and truncated coordinates of the step, the number of iterations since the radius
changed, the dimension of the subspace and its two flags, theta, least and greatest eigenvalue and condition number of the Hessian in use after the
pass, the condition number of the scaled Hessian used for the step, and the eigenvalues of the change (and of the structured change) of the Hessian
approximation: not a number without an approximation, zero for a rejected step. -/
theorem C47_columns (hh : E.opts.history = true) (k : ℕ) (prev next : St F n) (cur cur' : Funout F n) (step : Step F n) (new : Funout F n)
    (_hd : LoopHead E x0 startId hess0 st0 k prev cur) (hp : Pass E prev cur step new next cur') :
    let appended := fun (name : String) (v : HVal F) => entries next.history name = entries prev.history name ++ [v]
    appended "reflections" (.int (Fintype.card { i // step.reflIdx i = true })) ∧
    appended "truncations" (.int (Fintype.card { i // step.truncIdx i = true })) ∧
    appended "iterations_since_tr_update" (.int next.iterSinceTr) ∧
    appended "subspace_dim" (.int step.subspace.length) ∧
    appended "posdef" (.bool (step.posdef == some true)) ∧ appended "newton" (.bool (step.newton == some true)) ∧
    appended "theta" (.num (trInput E (preIter prev)).theta) ∧
    (∃ lo hi, E.evs next.hess = .ok (lo, hi) ∧ appended "hess_min_ev" (.num lo) ∧ appended "hess_max_ev" (.num hi)) ∧
    (∃ v, E.cond next.hess = .ok v ∧ appended "cond_hess" (.num v)) ∧
    (∃ v, E.cond (trInput E (preIter prev)).prob.shess = .ok v ∧ appended "cond_shess" (.num v)) ∧
    ∃ acc, appended "accept" (.bool acc) ∧
      (∃ lo hi, appended "hess_update_min_ev" (.num lo) ∧ appended "hess_update_max_ev" (.num hi) ∧
        match next.happ with
        | none => lo = FloatOps.nan ∧ hi = FloatOps.nan
        | some h => (acc = true → E.evs h.getDiff = .ok (lo, hi)) ∧ (acc = false → lo = lit 0 ∧ hi = lit 0)) ∧
      (∃ lo hi, appended "hess_struct_update_min_ev" (.num lo) ∧ appended "hess_struct_update_max_ev" (.num hi) ∧
        match next.happ with
        | some (.ssm h) => (acc = true → E.evs h.sdiff = .ok (lo, hi)) ∧ (acc = false → lo = lit 0 ∧ hi = lit 0)
        | some (.tssm h) => (acc = true → E.evs h.sdiff = .ok (lo, hi)) ∧ (acc = false → lo = lit 0 ∧ hi = lit 0)
        | some (.gnsbfgs _ h) => (acc = true → E.evs h.sdiff = .ok (lo, hi)) ∧ (acc = false → lo = lit 0 ∧ hi = lit 0)
        | _ => lo = FloatOps.nan ∧ hi = FloatOps.nan) := by
  intro appended
  obtain ⟨row, hrow, hst⟩ := pass_history E prev cur step new next cur' hp hh
  have hnames := (historyRow_ok E _ _ _ _ _ _ _ hrow).1
  have hnd : (row.map Prod.fst).Nodup := by rw [hnames]; exact recorded_nodup
  have key : ∀ name v, (name, v) ∈ row → appended name v := by
    intro name v hm
    show entries next.history name = _
    rw [hst, appendRow_entries, filter_row row hnd name v hm]
  have hcard : ∀ q : Fin n → Bool, ((List.finRange n).filter q).length = Fintype.card { i // q i = true } := by
    intro q
    rw [Fintype.card_subtype, ← List.toFinset_card_of_nodup ((List.nodup_finRange n).filter _)]
    congr 1
    ext i; simp
  have hopt : ∀ o : Option Bool, o.getD false = (o == some true) := by
    intro o; rcases o with _ | (_ | _) <;> rfl
  unfold historyRow at hrow
  split at hrow
  · cases hrow
  · rename_i lo hi hev
    simp only at hrow
    split at hrow
    · cases hrow
    · rename_i ulo uhi hup
      split at hrow
      · cases hrow
      · rename_i slo shi hsup
        split at hrow
        · cases hrow
        · rename_i ch hch
          split at hrow
          · cases hrow
          · rename_i csh hcsh
            simp only [Except.ok.injEq] at hrow
            refine ⟨?_, ?_, ?_, ?_, ?_, ?_, ?_, ⟨lo, hi, hev, ?_, ?_⟩, ⟨ch, hch, ?_⟩, ⟨csh, hcsh, ?_⟩, (radiusStep E prev step new).1, ?_,
              ⟨ulo, uhi, ?_, ?_, ?_⟩, ⟨slo, shi, ?_, ?_, ?_⟩⟩
            case refine_15 =>
              cases hnh : next.happ with
              | none => rw [hnh] at hup; cases hup; exact ⟨rfl, rfl⟩
              | some h =>
                rw [hnh] at hup
                simp only at hup
                constructor <;> intro ha
                · rw [ha] at hup; exact hup
                · rw [ha] at hup; cases hup; exact ⟨rfl, rfl⟩
            case refine_18 =>
              cases hnh : next.happ with
              | none => rw [hnh] at hsup; cases hsup; exact ⟨rfl, rfl⟩
              | some h =>
                rw [hnh] at hsup
                cases h <;> simp only at hsup ⊢
                all_goals first
                  | (cases hsup; exact ⟨rfl, rfl⟩)
                  | (constructor <;> intro ha
                     · rw [ha] at hsup; exact hsup
                     · rw [ha] at hsup; cases hsup; exact ⟨rfl, rfl⟩)
            all_goals
              apply key
              rw [← hrow]
              simp [hcard, hopt]

/-- the value of a logged evaluation -/
def outVal (r : EvalRec F n) : Option F := match r.out with | .ok fo => some fo.fval | .error _ => none

/-- C47: the list `fval` holds the values of all evaluations of the run after the first one, in order. -/
theorem C47_fval (hh : E.opts.history = true) (fuel : ℕ) (st' : St F n) (h : minimize E fuel x0 startId hess0 st0 = .ok st') :
    ∃ l first, st'.evals = l ++ first :: st0.evals ∧ l.length = st'.iteration ∧
      (entries st'.history "fval").map some = l.reverse.map (fun r => (outVal r).map HVal.num) := by
  have key : ∀ k st cur, LoopHead E x0 startId hess0 st0 k st cur → ∃ l first, st.evals = l ++ first :: st0.evals ∧ l.length = k ∧
      (entries st.history "fval").map some = l.reverse.map (fun r => (outVal r).map HVal.num) := by
    intro k
    induction k with
    | zero =>
      intro st cur hd
      have h0 := (head_history E x0 startId hess0 st0 hh 0 st cur hd).1 rfl
      obtain ⟨l, fo0, he, hl, _⟩ := (headInv E x0 startId hess0 st0 0 st cur hd).evals
      refine ⟨[], { arg := nudge E.lb E.ub x0, out := .ok fo0 }, ?_, rfl, ?_⟩
      · rw [List.length_eq_zero_iff.mp hl] at he; exact he
      · rw [h0]; rfl
    | succ k ih =>
      intro st cur hd
      obtain ⟨prev, cur0, step, new, hp, hpass⟩ := loopHead_pass E x0 startId hess0 st0 k st cur hd
      obtain ⟨l, first, he, hl, hv⟩ := ih prev cur0 hp
      have hrow := (C47_row E x0 startId hess0 st0 hh k prev st cur0 cur step new hp hpass).1
      refine ⟨{ arg := vadd (vadd prev.x step.s) step.s0, out := .ok new } :: l, first, ?_, ?_, ?_⟩
      · rw [hpass.evaluated, he]; rfl
      · simp [hl]
      · rw [hrow, List.map_append, hv, List.reverse_cons, List.map_append]
        rfl
  obtain ⟨_, k, st1, cur, st2, _, h1, h2, h3⟩ := minimize_ok E x0 startId hess0 st0 fuel st' h
  obtain ⟨l, first, he, hl, hv⟩ := key k st1 cur h1
  obtain ⟨_, e2, _, e4, e5⟩ := checkContinue_file E st1 st2 false h2
  obtain ⟨f, rfl⟩ := writeHistory_ok E st2 st' h3
  refine ⟨l, first, ?_, ?_, ?_⟩
  · show st2.evals = _; rw [e5, he]
  · show l.length = st2.iteration; rw [e4, (headInv E x0 startId hess0 st0 k st1 cur h1).iteration, hl]
  · show (entries st2.history _).map some = _; rw [e2, hv]

end

end Fides
