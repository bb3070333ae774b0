import Verif.Model.Logging
import Mathlib.Tactic

/-!
# Loggers (C48)
-/

namespace Fides

theorem createLoggers_spec (levels : List Int) (w : LogWorld) (hw : ∀ k, w.count < k → w.handlers k = 0) :
    (createLoggers w levels).1 = (List.range levels.length).map (fun i => w.count + 1 + i) ∧
    (createLoggers w levels).2.count = w.count + levels.length ∧
    (∀ k, k ≤ w.count → (createLoggers w levels).2.handlers k = w.handlers k ∧ (createLoggers w levels).2.level k = w.level k) ∧
    (∀ i (hi : i < levels.length), (createLoggers w levels).2.handlers (w.count + 1 + i) = 1 ∧
      (createLoggers w levels).2.level (w.count + 1 + i) = levels[i]) := by
  induction levels generalizing w with
  | nil => simp [createLoggers]
  | cons l ls ih =>
    have h := ih (createLogger w l).2 (by
      intro k hk
      have hk' : w.count + 1 < k := hk
      simp only [createLogger]
      rw [if_neg (by omega)]
      exact hw k (by omega))
    have hc : (createLogger w l).2.count = w.count + 1 := rfl
    have hf : (createLogger w l).1 = w.count + 1 := rfl
    rw [hc] at h
    obtain ⟨h1, h2, h3, h4⟩ := h
    refine ⟨?_, ?_, ?_, ?_⟩
    · simp only [createLoggers, h1, hf, List.length_cons, List.range_succ_eq_map, List.map_cons, List.map_map]
      congr 1
      apply List.map_congr_left
      intro i _
      simp only [Function.comp]
      omega
    · simp only [createLoggers, h2, List.length_cons]; omega
    · intro k hk
      obtain ⟨a, b⟩ := h3 k (by omega)
      simp only [createLoggers]
      rw [a, b]
      simp only [createLogger]
      rw [if_neg (by omega), if_neg (by omega)]
      exact ⟨rfl, rfl⟩
    · intro i hi
      simp only [createLoggers]
      cases i with
      | zero =>
        obtain ⟨a, b⟩ := h3 (w.count + 1) (le_refl _)
        simp only [Nat.add_zero, List.getElem_cons_zero]
        rw [a, b]
        simp only [createLogger, if_true]
        simpa using hw _ (Nat.lt_succ_self _)
      | succ i =>
        have hi' : i < ls.length := by simpa using hi
        obtain ⟨a, b⟩ := h4 i hi'
        have he : w.count + 1 + (i + 1) = w.count + 1 + 1 + i := by omega
        rw [he]
        exact ⟨a, by simpa using b⟩

/-- C48: after import, any number of sequential calls of `create_logger` return pairwise different loggers; each of them has exactly one
handler and the level asked for. -/
theorem C48_sequential (levels : List Int) :
    ((createLoggers LogWorld.init levels).1).Nodup ∧ (createLoggers LogWorld.init levels).1.length = levels.length ∧
    ∀ i (hi : i < levels.length) (hi' : i < (createLoggers LogWorld.init levels).1.length),
      (createLoggers LogWorld.init levels).2.handlers ((createLoggers LogWorld.init levels).1[i]) = 1 ∧
      (createLoggers LogWorld.init levels).2.level ((createLoggers LogWorld.init levels).1[i]) = levels[i] := by
  obtain ⟨h1, h2, h3, h4⟩ := createLoggers_spec levels LogWorld.init (fun _ _ => rfl)
  have hlen : (createLoggers LogWorld.init levels).1.length = levels.length := by rw [h1]; simp
  refine ⟨?_, hlen, ?_⟩
  · rw [h1]
    apply List.Nodup.map _ List.nodup_range
    intro a b h
    simpa using h
  · intro i hi hi'
    have : (createLoggers LogWorld.init levels).1[i] = LogWorld.init.count + 1 + i := by
      simp only [h1, List.getElem_map, List.getElem_range]
    rw [this]
    exact h4 i hi

/-- C48, counterexample for concurrent calls: two threads get the same logger, which then has two handlers (every message is printed twice). -/
theorem C48_concurrent_counterexample : ∃ schedule : List Nat,
    (runSchedule LogWorld.init (fun _ => .start) schedule).2 0 = .done 2 ∧
    (runSchedule LogWorld.init (fun _ => .start) schedule).2 1 = .done 2 ∧
    (runSchedule LogWorld.init (fun _ => .start) schedule).1.handlers 2 = 2 ∧
    (runSchedule LogWorld.init (fun _ => .start) schedule).1.handlers 1 = 0 :=
  ⟨[0, 0, 1, 1, 0, 1, 0, 1], by decide, by decide, by decide, by decide⟩

/-- C48 under concurrency, second reason: `logger_count += 1` reads and writes in two steps, so an increment is lost when both calls read before one writes; both calls get
the logger of the same name although each looks up the name right after its own increment, and the counter is one behind the number of calls. -/
theorem C48_lost_increment_counterexample : ∃ schedule : List Nat,
    (runSchedule LogWorld.init (fun _ => .start) schedule).2 0 = .done 1 ∧
    (runSchedule LogWorld.init (fun _ => .start) schedule).2 1 = .done 1 ∧
    (runSchedule LogWorld.init (fun _ => .start) schedule).1.count = 1 :=
  ⟨[0, 1, 0, 0, 1, 1, 0, 1], by decide, by decide, by decide⟩

theorem runSchedule_handlers (N : ℕ) (schedule : List Nat) (w : LogWorld) (ts : Nat → LogThread) (hs : ∀ i ∈ schedule, i < N)
    (hinv : ∀ k, w.handlers k = ((Finset.range N).filter fun i => ts i = .done k).card) (k : ℕ) :
    (runSchedule w ts schedule).1.handlers k = ((Finset.range N).filter fun i => (runSchedule w ts schedule).2 i = .done k).card := by
  induction schedule generalizing w ts with
  | nil => exact hinv k
  | cons i rest ih =>
    suffices hgen : ∀ w' t', logThreadStep w (ts i) = (w', t') →
        (runSchedule w' (fun j => if j = i then t' else ts j) rest).1.handlers k =
          ((Finset.range N).filter fun l => (runSchedule w' (fun j => if j = i then t' else ts j) rest).2 l = .done k).card from hgen _ _ rfl
    intro w' t' hst
    apply ih
    · exact fun j hj => hs j (by simp [hj])
    · intro k
      have hi : i < N := hs i (by simp)
      show w'.handlers k = ((Finset.range N).filter fun j => (if j = i then t' else ts j) = .done k).card
      have same : (ts i = .done k ↔ t' = .done k) → ((Finset.range N).filter fun j => (if j = i then t' else ts j) = .done k) =
          (Finset.range N).filter fun j => ts j = .done k := by
        intro h
        ext j
        simp only [Finset.mem_filter, Finset.mem_range]
        by_cases hj : j = i
        · subst hj; simp [h]
        · simp [hj]
      cases hti : ts i with
      | named m =>
        rw [hti] at hst
        cases hst
        by_cases hk : k = m
        · subst hk
          show (if k = k then _ else _) = _
          rw [if_pos rfl, hinv k]
          have : ((Finset.range N).filter fun j => (if j = i then LogThread.done k else ts j) = .done k) =
              insert i ((Finset.range N).filter fun j => ts j = .done k) := by
            ext j
            simp only [Finset.mem_filter, Finset.mem_range, Finset.mem_insert]
            by_cases hj : j = i
            · subst hj; simp [hi]
            · simp [hj]
          rw [this, Finset.card_insert_of_notMem]
          simp [hti]
        · rw [same (by simp [hti, Ne.symm hk])]
          show (if k = m then _ else _) = _
          rw [if_neg hk, hinv k]
      | start => rw [hti] at hst; cases hst; rw [same (by simp [hti])]; exact hinv k
      | readCount v => rw [hti] at hst; cases hst; rw [same (by simp [hti])]; exact hinv k
      | written => rw [hti] at hst; cases hst; rw [same (by simp [hti])]; exact hinv k
      | done m => rw [hti] at hst; cases hst; rw [same (by simp [hti])]; exact hinv k

/-- C48, all schedules: however the calls of `N` threads interleave, the number of handlers of a logger is the number of calls that returned
it; so a message is printed once per call that got this logger. -/
theorem C48_handlers (N : ℕ) (schedule : List Nat) (hs : ∀ i ∈ schedule, i < N) (k : ℕ) :
    (runSchedule LogWorld.init (fun _ => .start) schedule).1.handlers k =
      ((Finset.range N).filter fun i => (runSchedule LogWorld.init (fun _ => .start) schedule).2 i = .done k).card :=
  runSchedule_handlers N schedule LogWorld.init (fun _ => .start) hs (fun k => by simp [LogWorld.init]) k

/-- the model of one thread running alone agrees with `createLogger` -/
theorem C48_alone (w : LogWorld) (lvl : Int) :
    (runSchedule w (fun _ => .start) [0, 0, 0, 0]).2 0 = .done (createLogger w lvl).1 ∧
    (runSchedule w (fun _ => .start) [0, 0, 0, 0]).1.count = (createLogger w lvl).2.count ∧
    (runSchedule w (fun _ => .start) [0, 0, 0, 0]).1.handlers = (createLogger w lvl).2.handlers := by
  refine ⟨?_, ?_, ?_⟩ <;> simp [runSchedule, logThreadStep, createLogger]

end Fides
