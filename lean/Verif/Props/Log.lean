import Verif.Lemmas.Log
import Verif.Props.Flags

/-!
# C70: the progress log
-/

set_option linter.unusedSectionVars false

namespace Fides
open Spec
variable {F : Type} [FloatOps F] {n : ℕ}

theorem start_iteration (E : Env F n) (x0 : Vec F n) (startId : String) (st0 : St F n) :
    (startState E x0 startId st0).iteration = 0 := rfl

theorem truthful_file (E : Env F n) (x0 : Vec F n) (startId : String) (hess0 : Hess0 F) (st0 st : St F n)
    (f : List (String × History F)) (w : StopMsg F) (h : Truthful E x0 startId hess0 st0 st w) :
    Truthful E x0 startId hess0 st0 { st with file := f } w := by
  have hl : ∀ prev step new, LastPass E x0 startId hess0 st0 st prev step new →
      LastPass E x0 startId hess0 st0 { st with file := f } prev step new := by
    rintro prev step new ⟨k, cur, next, cur', f', h1, h2, rfl⟩
    exact ⟨k, cur, next, cur', f, h1, h2, rfl⟩
  cases w with
  | fdiff d a r =>
    obtain ⟨h1, h2, p, s, e, h3, h4⟩ := h
    exact ⟨h1, h2, p, s, e, hl _ _ _ h3, h4⟩
  | step d t =>
    obtain ⟨h1, h2, p, s, e, h3, h4⟩ := h
    exact ⟨h1, h2, p, s, e, hl _ _ _ h3, h4⟩
  | gradAbs d t =>
    obtain ⟨h1, h2, p, s, e, h3, h4⟩ := h
    exact ⟨h1, h2, p, s, e, hl _ _ _ h3, h4⟩
  | gradRel d t a =>
    obtain ⟨h1, h2, p, s, e, h3, h4⟩ := h
    exact ⟨h1, h2, p, s, e, hl _ _ _ h3, h4⟩
  | maxiter m => exact h
  | maxtime t => exact h
  | delta d => exact h

section
variable [LawfulFloat F] (E : Env F n) (x0 : Vec F n) (startId : String) (hess0 : Hess0 F) (st0 : St F n)

/-- C70: a run that returns normally logs a table and one stop message, nothing else.  The table has row 0 for the start and
one row for every iteration, in order, with a header before each tenth row; row `j + 1` shows pass `j + 1` of the run.
The stop message is the one that belongs to the exit flag, and it is true. -/
theorem C70_table (fuel : ℕ) (st' : St F n) (h : minimize E fuel x0 startId hess0 st0 = .ok st') :
    ∃ r0 rows w, minimizeLog E fuel x0 startId hess0 st0 = table (r0 :: rows) ++ [.stop w] ∧
      rows.length = st'.iteration ∧
      (∃ st cur, LoopHead E x0 startId hess0 st0 0 st cur ∧ ShowsStart st r0) ∧
      (∀ j (hj : j < rows.length), ∃ prev cur step new next cur', LoopHead E x0 startId hess0 st0 j prev cur ∧
        Pass E prev cur step new next cur' ∧ LoopHead E x0 startId hess0 st0 (j + 1) next cur' ∧
        ShowsPass prev step new next rows[j]) ∧
      flagOf w = st'.exitflag ∧ Truthful E x0 startId hess0 st0 st' w := by
  unfold minimize at h
  simp only at h
  split at h
  · cases h
  · rename_i hn
    split at h
    · cases h
    · rename_i st1 hb
      split at h
      · cases h
      · rename_i st2 fo hs
        split at h
        · cases h
        · rename_i st3 hl
          have hh : LoopHead E x0 startId hess0 st0 0 st2 fo := .start st1 st2 fo hb hs
          have hb' : checkInBounds E (startState E x0 startId st0).x (startState E x0 startId st0) = .ok st1 := hb
          obtain ⟨e1, _⟩ := checkInBounds_ok _ _ _ _ hb'
          obtain ⟨r0, hr0, hs0, hit⟩ := setupLog_ok E hess0 st1 st2 fo hs (by rw [e1]; rfl)
          obtain ⟨rows, w, h1, h2, ⟨last, cur1, h3, h3'⟩, h4, h5⟩ := loopLog_ok E x0 startId hess0 st0 fuel 0 st2 st3 fo hh
            (loopHead_start_converged E x0 startId hess0 st0 st2 fo hh) hl
          obtain ⟨f, rfl⟩ := writeHistory_ok E st3 st' h
          refine ⟨r0, rows, w, ?_, ?_, ⟨st2, fo, hh, hs0⟩, ?_, h4, truthful_file E x0 startId hess0 st0 st3 f w h5⟩
          · unfold minimizeLog
            simp only
            rw [if_neg hn, hb]
            simp only
            rw [hs, hr0]
            simp only
            rw [h1]
            have : r0 :: rows = [r0] ++ rows := rfl
            rw [this, table_append, List.append_assoc]
          · have hi := headInv E x0 startId hess0 st0 _ last cur1 h3
            have : st3.iteration = last.iteration := by
              rcases checkContinue_false E last st3 h3' with ⟨_, rfl⟩ | ⟨_, _, rfl⟩ | ⟨_, _, _, rfl⟩ | ⟨_, _, _, rfl⟩ <;> rfl
            show rows.length = st3.iteration
            rw [this, hi.iteration]; omega
          · intro j hj
            obtain ⟨prev, cur, step, new, next, cur', g1, g2, g3, g4⟩ := h2 j hj
            rw [Nat.zero_add] at g1 g3
            exact ⟨prev, cur, step, new, next, cur', g1, g2, g3, g4⟩

/-- the hypothesis is met by a converged run that accepted a step -/
example : ∃ st', minimize (demoEnv (1 / 100000000) (Num.fin 0) (Num.fin 0)) 1 (v1 1) "run" .hessStr demoSt0 = .ok st' := ⟨_, demo_ok.choose_spec.1⟩

/-- C70: reading the table of a run that returned normally.  There is one row per iteration and one for the start, numbered
from 0; the column `fval` is finite, drops strictly at the rows marked as accepted and stays the same at the others; its
last entry is the returned value.  The columns `‖g‖` and `tr radius` are those *before* the pass: rows 0 and 1 show the
same, and so do the `‖g‖` of a rejected row and of the row after it. -/
theorem C70_columns (fuel : ℕ) (st' : St F n) (h : minimize E fuel x0 startId hess0 st0 = .ok st') :
    let R := rowsOf (minimizeLog E fuel x0 startId hess0 st0)
    R.length = st'.iteration + 1 ∧
    (∀ j (hj : j < R.length), R[j].iteration = j ∧ isFinite R[j].fval = true) ∧
    (∀ j (hj : j + 1 < R.length), (R[j + 1].acc = true ∧ lt R[j + 1].fval R[j].fval = true) ∨
      (R[j + 1].acc = false ∧ R[j + 1].fval = R[j].fval)) ∧
    (∀ hj : st'.iteration < R.length, R[st'.iteration].fval = st'.fval) ∧
    (∀ hj : 1 < R.length, R[1].gnorm = R[0].gnorm ∧ R[1].radius = R[0].radius) ∧
    (∀ j (hj : j + 2 < R.length), R[j + 1].acc = false → R[j + 2].gnorm = R[j + 1].gnorm) := by
  intro R
  obtain ⟨r0, rows, w, hlog, hlen, ⟨s0, c0, hh0, hs0⟩, hrows, hfl, _⟩ := C70_table E x0 startId hess0 st0 fuel st' h
  have hR : R = r0 :: rows := by
    show rowsOf _ = _
    rw [hlog, rowsOf_append, rowsOf_table]
    simp [rowsOf]
  -- the value in row `j` is that at loop head `j`
  have hval : ∀ j (hj : j < R.length), ∃ st cur, LoopHead E x0 startId hess0 st0 j st cur ∧ R[j].fval = st.fval ∧
      R[j].iteration = j := by
    intro j hj
    simp only [hR] at hj ⊢
    cases j with
    | zero => exact ⟨s0, c0, hh0, hs0.fval, hs0.iteration⟩
    | succ j =>
      obtain ⟨prev, cur, step, new, next, cur', g1, g2, g3, g4⟩ := hrows j (by simpa using hj)
      refine ⟨next, cur', g3, g4.fval, ?_⟩
      have hi := headInv E x0 startId hess0 st0 _ prev cur g1
      exact g4.iteration.trans (congrArg (· + 1) hi.iteration)
  have hlenR : R.length = st'.iteration + 1 := by rw [hR]; simp [hlen]
  refine ⟨hlenR, ?_, ?_, ?_, ?_, ?_⟩
  · intro j hj
    obtain ⟨st, cur, h1, h2, h3⟩ := hval j hj
    have hi := headInv E x0 startId hess0 st0 _ st cur h1
    refine ⟨h3, ?_⟩
    rw [h2, hi.fval]
    exact ((allFinite_iff _ _ _).mp hi.finite).1
  · intro j hj
    obtain ⟨st, cur, h1, h2, _⟩ := hval j (by omega)
    rw [h2]
    simp only [hR] at hj ⊢
    obtain ⟨prev, cur2, step, new, next, cur', g1, g2, g3, g4⟩ := hrows j (by simpa using hj)
    obtain ⟨rfl, rfl⟩ := loopHead_unique E _ startId hess0 st0 j _ _ _ _ h1 g1
    have hjr : j < rows.length := by simpa using hj
    show (rows[j].acc = true ∧ lt rows[j].fval st.fval = true) ∨ (rows[j].acc = false ∧ rows[j].fval = st.fval)
    cases ha : rows[j].acc with
    | true => exact Or.inl ⟨rfl, by rw [g4.fval]; exact (g4.accepted ha).2.2⟩
    | false => exact Or.inr ⟨rfl, by rw [g4.fval]; exact (g4.rejected ha).1⟩
  · intro hj
    obtain ⟨st, cur, h1, h2, _⟩ := hval _ hj
    rw [h2]
    obtain ⟨k, st1, cur1, ef, t, f, _, hh, rfl⟩ := run_end_fields E x0 startId hess0 st0 fuel st' h
    have hi := headInv E x0 startId hess0 st0 _ st1 cur1 hh
    have e : ({ st1 with exitflag := ef, ticks := t, file := f } : St F n).iteration = k := hi.iteration
    rw [e] at h1
    obtain ⟨rfl, rfl⟩ := loopHead_unique E _ startId hess0 st0 _ _ _ _ _ h1 hh
    rfl
  · intro hj
    simp only [hR] at hj ⊢
    obtain ⟨prev, cur2, step, new, next, cur', g1, g2, g3, g4⟩ := hrows 0 (by simpa using hj)
    obtain ⟨rfl, rfl⟩ := loopHead_unique E _ startId hess0 st0 0 _ _ _ _ hh0 g1
    have hjr : 0 < rows.length := by simpa using hj
    show rows[0].gnorm = r0.gnorm ∧ rows[0].radius = r0.radius
    rw [g4.gnorm, hs0.gnorm, g4.radius, hs0.radius]
    exact ⟨rfl, rfl⟩
  · intro j hj
    simp only [hR] at hj ⊢
    obtain ⟨prev, cur2, step, new, next, cur', g1, g2, g3, g4⟩ := hrows j (by simp at hj; omega)
    obtain ⟨prev', cur3, step', new', next', cur4, k1, k2, k3, k4⟩ := hrows (j + 1) (by simp at hj; omega)
    obtain ⟨rfl, rfl⟩ := loopHead_unique E _ startId hess0 st0 (j + 1) _ _ _ _ g3 k1
    intro hrej
    have hjr : j + 1 < rows.length := by simp at hj; omega
    show rows[j + 1].gnorm = rows[j].gnorm
    rw [k4.gnorm, g4.gnorm, (g4.rejected hrej).2.1]

/-- the hypothesis is met by a converged run that accepted a step -/
example : ∃ st', minimize (demoEnv (1 / 100000000) (Num.fin 0) (Num.fin 0)) 1 (v1 1) "run" .hessStr demoSt0 = .ok st' := ⟨_, demo_ok.choose_spec.1⟩

/-- C70: a run that returns normally emits a warning iff it did not converge. -/
theorem C70_warning (fuel : ℕ) (st' : St F n) (h : minimize E fuel x0 startId hess0 st0 = .ok st') :
    (∃ l ∈ minimizeLog E fuel x0 startId hess0 st0, l.level = .warning) ↔ st'.converged = false := by
  obtain ⟨r0, rows, w, hlog, _, _, _, hfl, _⟩ := C70_table E x0 startId hess0 st0 fuel st' h
  obtain ⟨_, h1, h2⟩ := C11_sign E x0 startId hess0 st0 fuel st' h
  have htab : ∀ rs : List (LogRow F), ∀ l ∈ table rs, l.level = .info := by
    intro rs l hl
    unfold table at hl
    rw [List.mem_flatMap] at hl
    obtain ⟨r, _, hl⟩ := hl
    split at hl
    · simp only [List.mem_cons, List.not_mem_nil, or_false] at hl
      rcases hl with rfl | rfl <;> rfl
    · simp only [List.mem_cons, List.not_mem_nil, or_false] at hl
      subst hl; rfl
  have hw : (∃ l ∈ minimizeLog E fuel x0 startId hess0 st0, l.level = .warning) ↔ (LogLine.stop w).level = .warning := by
    rw [hlog]
    constructor
    · rintro ⟨l, hl, hv⟩
      rcases List.mem_append.mp hl with hl | hl
      · rw [htab _ _ hl] at hv; cases hv
      · simp only [List.mem_cons, List.not_mem_nil, or_false] at hl
        subst hl; exact hv
    · intro hv
      exact ⟨_, by simp, hv⟩
  rw [hw, h2, ← hfl]
  cases w <;> simp [LogLine.level, flagOf, ExitFlag.toInt]

/-- the hypothesis is met by a converged run that accepted a step -/
example : ∃ st', minimize (demoEnv (1 / 100000000) (Num.fin 0) (Num.fin 0)) 1 (v1 1) "run" .hessStr demoSt0 = .ok st' := ⟨_, demo_ok.choose_spec.1⟩

end

section
variable (E : Env F n) (x0 : Vec F n) (startId : String) (hess0 : Hess0 F) (st0 : St F n)

/-- C70: however a run ends, by return or by exception, its log is a table, followed by at most one stop message; the rows
are numbered 0, 1, 2, …, and at most the pass in which an exception was raised has no row. -/
theorem C70_any (fuel : ℕ) :
    ∃ rows o, minimizeLog E fuel x0 startId hess0 st0 = table rows ++ o ∧ (o = [] ∨ ∃ w, o = [.stop w]) ∧
      rows.map LogRow.iteration = List.range rows.length ∧
      ((finalState (minimize E fuel x0 startId hess0 st0)).iteration + 1 = rows.length ∨
       (finalState (minimize E fuel x0 startId hess0 st0)).iteration = rows.length) := by
  unfold minimize minimizeLog
  simp only
  split
  · exact ⟨[], [], rfl, Or.inl rfl, rfl, Or.inr rfl⟩
  · cases hb : checkInBounds E (startState E x0 startId st0).x (startState E x0 startId st0) with
    | error e =>
      have hb' := hb
      unfold startState at hb'
      simp only [hb']
      refine ⟨[], [], rfl, Or.inl rfl, rfl, Or.inr ?_⟩
      obtain ⟨e, st'⟩ := e
      unfold checkInBounds at hb
      split at hb
      · cases hb
      · cases hb; rfl
    | ok st1 =>
      obtain ⟨e1, _⟩ := checkInBounds_ok _ _ _ _ hb
      have hb' := hb
      unfold startState at hb'
      simp only [hb']
      have h10 : st1.iteration = 0 := by rw [e1]; rfl
      cases hs : setup E hess0 st1 with
      | error e =>
        obtain ⟨e, st'⟩ := e
        simp only [List.append_nil]
        have hst' : st'.iteration = 0 := by
          rcases setup_error E hess0 st1 st' e hs with ⟨rfl, _⟩ | ⟨raw, happ, fo, _, _, _, _, rfl⟩
          · exact h10
          · obtain ⟨a, b, c, d, hf⟩ := setupState_frame st1 fo happ
            show (setupState st1 fo happ).iteration = 0
            rw [hf]; exact h10
        rcases setupLog_any E hess0 st1 h10 with h | ⟨r, h, hr⟩
        · exact ⟨[], [], by rw [h]; rfl, Or.inl rfl, rfl, Or.inr hst'⟩
        · refine ⟨[r], [], by rw [h]; simp, Or.inl rfl, by simp [hr], Or.inl ?_⟩
          show st'.iteration + 1 = 1
          rw [hst']
      | ok p =>
        obtain ⟨st2, fo⟩ := p
        simp only
        obtain ⟨r, hr, hr0, hit⟩ := setupLog_ok E hess0 st1 st2 fo hs h10
        obtain ⟨rows, o, h1, h2, h3, h4⟩ := loopLog_any E fuel st2 fo
        rw [hit] at h3 h4
        refine ⟨r :: rows, o, ?_, h2, ?_, ?_⟩
        · rw [hr, h1]
          have : r :: rows = [r] ++ rows := rfl
          rw [this, table_append, List.append_assoc]
        · simp only [List.map_cons, List.length_cons, h3, hr0.iteration]
          rw [List.range_eq_range', List.range'_succ]
        · simp only [List.length_cons]
          cases hl : loop E fuel st2 fo with
          | error e =>
            rw [hl] at h4
            simp only [finalState] at h4 ⊢
            omega
          | ok st =>
            rw [hl] at h4
            have hw : (finalState (writeHistory E st)).iteration = st.iteration := by
              unfold writeHistory
              split
              · split <;> rfl
              · rfl
            simp only [hw]
            simp only [finalState] at h4
            omega

end

/-! ### layout -/

theorem spaces_length (k : Int) : (spaces k).length = k.toNat := by
  unfold spaces
  simp

/-- C70: the first column of a row is as wide as that of the header iff the number of the iteration has fewer digits than
`max (digits of maxiter) 5`; the field for the step type has the same width for all step types. -/
theorem C70_aligned (maxiter : Int) (k : ℕ) (t : StepType) :
    ((iterField maxiter k).length = (headField maxiter).length ↔
      (toString k).length < max (toString maxiter).length 5) ∧ (typeField t).length = 4 := by
  constructor
  · unfold iterField headField
    rw [String.length_append, String.length_append, spaces_length, spaces_length]
    have : "iter".length = 4 := by decide
    rw [this]
    omega
  · unfold typeField
    rw [String.length_append, spaces_length]
    cases t <;> decide

/-- C70: with up to 9999 iterations, in particular with the default options, all rows are aligned with the header. -/
theorem C70_aligned_small (maxiter : Int) (k : ℕ) (hk : k ≤ 9999) :
    (iterField maxiter k).length = (headField maxiter).length := by
  rw [(C70_aligned maxiter k .nd).1]
  have : (toString k).length ≤ 4 := (Nat.length_repr_le_iff (by omega)).mpr (by omega)
  omega

/-- but with `maxiter = 20000` the rows from iteration 10000 on are not -/
example : (iterField 20000 10000).length ≠ (headField 20000).length := by
  rw [Ne, (C70_aligned 20000 10000 .nd).1]
  decide

end Fides
