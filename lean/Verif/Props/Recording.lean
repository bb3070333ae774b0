import Verif.Props.History
import Verif.Lemmas.HistFree
import Verif.Lemmas.Demo

/-!
# Recording the history has no influence on the run (C53), and witnesses for C47
-/

namespace Fides
open Spec
variable {F : Type} [FloatOps F] [LawfulFloat F] {n : ℕ}
variable (E : Env F n) (x0 : Vec F n) (startId : String) (hess0 : Hess0 F) (st0 : St F n)

/-- C53: if the run without history returns, the run with history and an unused start id returns the same state apart from the
history itself and the group added to the file: same point, value, gradient, Hessian, flag, counters, and calls of the objective. -/
theorem C53_same_return (hq : Quiet E) (hb : E.opts.history = false) (hfresh : ∀ p ∈ st0.file, p.1 ≠ startId) (fuel : ℕ) (s : St F n)
    (h : minimize E fuel x0 startId hess0 st0 = .ok s) :
    ∃ g, minimize (E.recording true) fuel x0 startId hess0 st0 = .ok { s with history := g, file := st0.file ++ [(startId, g)] } := by
  obtain ⟨h', hh'⟩ := (minimize_recording E true hq hb fuel x0 startId hess0 st0).1 s h
  have hf : s.file = st0.file := by
    have := C47_off E x0 startId hess0 st0 hb fuel
    rwa [h] at this
  obtain ⟨_, k, st1, cur, st2, _, h1, h2, h3⟩ := minimize_ok E x0 startId hess0 st0 fuel s h
  have hinv := headInv E x0 startId hess0 st0 k st1 cur h1
  obtain ⟨_, _, e3, _, _⟩ := checkContinue_file E st1 st2 false h2
  have hid : s.startId = startId := by
    unfold writeHistory at h3
    rw [hb] at h3
    simp only [Bool.false_eq_true, if_false] at h3
    cases h3
    rw [e3, hinv.startId_eq]
  refine ⟨h', ?_⟩
  rw [hh']
  unfold writeHistory
  have h1 : (E.recording true).opts.history = true := rfl
  have h2 : (wh h' s).file.any (fun g => g.1 = (wh h' s).startId) = false := by
    rw [List.any_eq_false]
    intro p hp
    have hp' : p ∈ st0.file := by rw [← hf]; exact hp
    have : (wh h' s).startId = startId := hid
    rw [this]
    simpa using hfresh p hp'
  rw [h1, h2]
  simp only [if_true, Bool.false_eq_true, if_false]
  have : (wh h' s).startId = startId := hid
  rw [this]
  have hfw : (wh h' s).file = st0.file := hf
  rw [hfw]
  show Except.ok { s with startId := startId, history := h', file := st0.file ++ [(startId, h')] } = _
  rw [← hid]

/-- C53: if the run without history raises, the run with history raises the same exception after the same calls of the
objective, in the same state apart from the recorded history; whatever the file contains. -/
theorem C53_same_error (hq : Quiet E) (hb : E.opts.history = false) (fuel : ℕ) (er : PyErr) (s : St F n)
    (h : minimize E fuel x0 startId hess0 st0 = .error (er, s)) :
    ∃ g, minimize (E.recording true) fuel x0 startId hess0 st0 = .error (er, { s with history := g }) :=
  (minimize_recording E true hq hb fuel x0 startId hess0 st0).2 er s h

noncomputable section
open Num

theorem demo_quiet (fa : ℝ) (F0 G0 : Num) : Quiet (demoEnv fa F0 G0) := ⟨fun _ => ⟨_, rfl⟩, fun _ => ⟨_, rfl⟩⟩

/-- a run with history (hypotheses of C53 and C47 are met): one accepted step, one group with one entry per quantity -/
theorem demo_recorded : ∃ st', minimize ((demoEnv (1 / 100000000) (fin 0) (fin 0)).recording true) 1 (v1 1) "run" .hessStr demoSt0 = .ok st' ∧
    st'.iteration = 1 ∧ st'.x = v1 0 ∧ st'.file = [("run", st'.history)] ∧ Complete st'.history 1 ∧
    entries st'.history "fval" = [.num (fin 0)] := by
  obtain ⟨s, h, h1, h2, h3, h4, h5⟩ := demo_ok
  have hhist : (demoEnv (1 / 100000000) (fin 0) (fin 0)).opts.history = false := by
    show (resolveOpts [] : Opts Num).history = _; rw [demo_opts]
  obtain ⟨g, hg⟩ := C53_same_return _ _ _ _ demoSt0 (demo_quiet _ _ _) hhist (by intro p hp; cases hp) 1 s h
  obtain ⟨g', hf, hc, hgg, _⟩ := C47_complete _ _ _ _ demoSt0 rfl 1 _ hg
  obtain ⟨l, first, he, hl, hv⟩ := C47_fval _ _ _ _ demoSt0 rfl 1 _ hg
  refine ⟨_, hg, h3, h4, rfl, ?_, ?_⟩
  · have := hc
    rw [hgg] at this
    have h3' : s.iteration = 1 := h3
    show Complete g 1
    rw [← h3']
    exact this
  · obtain ⟨st2, hm, _, _, _, hx, _, step, k, next, cur', hp, rfl⟩ := demo_run_gen (1 / 100000000) 0 0 .gtol
      (demo_gtol _ _ _ (by norm_num) (by norm_num [abs_of_neg])) demoSt0 rfl 0
    have hs : s = st2 := by rw [h] at hm; cases hm; rfl
    subst hs
    have he2 := hp.evaluated
    simp only at he
    rw [he2] at he
    have hl' : l.length = 1 := by rw [hl]; exact h3
    match l, hl', he with
    | [r], _, he =>
      have hr : r.out = .ok (demoTrial (fin 0) (fin 0) k) := by
        have := (List.cons.inj he).1
        rw [← this]
      have : (entries g "fval").map some = [some (HVal.num (fin 0 : Num))] := by
        refine hv.trans ?_
        simp [outVal, hr, demoTrial]
      match hq : entries g "fval", this with
      | [a], hh => 
        simp only [List.map_cons, List.map_nil] at hh
        cases hh
        rfl

end
end Fides
