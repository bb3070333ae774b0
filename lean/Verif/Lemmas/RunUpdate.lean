import Verif.Lemmas.Pass

/-! Helper lemmas: how the Hessian approximation changes in one pass, and that it always is the Hessian in use. -/

namespace Fides
open Spec
variable {F : Type} [FloatOps F] {n : ℕ}

theorem updateHapp_congr (s t : St F n) (g : Happ F n) (step : Step F n) (new old : Funout F n)
    (h1 : s.grad = t.grad) (h2 : s.iterSinceTr = t.iterSinceTr) (h3 : s.nIntermediate = t.nIntermediate)
    (h4 : s.iteration = t.iteration) : updateHapp s g step new old = updateHapp t g step new old := by
  unfold updateHapp
  rw [h1, h2, h3, h4]

/-- what an accepted pass does to the Hessian and to the approximation object -/
theorem pass_update (E : Env F n) (prev next : St F n) (cur cur' new : Funout F n) (step : Step F n)
    (h : Pass E prev cur step new next cur') (hacc : (radiusStep E prev step new).1 = true) :
    (∃ g g', prev.happ = some g ∧ updateHapp { next with grad := prev.grad } g step new cur = .ok g' ∧
      next.happ = some g' ∧ next.hess = g'.getMat) ∨
    (prev.happ = none ∧ next.happ = none ∧ new.hess = some next.hess) := by
  have hp := pass_facts E prev cur step new next cur' h
  obtain ⟨step', new', hist, hfin0, htr, hout, hnx, hnxi, hfin, hcase⟩ := iterate_ok E _ next cur cur' h.body
  have hs : step' = step := by
    have h1 : E.tr prev.proposals (trInput E { prev with iteration := prev.iteration + 1, deltaIter := prev.delta,
                                                         ticks := prev.ticks + 1 }) = .ok step' := htr
    rw [h.proposal] at h1
    cases h1; rfl
  subst hs
  obtain ⟨r, d, i, m, ef, c, mx, mxi, mf, mg, hpf⟩ := postCheck_frame E { prev with ticks := prev.ticks + 1 } step' new'
  have hr := radiusStep_ticks E prev (prev.ticks + 1) step' new'
  rcases hcase with ⟨hacc', rfl, st4, hu, -, rfl⟩ | ⟨hacc', rfl, -, rfl⟩
  · have hn : cur' = new := by
      rcases hp.cases with ⟨_, h1, _⟩ | ⟨h1, _⟩
      · exact h1
      · rw [hacc] at h1; cases h1
    subst hn
    obtain ⟨hbd, happ, hess, hhap, rfl⟩ := update_ok E step' _ cur _ st4 hu
    have hprev : (postCheck E { prev with ticks := prev.ticks + 1 } step' cur').happ = prev.happ := by rw [hpf]; rfl
    have hgrad : (postCheck E { prev with ticks := prev.ticks + 1 } step' cur').grad = prev.grad := by rw [hpf]; rfl
    rw [hprev] at hhap
    rcases hhap with ⟨g, g', h1, h2, h3, h4⟩ | ⟨h1, h2, h3⟩
    · left
      refine ⟨g, g', h1, ?_, h3, h4⟩
      rw [← h2]
      refine updateHapp_congr _ _ _ _ _ _ hgrad.symm rfl rfl rfl
    · right
      exact ⟨h1, h2, h3⟩
  · exfalso
    have hev : (postCheck E { prev with ticks := prev.ticks + 1 } step' new').evals =
        { arg := trialPoint prev step', out := .ok new' } :: prev.evals := by rw [hpf]; rfl
    have h1 := h.evaluated
    have h2 : { arg := trialPoint prev step', out := .ok new' } :: prev.evals =
        { arg := vadd (vadd prev.x step'.s) step'.s0, out := .ok new } :: prev.evals := hev.symm.trans h1
    simp only [List.cons.injEq, EvalRec.mk.injEq, Except.ok.injEq, and_true] at h2
    have h3 := h2.2
    subst h3
    rw [hr] at hacc'
    rw [hacc] at hacc'
    cases hacc'

variable (E : Env F n) (x0 : Vec F n) (startId : String) (hess0 : Hess0 F) (st0 : St F n)

/-- the Hessian in use is the one the approximation object reports -/
theorem head_hess (k : ℕ) (st : St F n) (cur : Funout F n) (h : LoopHead E x0 startId hess0 st0 k st cur) (g : Happ F n)
    (hg : st.happ = some g) : st.hess = g.getMat := by
  induction k generalizing st cur g with
  | zero =>
    cases h with
    | start s _ _ hb hs =>
      obtain ⟨raw, happ, _, h2, _, h4, _, _, _, h8⟩ := setup_ok _ _ _ _ _ hs
      have e1 : st.happ = happ := by
        obtain ⟨a, b, c, d, hf⟩ := setupState_frame s cur happ
        rw [h8]; show (setupState s cur happ).happ = _; rw [hf]
      rw [e1] at hg
      subst hg
      obtain ⟨a, b, c, d, hf⟩ := setupState_frame s cur (some g)
      rw [h8]; show (setupState s cur (some g)).hess = _; rw [hf]
  | succ k ih =>
    obtain ⟨prev, cur0, step, new, hh, hp⟩ := loopHead_pass E x0 startId hess0 st0 k st cur h
    have hf := pass_facts E _ _ _ _ _ _ hp
    rcases hf.cases with ⟨hacc, _⟩ | ⟨_, _, _, _, _, h5, h6⟩
    · rcases pass_update E prev st cur0 cur new step hp hacc with ⟨g0, g', _, _, h3, h4⟩ | ⟨_, h2, _⟩
      · rw [hg] at h3; cases h3; exact h4
      · rw [hg] at h2; cases h2
    · rw [h5]
      rw [h6] at hg
      exact ih prev cur0 hh g hg

end Fides
