import Verif.Lemmas.HybridDemo

/-!
# C18: runs are independent
-/

set_option linter.unusedSectionVars false

namespace Fides
open Spec
variable {F : Type} [FloatOps F] [LawfulFloat F] {n : ℕ}

theorem anonymous_shE (d : ℕ) (r : EvalRec F n) : anonymous (shE d r) = anonymous r := by
  unfold anonymous shE shF
  cases r.out with
  | error e => rfl
  | ok fo => rfl

theorem sameResult_sh (b : St F n) (d : ℕ) (t : F) (s : St F n) : SameResult b s (sh b d t s.exitflag s) := by
  refine ⟨rfl, rfl, rfl, rfl, rfl, rfl, rfl, rfl, rfl, rfl, rfl, rfl, rfl, rfl, ?_⟩
  show (s.evals.map (shE d) ++ b.evals).map anonymous = _
  rw [List.map_append, List.map_map]
  congr 1
  apply List.map_congr_left
  intro r _
  exact anonymous_shE d r

/-- re-initialising gives the same object -/
def SameCfg (h h' : Option (Happ F n)) : Prop := ∀ m, h.map (fun g => g.initMat m) = h'.map (fun g => g.initMat m)

theorem SameCfg.refl (h : Option (Happ F n)) : SameCfg h h := fun _ => rfl
theorem SameCfg.trans {a b c : Option (Happ F n)} (h1 : SameCfg a b) (h2 : SameCfg b c) : SameCfg a c := fun m => (h1 m).trans (h2 m)

theorem initMat_cfg (h : Happ F n) (m : Option (Mat F n n)) : SameCfg (some (h.initMat m)) (some h) := by
  intro k
  cases h <;> rfl

theorem initialHapp_cfg (h h' : Option (Happ F n)) (h0 : Hess0 F) (raw : RawOut F) (hi : initialHapp h h0 raw = .ok h') :
    SameCfg h' h := by
  unfold initialHapp at hi
  split at hi
  · split at hi
    · cases hi
    · rename_i h1 g hg
      cases hi
      unfold initHapp at hg
      split at hg
      · cases hg
      · split at hg
        · cases hg; exact initMat_cfg _ _
        · split at hg
          · cases hg; exact initMat_cfg _ _
          · cases hg
  · split at hi
    · cases hi
    · cases hi; exact SameCfg.refl _

theorem iter_update_scheme (h : IterApprox F n) (s y : Vec F n) : (h.update s y).scheme = h.scheme := by
  unfold IterApprox.update
  split
  · simp only; split <;> rfl
  · rfl

theorem updateHapp_cfg (st : St F n) (h h' : Happ F n) (step : Step F n) (new old : Funout F n) (hs : ¬ hasSwitch h)
    (hu : updateHapp st h step new old = .ok h') : SameCfg (some h') (some h) ∧ ¬ hasSwitch h' := by
  unfold updateHapp at hu
  simp only at hu
  split at hu
  · cases hu
    refine ⟨fun m => ?_, fun h => h⟩
    simp only [Option.map, Happ.initMat, IterApprox.initMat, iter_update_scheme]
  · exact absurd trivial hs
  · exact absurd trivial hs
  · split at hu
    · split at hu
      · cases hu
      · cases hu
        refine ⟨fun m => ?_, fun h => h⟩
        simp only [Option.map, Happ.initMat, Hybrid.initMat, Hybrid.updateFX, IterApprox.initMat]
        split
        · rfl
        · simp only [iter_update_scheme]
    · cases hu
  · split at hu
    · split at hu
      · cases hu
      · cases hu
        exact ⟨fun m => rfl, fun h => h⟩
    · cases hu
  · split at hu
    · split at hu
      · cases hu
      · cases hu
        exact ⟨fun m => rfl, fun h => h⟩
    · cases hu
  · split at hu
    · split at hu
      · cases hu
      · cases hu
        refine ⟨fun m => ?_, fun h => h⟩
        simp only [Option.map, Happ.initMat, Structured.initMat, Structured.updateGNSBFGS]
        split <;> rfl
    · cases hu
  · cases hu

/-- what a run keeps: the configuration of the approximation, and array identities are positive -/
def Keeps (happ0 : Option (Happ F n)) (st : St F n) : Prop :=
  SameCfg st.happ happ0 ∧ (∀ h, st.happ = some h → ¬ hasSwitch h) ∧ 1 ≤ st.nextId

theorem hasSwitch_initMat (h : Happ F n) (m : Option (Mat F n n)) : hasSwitch (h.initMat m) ↔ hasSwitch h := by
  cases h <;> exact Iff.rfl

theorem hasSwitch_cfg (h h' : Happ F n) (hc : SameCfg (some h) (some h')) : hasSwitch h ↔ hasSwitch h' := by
  have := hc none
  simp only [Option.map, Option.some.injEq] at this
  rw [← hasSwitch_initMat h none, this, hasSwitch_initMat]

theorem keeps_of_cfg {happ0 : Option (Happ F n)} {st : St F n} (h1 : SameCfg st.happ happ0) (h0 : ∀ h, happ0 = some h → ¬ hasSwitch h)
    (hn : 1 ≤ st.nextId) : Keeps happ0 st := by
  refine ⟨h1, ?_, hn⟩
  intro h hh
  cases happ0 with
  | none => rw [hh] at h1; have := h1 none; cases this
  | some g =>
    rw [hh] at h1
    rw [hasSwitch_cfg h g h1]
    exact h0 g rfl

section
variable (E : Env F n) (happ0 : Option (Happ F n)) (h0 : ∀ h, happ0 = some h → ¬ hasSwitch h)
include h0

theorem keeps_afterEval (st : St F n) (step : Step F n) (o : Except PyErr (Funout F n)) (h : Keeps happ0 st) : Keeps happ0 (afterEval st step o) :=
  ⟨h.1, h.2.1, Nat.le_succ_of_le h.2.2⟩

theorem keeps_postCheck (st : St F n) (step : Step F n) (new : Funout F n) (h : Keeps happ0 st) : Keeps happ0 (postCheck E st step new) := by
  obtain ⟨a1, a2, a3, a4, a5, a6, a7, a8, a9, a10, hp⟩ := postCheck_frame E st step new
  rw [hp]
  exact ⟨h.1, h.2.1, Nat.le_succ_of_le h.2.2⟩

theorem keeps_update (step : Step F n) (new old : Funout F n) (st st' : St F n) (h : Keeps happ0 st)
    (hu : update E step new old st = .ok st' ∨ ∃ e, update E step new old st = .error (e, st')) : Keeps happ0 st' := by
  have key : ∀ st1, ((∃ h h', st.happ = some h ∧ updateHapp st h step new old = .ok h' ∧
      st1.happ = some h') ∨ st1.happ = st.happ) → 1 ≤ st1.nextId → Keeps happ0 st1 := by
    intro st1 hc hn
    rcases hc with ⟨g, g', h1, h2, h3⟩ | hc
    · have := updateHapp_cfg st g g' step new old (h.2.1 g h1) h2
      refine keeps_of_cfg ?_ h0 hn
      rw [h3]
      refine this.1.trans ?_
      rw [← h1]; exact h.1
    · refine keeps_of_cfg ?_ h0 hn
      rw [hc]; exact h.1
  unfold update at hu
  simp only [checkInBounds] at hu
  cases hh : st.happ with
  | none =>
    rw [hh] at hu
    simp only at hu
    cases hm : new.hess with
    | none =>
      rw [hm] at hu
      simp only at hu
      rcases hu with hu | ⟨e, hu⟩
      · cases hu
      · cases hu; exact h
    | some m =>
      rw [hm] at hu
      simp only at hu
      by_cases hb : inBounds E.lb E.ub new.x = true
      · simp only [hb, if_true] at hu
        rcases hu with hu | ⟨e, hu⟩
        · cases hu
          exact key _ (Or.inr hh.symm) h.2.2
        · cases hu
      · simp only [hb, Bool.false_eq_true, if_false] at hu
        rcases hu with hu | ⟨e, hu⟩
        · cases hu
        · cases hu
          exact key _ (Or.inr hh.symm) h.2.2
  | some g =>
    rw [hh] at hu
    simp only at hu
    cases hm : updateHapp st g step new old with
    | error er =>
      rw [hm] at hu
      simp only at hu
      rcases hu with hu | ⟨e, hu⟩
      · cases hu
      · cases hu; exact h
    | ok g' =>
      rw [hm] at hu
      simp only at hu
      by_cases hb : inBounds E.lb E.ub new.x = true
      · simp only [hb, if_true] at hu
        rcases hu with hu | ⟨e, hu⟩
        · cases hu
          exact key _ (Or.inl ⟨g, g', hh, hm, rfl⟩) h.2.2
        · cases hu
      · simp only [hb, Bool.false_eq_true, if_false] at hu
        rcases hu with hu | ⟨e, hu⟩
        · cases hu
        · cases hu
          exact key _ (Or.inl ⟨g, g', hh, hm, rfl⟩) h.2.2

theorem keeps_iterate (st st' : St F n) (old old' : Funout F n) (h : Keeps happ0 st) (hi : iterate E st old = .ok (st', old')) :
    Keeps happ0 st' := by
  obtain ⟨step, new, hist, _, _, _, _, _, _, hc⟩ := iterate_ok E st st' old old' hi
  rcases hc with ⟨_, _, st4, hu, _, rfl⟩ | ⟨_, _, _, rfl⟩
  · have := keeps_update E happ0 h0 step new old _ st4 (keeps_postCheck E happ0 h0 st step new h) (Or.inl hu)
    exact this
  · exact keeps_postCheck E happ0 h0 st step new h

theorem keeps_iterate_error (st st' : St F n) (old : Funout F n) (e : PyErr) (h : Keeps happ0 st) (hi : iterate E st old = .error (e, st')) :
    Keeps happ0 st' := by
  rcases iterate_error E st st' old e hi with ⟨_, _, rfl⟩ | ⟨_, ⟨_, rfl⟩ | ⟨step, _, ⟨_, rfl⟩ | ⟨new, _, _, _, ⟨_, _, _, rfl⟩ |
    ⟨_, ⟨_, hu⟩ | ⟨_, hu, _⟩ | ⟨_, rfl, _⟩⟩⟩⟩⟩
  · exact h
  · exact h
  · exact keeps_afterEval happ0 h0 st step _ h
  · exact keeps_afterEval happ0 h0 st step (.ok new) h
  · exact keeps_update E happ0 h0 step new old _ st' (keeps_postCheck E happ0 h0 st step new h) (Or.inr ⟨e, hu⟩)
  · exact keeps_update E happ0 h0 step new old _ st' (keeps_postCheck E happ0 h0 st step new h) (Or.inl hu)
  · exact keeps_postCheck E happ0 h0 st step new h

theorem keeps_setupState (st : St F n) (fo : Funout F n) (happ : Option (Happ F n)) (h : Keeps happ0 st) (hc : SameCfg happ happ0) :
    Keeps happ0 (setupState st fo happ) := by
  obtain ⟨x, i, f, g, hs⟩ := setupState_frame st fo happ
  rw [hs]
  exact keeps_of_cfg hc h0 h.2.2

theorem keeps_setup_error (hess0 : Hess0 F) (st st' : St F n) (e : PyErr) (h : Keeps happ0 st)
    (hs : setup E hess0 st = .error (e, st')) : Keeps happ0 st' := by
  unfold setup at hs
  simp only at hs
  split at hs
  · cases hs; exact h
  · rename_i raw hraw
    split at hs
    · cases hs; exact h
    · rename_i happ hh
      split at hs
      · cases hs; exact h
      · split at hs
        · cases hs; exact h
        · rename_i fo hty
          split at hs
          · rename_i hc
            unfold checkFinite at hc
            split at hc
            · cases hc
            · cases hc; cases hs
              exact keeps_setupState happ0 h0 st fo happ h ((initialHapp_cfg _ _ _ _ hh).trans h.1)
          · cases hs

theorem keeps_head (x0 : Vec F n) (startId : String) (hess0 : Hess0 F) (st0 : St F n) (k : ℕ) (st : St F n) (cur : Funout F n)
    (hk : Keeps happ0 st0) (h : LoopHead E x0 startId hess0 st0 k st cur) : Keeps happ0 st := by
  induction h with
  | start st1 st cur hb hs =>
    obtain ⟨rfl, _⟩ := checkInBounds_ok _ _ _ _ hb
    obtain ⟨raw, happ, _, hh, _, _, _, _, _, rfl⟩ := setup_ok _ _ _ _ _ hs
    have hst : Keeps happ0 (startState E x0 startId st0) := ⟨hk.1, hk.2.1, Nat.le_add_left 1 _⟩
    exact keeps_setupState happ0 h0 _ cur happ hst ((initialHapp_cfg _ _ _ _ hh).trans hk.1)
  | next k st st1 st2 cur cur2 _ hc hi ih =>
    refine keeps_iterate E happ0 h0 st1 st2 cur cur2 ?_ hi
    obtain ⟨rfl, _⟩ := checkContinue_true _ _ _ hc
    exact ih

theorem keeps_run (x0 : Vec F n) (startId : String) (hess0 : Hess0 F) (st0 : St F n) (fuel : ℕ) (hk : Keeps happ0 st0) :
    Keeps happ0 (finalState (minimize E fuel x0 startId hess0 st0)) := by
  have hcf : ∀ st st' : St F n, Keeps happ0 st → checkContinue E st = (false, st') → Keeps happ0 st' := by
    intro st st' h hc
    unfold checkContinue at hc
    simp only at hc
    repeat' split at hc
    all_goals cases hc
    all_goals exact h
  have hwr : ∀ st : St F n, Keeps happ0 st → Keeps happ0 (finalState (writeHistory E st)) := by
    intro st h
    unfold writeHistory
    split
    · split <;> exact h
    · exact h
  cases hm : minimize E fuel x0 startId hess0 st0 with
  | ok st' =>
    obtain ⟨_, k, st1, cur, st2, _, h1, h2, h3⟩ := minimize_ok E x0 startId hess0 st0 fuel st' hm
    have := hwr st2 (hcf st1 st2 (keeps_head E happ0 h0 x0 startId hess0 st0 k st1 cur hk h1) h2)
    rw [h3] at this
    exact this
  | error x =>
    obtain ⟨e, st'⟩ := x
    by_cases hn : n = 0
    · unfold minimize at hm
      simp only [hn, if_true] at hm
      cases hm
      exact ⟨hk.1, hk.2.1, Nat.le_add_left 1 _⟩
    · rcases minimize_error E x0 startId hess0 st0 fuel st' e hm with ⟨h, _⟩ | h | ⟨st1, h1, h2⟩ | ⟨k, st1, cur, st2, h1, h2, h3⟩ |
        ⟨k, st1, cur, st2, h1, h2, h3⟩
      · exact absurd h hn
      · unfold checkInBounds at h
        split at h
        · cases h
        · cases h
          exact ⟨hk.1, hk.2.1, Nat.le_add_left 1 _⟩
      · obtain ⟨rfl, _⟩ := checkInBounds_ok _ _ _ _ h1
        exact keeps_setup_error E happ0 h0 hess0 (startState E x0 startId st0) st' e ⟨hk.1, hk.2.1, Nat.le_add_left 1 _⟩ h2
      · have hst2 : Keeps happ0 st2 := by
          obtain ⟨rfl, _⟩ := checkContinue_true _ _ _ h2
          exact keeps_head E happ0 h0 x0 startId hess0 st0 k st1 cur hk h1
        rcases h3 with ⟨_, rfl, _⟩ | h3
        · exact hst2
        · exact keeps_iterate_error E happ0 h0 st2 st' cur e hst2 h3
      · have := hwr st2 (hcf st1 st2 (keeps_head E happ0 h0 x0 startId hess0 st0 k st1 cur hk h1) h2)
        rw [h3] at this
        exact this

end

/-- C18: on an optimizer that was used for any number of runs before (which may have raised), `minimize` does the
same as on a new optimizer with the same configuration, for every scheme without switch (no approximation, BFGS, DFP, Broyden, SR1, BG,
BB, FX, SSM, TSSM, GNSBFGS): the same returned tuple, attributes and calls of the objective, or the same exception.
The objective, the clock and the proposals are compared from the current call on.  With a history file the name
of the run must be new, see C47. -/
theorem C18_independent (E : Env F n) (happ0 : Option (Happ F n)) (b : St F n) (hb : Used E happ0 b)
    (hsw : ∀ h, happ0 = some h → ¬ hasSwitch h) (fuel : ℕ) (x0 : Vec F n) (startId : String) (hess0 : Hess0 F)
    (hfile : ∀ g ∈ b.file, g.1 ≠ startId) :
    (∀ s, minimize (E.after b) fuel x0 startId hess0 (St.new E.opts happ0) = .ok s →
      ∃ s', minimize E fuel x0 startId hess0 b = .ok s' ∧ SameResult b s s') ∧
    ∀ e s, minimize (E.after b) fuel x0 startId hess0 (St.new E.opts happ0) = .error (e, s) →
      ∃ s', minimize E fuel x0 startId hess0 b = .error (e, s') := by
  have hk : Keeps happ0 b := by
    clear hfile
    induction hb with
    | new => exact keeps_of_cfg (SameCfg.refl _) hsw (le_refl 1)
    | run st fuel x0 startId hess0 _ ih => exact keeps_run E happ0 hsw x0 startId hess0 st fuel ih
  obtain ⟨d, hd⟩ := Nat.exists_eq_add_of_le hk.2.2
  obtain ⟨h1, h2⟩ := minimize_sh E b d fuel x0 startId hess0 happ0 hd hk.1 hfile
  refine ⟨?_, h2⟩
  intro s hs
  obtain ⟨t, ht⟩ := h1 s hs
  exact ⟨_, ht, sameResult_sh b d t s⟩

/-- C18, the schemes with a switch: what matters is the switch alone.  While the switch of `HybridFixed`/`HybridFraction` has the
value it had at construction, they are independent of earlier runs as well. -/
theorem C18_switch (E : Env F n) (happ0 : Option (Happ F n)) (b : St F n) (hid : 1 ≤ b.nextId)
    (hc : ∀ m, b.happ.map (fun g => g.initMat m) = happ0.map (fun g => g.initMat m)) (fuel : ℕ) (x0 : Vec F n) (startId : String)
    (hess0 : Hess0 F) (hfile : ∀ g ∈ b.file, g.1 ≠ startId) :
    (∀ s, minimize (E.after b) fuel x0 startId hess0 (St.new E.opts happ0) = .ok s →
      ∃ s', minimize E fuel x0 startId hess0 b = .ok s' ∧ SameResult b s s') ∧
    ∀ e s, minimize (E.after b) fuel x0 startId hess0 (St.new E.opts happ0) = .error (e, s) →
      ∃ s', minimize E fuel x0 startId hess0 b = .error (e, s') := by
  obtain ⟨d, hd⟩ := Nat.exists_eq_add_of_le hid
  obtain ⟨h1, h2⟩ := minimize_sh E b d fuel x0 startId hess0 happ0 hd hc hfile
  refine ⟨?_, h2⟩
  intro s hs
  obtain ⟨t, ht⟩ := h1 s hs
  exact ⟨_, ht, sameResult_sh b d t s⟩

section
open Num

/-- the hypotheses of C18 are met by an optimizer that completed a run -/
example : ∃ b, Used hybEnv none b ∧ b.iteration = 1 ∧ b.file = [] := by
  obtain ⟨st', h, _, _, h3, _, _, _⟩ := demo_run_gen 1 0 (-1) .ftol
    (demo_ftol 1 0 (-1) (by norm_num) (by norm_num [abs_of_neg])) (St.new hybEnv.opts none) rfl 0
  refine ⟨st', ?_, h3, ?_⟩
  · have hu := Used.run (E := hybEnv) (happ0 := none) _ 1 (v1 1) "run" .hessStr Used.new
    have h' : minimize hybEnv 1 (v1 1) "run" .hessStr (St.new hybEnv.opts none) = .ok st' := h
    rw [h'] at hu
    exact hu
  · obtain ⟨_, k, st1, cur, st2, _, h1, h2, h4⟩ := minimize_ok _ _ _ _ _ _ _ h
    have hf := (headInv _ _ _ _ _ _ _ _ h1).file
    have hhist : hybEnv.opts.history = false := by show (resolveOpts [] : Opts Num).history = _; rw [demo_opts]
    have h4' : writeHistory hybEnv st2 = .ok st' := h4
    unfold writeHistory at h4'
    rw [hhist] at h4'
    simp only [Bool.false_eq_true, if_false] at h4'
    cases h4'
    unfold checkContinue at h2
    simp only at h2
    repeat' split at h2
    all_goals cases h2
    all_goals exact hf

/-- C18 fails for `HybridFixed`: after one run its switch stays set, and a second run with the same arguments and the
same deterministic objective returns another Hessian than the same run on a new optimizer. -/
theorem C18_hybrid_counterexample : ∃ (E : Env Num 1) (happ0 : Happ Num 1) (b s s' : St Num 1),
    happ0 = .hybridFixed 0 false (.new .bfgs) ∧ (∀ b, E.after b = E) ∧
    minimize E 1 (v1 1) "run" (.val .none) (St.new E.opts (some happ0)) = .ok b ∧ Used E (some happ0) b ∧
    minimize (E.after b) 1 (v1 1) "run" (.val .none) (St.new E.opts (some happ0)) = .ok s ∧
    minimize E 1 (v1 1) "run" (.val .none) b = .ok s' ∧
    s.hess = (fun _ _ => fin 1) ∧ s'.hess = (fun _ _ => fin 2) := by
  obtain ⟨b, hb, hb1, h', hb2, hb3⟩ := hyb_run (St.new hybEnv.opts (some (.hybridFixed 0 false (.new .bfgs)))) false (.new .bfgs) rfl rfl
  obtain ⟨s', hs, hs1, _⟩ := hyb_run b true h' hb2 hb3
  refine ⟨hybEnv, _, b, b, s', rfl, fun _ => rfl, hb, ?_, hb, hs, hb1, hs1⟩
  have hu := Used.run (E := hybEnv) (happ0 := some (.hybridFixed 0 false (.new .bfgs))) _ 1 (v1 1) "run" (.val .none) Used.new
  rw [hb] at hu
  exact hu

end

end Fides
