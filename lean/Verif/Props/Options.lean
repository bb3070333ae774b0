import Verif.Spec.Config
import Verif.Spec.Run
import Verif.Lemmas.Demo
import Verif.Lemmas.Calls
import Mathlib.Tactic

/-!
# Option validation and the checks at construction (C45, C46)
-/

namespace Fides
open Spec

theorem value_doc (k : OptKey) : k.value = docName k := by cases k <;> rfl

theorem value_inj (a b : OptKey) (h : a.value = b.value) : a = b := by
  cases a <;> cases b <;> first | rfl | (exact absurd h (by decide))

theorem lookup_iff (key : RawKey) (k : OptKey) : lookupKey key = some k ↔ Names key k := by
  cases key with
  | member k' => simp [lookupKey, Names]
  | other => simp [lookupKey, Names]
  | str s =>
    simp only [lookupKey, Names, ← value_doc]
    constructor
    · intro h
      have := List.find?_some h
      simpa using (of_decide_eq_true this).symm
    · rintro rfl
      cases k <;> decide

theorem names_unique (key : RawKey) (k k' : OptKey) (h : Names key k) (h' : Names key k') : k = k' := by
  rw [← lookup_iff] at h h'
  rw [h] at h'
  cases h'; rfl

theorem intEq_real (q : ℚ) : intEq (.real q) = .ok true ↔ ∃ z : ℤ, q = z := by
  simp only [intEq, Except.ok.injEq, decide_eq_true_eq]
  constructor
  · intro h
    have hd : (q.den : ℤ) ∣ q.num := ⟨q.num / (q.den : ℤ), by rw [mul_comm]; exact h.symm⟩
    have h1 : q.den ∣ q.num.natAbs := Int.natCast_dvd.mp hd
    have h2 : q.den = 1 := q.reduced.symm.eq_one_of_dvd h1
    exact ⟨q.num, (Rat.den_eq_one_iff q).mp h2 |>.symm⟩
  · rintro ⟨z, rfl⟩
    simp

/-- the type test (constants.py:137-145) accepts a value -/
def typeTest (k : OptKey) (v : RawVal) : Bool :=
  isInstance v (expectedType k) || (decide (expectedType k = .integral) && decide (intEq v = .ok true))

theorem intEq_text (v : RawVal) (h : intEq v = .ok true) : (∃ z, v = .int z) ∨ ∃ q, v = .real q := by
  cases v with
  | int z => exact Or.inl ⟨z, rfl⟩
  | real q => exact Or.inr ⟨q, rfl⟩
  | str s =>
    simp only [intEq] at h
    split at h <;> cases h
  | _ => cases h

theorem typeTest_iff (k : OptKey) (v : RawVal) : typeTest k v = true ↔
    if k = .subspaceDim ∨ k = .stepbackStrat then IsText v else Documented k v := by
  unfold typeTest
  cases k
  case maxiter =>
    simp only [expectedType, decide_true, Bool.true_and, Bool.or_eq_true, decide_eq_true_eq, reduceCtorEq, or_self, if_false, Documented]
    constructor
    · rintro (h | h)
      · cases v <;> first | exact Or.inl ⟨_, rfl⟩ | cases h
      · rcases intEq_text v h with ⟨z, rfl⟩ | ⟨q, rfl⟩
        · exact Or.inl ⟨z, rfl⟩
        · obtain ⟨z, rfl⟩ := (intEq_real q).mp h
          exact Or.inr ⟨z, rfl⟩
    · rintro (⟨z, rfl⟩ | ⟨z, rfl⟩)
      · exact Or.inl rfl
      · exact Or.inr ((intEq_real _).mpr ⟨z, rfl⟩)
  all_goals
    cases v <;> simp [expectedType, isInstance, Documented, IsText]

theorem subspace_text (s : String) : SubSpaceDim.ofString s ≠ .other ↔ s = "2D" ∨ s = "full" ∨ s = "scg" := by
  unfold SubSpaceDim.ofString
  split_ifs <;> simp_all

theorem stepback_text (s : String) : StepBackStrategy.ofString s ≠ .other ↔
    s = "reflect_single" ∨ s = "reflect" ∨ s = "truncate" ∨ s = "mixed" ∨ s = "refine" := by
  unfold StepBackStrategy.ofString
  split_ifs <;> simp_all

/-- the conversion of the value (constants.py:131-135) -/
def converted (key : RawKey) (v : RawVal) : Except PyErr RawVal :=
  if key = .member .subspaceDim then asSubspace v else if key = .member .stepbackStrat then asStepback v else .ok v

theorem validateEntry_eq (key : RawKey) (v : RawVal) (k : OptKey) (hk : Names key k) :
    (validateEntry key v = .ok () ↔ ∃ v', converted key v = .ok v' ∧ typeTest k v' = true) := by
  have hl := (lookup_iff key k).mpr hk
  unfold validateEntry converted typeTest
  rw [hl]
  simp only
  have fin : ∀ v', (if isInstance v' (expectedType k) = true then (Except.ok () : Except PyErr Unit)
      else if expectedType k = .integral then
        match intEq v' with
        | .error e => .error e
        | .ok true => .ok ()
        | .ok false => .error .typeError
      else .error .typeError) = .ok () ↔
      (isInstance v' (expectedType k) || (decide (expectedType k = .integral) && decide (intEq v' = .ok true))) = true := by
    intro v'
    by_cases h1 : isInstance v' (expectedType k) = true
    · simp [h1]
    · by_cases h2 : expectedType k = .integral
      · simp only [h1, h2, if_false, if_true, decide_true, Bool.true_and, Bool.false_eq_true, decide_eq_true_eq, Bool.or_eq_true]
        cases h3 : intEq v' with
        | error e => simp; first | done | (rw [h2] at h1; simpa using h1)
        | ok b => cases b <;> simp <;> (try (rw [h2] at h1; simpa using h1))
      · simp [h1, h2]
  by_cases hs : key = .member .subspaceDim
  · subst hs
    simp only [if_true, RawKey.member.injEq, reduceCtorEq, if_false]
    cases ha : asSubspace v with
    | error e => simp
    | ok v' =>
      simp only [Except.ok.injEq, exists_eq_left']
      exact fin v'
  · simp only [hs, if_false]
    by_cases ht : key = .member .stepbackStrat
    · subst ht
      simp only [if_true]
      cases ha : asStepback v with
      | error e => simp
      | ok v' =>
        simp only [Except.ok.injEq, exists_eq_left']
        exact fin v'
    · simp only [ht, if_false, Except.ok.injEq, exists_eq_left']
      exact fin v

/-- one entry -/
theorem entry_accepted (key : RawKey) (v : RawVal) : validateEntry key v = .ok () ↔ Accepted (key, v) := by
  by_cases hn : ∃ k, Names key k
  · obtain ⟨k, hk⟩ := hn
    rw [validateEntry_eq key v k hk]
    have hu : Accepted (key, v) ↔ (Documented k v ∨ (key = .str (docName k) ∧ (k = .subspaceDim ∨ k = .stepbackStrat) ∧ IsText v)) := by
      unfold Accepted
      constructor
      · rintro ⟨k', h1, h2⟩
        have := names_unique key k k' hk h1
        subst this
        exact h2
      · exact fun h => ⟨k, hk, h⟩
    rw [hu]
    unfold converted
    cases key with
    | other => exact absurd hk id
    | str s =>
      have hk' : s = docName k := hk
      simp only [reduceCtorEq, if_false, Except.ok.injEq, exists_eq_left', typeTest_iff, hk', true_and]
      constructor
      · intro h
        split_ifs at h with hc
        · exact Or.inr ⟨hc, h⟩
        · exact Or.inl h
      · rintro (h | ⟨hc, h⟩)
        · split_ifs with hc
          · rcases hc with rfl | rfl
            · rcases h with h | h | h | h | h | h <;> subst h <;> simp [IsText]
            · rcases h with h | h | h | h | h | h | h | h | h | h <;> subst h <;> simp [IsText]
          · exact h
        · rw [if_pos hc]; exact h
    | member k' =>
      have hk' : k' = k := hk
      subst hk'
      simp only [RawKey.member.injEq, reduceCtorEq, false_and, or_false]
      by_cases h1 : k' = .subspaceDim
      · subst h1
        simp only [if_true, typeTest_iff, true_or]
        cases v with
        | subspace d => cases d <;> simp [asSubspace, IsText, Documented]
        | str s =>
          simp only [asSubspace, Documented]
          by_cases ho : SubSpaceDim.ofString s = .other
          · simp only [ho, if_true, reduceCtorEq, false_and, exists_false, false_iff, RawVal.str.injEq, false_or, not_or]
            have := mt (subspace_text s).mpr (not_not.mpr ho)
            simpa using this
          · have := (subspace_text s).mp ho
            simp [ho, IsText, this]
        | _ => simp [asSubspace, Documented]
      · by_cases h2 : k' = .stepbackStrat
        · subst h2
          simp only [reduceCtorEq, if_false, if_true, typeTest_iff, or_true]
          cases v with
          | stepback d => cases d <;> simp [asStepback, IsText, Documented]
          | str s =>
            simp only [asStepback, Documented]
            by_cases ho : StepBackStrategy.ofString s = .other
            · simp only [ho, if_true, reduceCtorEq, false_and, exists_false, false_iff, RawVal.str.injEq, false_or, not_or]
              have := mt (stepback_text s).mpr (not_not.mpr ho)
              simpa using this
            · have := (stepback_text s).mp ho
              simp [ho, IsText, this]
          | _ => simp [asStepback, Documented]
        · simp only [h1, h2, if_false, Except.ok.injEq, exists_eq_left', typeTest_iff, or_self]
  · constructor
    · intro h
      exfalso
      have : lookupKey key = none := by
        cases hl : lookupKey key with
        | none => rfl
        | some k => exact absurd ⟨k, (lookup_iff key k).mp hl⟩ hn
      unfold validateEntry at h
      rw [this] at h
      cases h
    · rintro ⟨k, h, _⟩
      exact absurd ⟨k, h⟩ hn

/-- C45: an options dict is accepted iff every key is a known name and every value is of the documented kind; for the two enum options
any string is accepted when the key is written as a string. -/
theorem C45_exact (options : List (RawKey × RawVal)) : validateOptions options = .ok () ↔ ∀ kv ∈ options, Accepted kv := by
  induction options with
  | nil => simp [validateOptions]
  | cons kv rest ih =>
    obtain ⟨k, v⟩ := kv
    have he := entry_accepted k v
    unfold validateOptions
    cases h : validateEntry k v with
    | error e =>
      rw [h] at he
      simp only [reduceCtorEq, false_iff, List.mem_cons, not_forall]
      refine ⟨(k, v), Or.inl rfl, ?_⟩
      simpa using he
    | ok u =>
      rw [h] at he
      simp only [ih, List.mem_cons, forall_eq_or_imp]
      have : Accepted (k, v) := he.mp rfl
      simp [this]

/-- C45 for keys given as members of `Options`: accepted iff every value is documented. -/
theorem C45_members (options : List (OptKey × RawVal)) :
    validateOptions (options.map fun kv => (.member kv.1, kv.2)) = .ok () ↔ ∀ kv ∈ options, Documented kv.1 kv.2 := by
  rw [C45_exact]
  simp only [List.mem_map, forall_exists_index, and_imp, forall_apply_eq_imp_iff₂, Accepted, Names, reduceCtorEq, false_and,
    or_false, exists_eq_left']

/-- C45: an unknown key raises ValueError. -/
theorem C45_unknown (pre rest : List (RawKey × RawVal)) (key : RawKey) (v : RawVal) (hpre : ∀ kv ∈ pre, Accepted kv)
    (hkey : ∀ k, ¬ Names key k) : validateOptions (pre ++ (key, v) :: rest) = .error .valueError := by
  induction pre with
  | nil =>
    have : lookupKey key = none := by
      cases hl : lookupKey key with
      | none => rfl
      | some k => exact absurd ((lookup_iff key k).mp hl) (hkey k)
    simp [validateOptions, validateEntry, this]
  | cons kv pre ih =>
    have h := (entry_accepted kv.1 kv.2).mpr (hpre kv (by simp))
    simp only [List.cons_append, validateOptions, h]
    exact ih fun kv' h' => hpre kv' (by simp [h'])

/-- C45: a refused dict raises ValueError or TypeError, or OverflowError if `maxiter` is infinite. -/
theorem C45_error (options : List (RawKey × RawVal)) (e : PyErr) (h : validateOptions options = .error e) :
    e = .valueError ∨ e = .typeError ∨
      (e = .overflowError ∧ ∃ kv ∈ options, Names kv.1 .maxiter ∧ ∃ s, kv.2 = .infinite s) := by
  induction options with
  | nil => cases h
  | cons kv rest ih =>
    obtain ⟨k, v⟩ := kv
    unfold validateOptions at h
    split at h
    · rename_i e' he
      cases h
      unfold validateEntry at he
      split at he
      · cases he; exact Or.inl rfl
      · rename_i opt hopt
        have hn := (lookup_iff k opt).mp hopt
        simp only at he
        split at he
        · rename_i e1 h1
          cases he
          left
          split at h1
          · unfold asSubspace at h1
            repeat' split at h1
            all_goals cases h1
            all_goals rfl
          · cases h1
        · rename_i v1 h1
          split at he
          · rename_i e2 h2
            cases he
            left
            split at h2
            · unfold asStepback at h2
              repeat' split at h2
              all_goals cases h2
              all_goals rfl
            · cases h2
          · rename_i v2 h2
            split at he
            · cases he
            · split at he
              · rename_i hty
                have hm : opt = .maxiter := by cases opt <;> first | rfl | cases hty
                subst hm
                have hv : v2 = v := by
                  have ha : ¬ k = .member .subspaceDim := by rintro rfl; cases hn
                  have hb : ¬ k = .member .stepbackStrat := by rintro rfl; cases hn
                  rw [if_neg ha] at h1
                  cases h1
                  rw [if_neg hb] at h2
                  cases h2; rfl
                subst hv
                split at he
                · rename_i e3 h3
                  cases he
                  cases v2 with
                  | infinite s => cases h3; exact Or.inr (Or.inr ⟨rfl, (k, .infinite s), by simp, hn, s, rfl⟩)
                  | str s =>
                    simp only [intEq] at h3
                    split at h3 <;> cases h3
                    exact Or.inl rfl
                  | _ => cases h3 <;> simp
                · cases he
                · cases he; exact Or.inr (Or.inl rfl)
              · cases he; exact Or.inr (Or.inl rfl)
    · rcases ih h with h | h | ⟨h, kv', h1, h2⟩
      · exact Or.inl h
      · exact Or.inr (Or.inl h)
      · exact Or.inr (Or.inr ⟨h, kv', by simp [h1], h2⟩)

/-- non-trivial dicts on both sides -/
example : (∀ kv ∈ [(OptKey.maxiter, RawVal.real 5), (.fatol, .int 0), (.stepbackStrat, .str "mixed"), (.maxtime, .infinite false)],
      Documented kv.1 kv.2) ∧
    ¬ Documented .maxiter (.real (1 / 2)) ∧ ¬ Documented .fatol (.str "1") ∧ ¬ Documented .historyFile .none := by
  refine ⟨?_, ?_, ?_, ?_⟩
  · simp only [List.mem_cons, List.not_mem_nil, or_false, forall_eq_or_imp, forall_eq, Documented]
    exact ⟨Or.inr ⟨5, by norm_num⟩, Or.inl ⟨0, rfl⟩, by simp, by simp⟩
  · simp only [Documented, reduceCtorEq, exists_false, RawVal.real.injEq, false_or, not_exists]
    intro z hz
    have h2 : (1 : ℚ) = 2 * z := by linarith
    have h3 : (1 : ℤ) = 2 * z := by exact_mod_cast h2
    omega
  · simp [Documented]
  · simp [Documented]

/-- C45, counterexample to "invalid enum names are refused": with the key written as a string any name passes validation and construction. -/
theorem C45_string_counterexample (s : String) {F : Type} [FloatOps F] (n : ℕ) (hs : s ≠ "scg") :
    validateOptions [(.str "subspace_solver", .str s)] = .ok () ∧
    optimizerInit (none : Option (Happ F n)) false [(.str "subspace_solver", .str s)] = .ok () ∧
    (s ≠ "2D" → s ≠ "full" → (resolveOpts [(.str "subspace_solver", .str s)] : Opts F).subspaceDim = .other) := by
  have h : validateOptions [(.str "subspace_solver", .str s)] = .ok () := by
    rw [C45_exact]
    simp only [List.mem_singleton, forall_eq]
    exact ⟨.subspaceDim, rfl, Or.inr ⟨rfl, Or.inl rfl, Or.inl ⟨s, rfl⟩⟩⟩
  have hk : ∀ k : OptKey, k ≠ .subspaceDim → getOption [(.str "subspace_solver", .str s)] k = defaultOption k := by
    intro k hk
    cases k <;> first | exact absurd rfl hk | rfl
  refine ⟨h, ?_, fun h1 h2 => ?_⟩
  · unfold optimizerInit optimizerInit.rest
    rw [h, hk .stepbackStrat (by simp)]
    simp [defaultOption, RawVal.toStepback]
  · have hg : getOption [(.str "subspace_solver", .str s)] .subspaceDim = .str s := rfl
    have hr : (resolveOpts [(.str "subspace_solver", .str s)] : Opts F).subspaceDim =
      (getOption [(.str "subspace_solver", .str s)] .subspaceDim).toSubspace := rfl
    rw [hr, hg]
    simp [RawVal.toSubspace, SubSpaceDim.ofString, h1, h2, hs]

/-- C45, what then happens: no iteration can be completed, the first proposal raises KeyError. -/
theorem C45_string_consequence {F : Type} [FloatOps F] [LawfulFloat F] {n : ℕ} (E : Env F n) (x0 : Vec F n) (startId : String) (hess0 : Hess0 F) (st0 : St F n)
    (htr : UsesTrustRegion E) (ho : E.opts.subspaceDim = .other) (fuel : ℕ) :
    (∀ st', minimize E fuel x0 startId hess0 st0 = .ok st' → st'.iteration = 0) ∧
    (∃ calls, CallsOf st0 (minimize E fuel x0 startId hess0 st0) calls ∧ calls.length ≤ 1) := by
  have hk : ∀ k I, E.tr k I = .error .keyError := by
    obtain ⟨O, f, h⟩ := htr
    intro k I
    rw [h, ho]
    rfl
  have hit : ∀ st cur p, iterate E st cur ≠ .ok p := by
    intro st cur p h
    obtain ⟨step, _, _, _, h, _⟩ := iterate_ok E st p.1 cur p.2 h
    rw [hk] at h; cases h
  have hhead : ∀ k st cur, LoopHead E x0 startId hess0 st0 k st cur → k = 0 := by
    intro k st cur h
    cases h with
    | start => rfl
    | next _ _ _ _ _ _ _ _ h => exact absurd h (hit _ _ _)
  constructor
  · intro st' h
    obtain ⟨_, k, st1, cur, st2, _, h1, h2, h3⟩ := minimize_ok E x0 startId hess0 st0 fuel st' h
    have := hhead k st1 cur h1
    subst this
    have hi := (headInv E x0 startId hess0 st0 0 st1 cur h1).iteration
    have h4 : st2.iteration = st1.iteration := by
      unfold checkContinue at h2
      simp only at h2
      repeat' split at h2
      all_goals cases h2
      all_goals rfl
    have h5 : st'.iteration = st2.iteration := by
      unfold writeHistory at h3
      repeat' split at h3
      all_goals cases h3
      all_goals rfl
    rw [h5, h4, hi]
  · obtain ⟨calls, hc, hf⟩ := run_calls E x0 startId hess0 st0 fuel
    refine ⟨calls, hc, ?_⟩
    cases hm : minimize E fuel x0 startId hess0 st0 with
    | ok s =>
      obtain ⟨_, k, st1, cur, st2, _, h1, h2, h3⟩ := minimize_ok E x0 startId hess0 st0 fuel s hm
      have := hhead k st1 cur h1
      subst this
      obtain ⟨l, hl, hlen, _⟩ := head_calls E x0 startId hess0 st0 0 st1 cur h1
      have e1 := checkContinue_evals E st1 st2 false h2
      have e2 : s.evals = st2.evals := by
        unfold writeHistory at h3
        repeat' split at h3
        all_goals cases h3
        all_goals rfl
      have hcc : s.evals = calls ++ st0.evals := by have := hc; rw [hm] at this; exact this
      rw [e2, e1, hl] at hcc
      rw [← List.append_cancel_right hcc]
      omega
    | error x =>
      obtain ⟨e, s⟩ := x
      have hcc : s.evals = calls ++ st0.evals := by have := hc; rw [hm] at this; exact this
      have fin : s.evals.length ≤ st0.evals.length + 1 → calls.length ≤ 1 := by
        intro h; rw [hcc, List.length_append] at h; omega
      apply fin
      rcases minimize_error E x0 startId hess0 st0 fuel s e hm with ⟨_, h, _⟩ | h | ⟨st1, hb, h⟩ | ⟨k, st1, cur1, st2, hh, hc', h⟩ |
        ⟨k, st1, cur, st2, hh, hc', h⟩
      · rw [h]; omega
      · obtain ⟨_, _, hst⟩ := checkInBounds_error _ _ _ _ _ h
        rw [hst]; exact Nat.le_succ _
      · obtain ⟨rfl, _⟩ := checkInBounds_ok _ _ _ _ hb
        rcases setup_error E hess0 _ s e h with ⟨rfl, _⟩ | ⟨raw, happ, fo, _, _, _, _, rfl⟩
        · exact le_refl _
        · obtain ⟨a, b, c, d, hf⟩ := setupState_frame (startState E x0 startId st0) fo happ
          show (setupState _ _ _).evals.length ≤ _
          rw [hf]; exact le_refl _
      · have := hhead k st1 cur1 hh
        subst this
        obtain ⟨l, hl, hlen, _⟩ := head_calls E x0 startId hess0 st0 0 st1 cur1 hh
        obtain ⟨rfl, _⟩ := checkContinue_true E st1 st2 hc'
        have hse : s.evals = st1.evals := by
          rcases h with ⟨_, rfl, _⟩ | h
          · rfl
          · rcases iterate_error E _ s cur1 _ h with ⟨_, _, rfl⟩ | ⟨_, ⟨_, rfl⟩ | ⟨step, h, _⟩⟩
            · rfl
            · rfl
            · rw [hk] at h; cases h
        rw [hse, hl, List.length_append]; omega
      · have := hhead k st1 cur hh
        subst this
        obtain ⟨l, hl, hlen, _⟩ := head_calls E x0 startId hess0 st0 0 st1 cur hh
        have e1 := checkContinue_evals E st1 st2 false hc'
        have e2 : s.evals = st2.evals := by
          unfold writeHistory at h
          repeat' split at h
          all_goals cases h
          all_goals rfl
        rw [e2, e1, hl, List.length_append]; omega

/-- such surroundings exist -/
example : ∃ E : Env Num 1, UsesTrustRegion E ∧ E.opts.subspaceDim = .other :=
  ⟨{ demoEnv 1 (Num.fin 0) (Num.fin 0) with
      opts := { (demoEnv 1 (Num.fin 0) (Num.fin 0)).opts with subspaceDim := .other }
      tr := fun _ I => trustRegion zeroOracles 10 .other (demoEnv 1 (Num.fin 0) (Num.fin 0)).opts.stepbackStrat I },
    ⟨fun _ => zeroOracles, 10, fun _ _ => rfl⟩, rfl⟩

/-! ## construction -/

theorem getOption_chosen (options : List (RawKey × RawVal)) (k : OptKey) (v : RawVal) (hd : IsDict options) :
    getOption options k = v ↔ Chosen options k v := by
  have hm : ∀ key, keyMatches k key = true ↔ Names key k := by
    intro key
    cases key with
    | member k' => simp [keyMatches, Names, eq_comm]
    | str s => simp [keyMatches, Names, value_doc]
    | other => simp [keyMatches, Names]
  have hdef : defaultOption k = docDefault k := by cases k <;> simp [defaultOption, docDefault] <;> norm_num
  induction options with
  | nil => simp [getOption, Chosen, hdef, eq_comm]
  | cons kv rest ih =>
    have ih' := ih hd.2
    by_cases hn : Names kv.1 k
    · have h1 : getOption (kv :: rest) k = kv.2 := by
        unfold getOption
        rw [List.find?_cons_of_pos (by simpa using (hm kv.1).mpr hn)]
      rw [h1]
      unfold Chosen
      constructor
      · intro h; exact Or.inl ⟨kv, by simp, hn, h⟩
      · rintro (⟨kv', h2, h3, h4⟩ | ⟨h2, _⟩)
        · rcases List.mem_cons.mp h2 with rfl | h2
          · exact h4
          · exact absurd h3 (hd.1 k hn kv' h2)
        · exact absurd hn (h2 kv (by simp))
    · have h1 : getOption (kv :: rest) k = getOption rest k := by
        unfold getOption
        rw [List.find?_cons_of_neg (by simpa using mt (hm kv.1).mp hn)]
      rw [h1]
      refine ih'.trans ?_
      unfold Chosen
      simp [hn]

theorem needs_iff {F : Type} [FloatOps F] {n : ℕ} (h : Happ F n) : h.requiresResfun = true ↔ NeedsResiduals h := by
  cases h <;> simp [Happ.requiresResfun, NeedsResiduals]

/-- C46: construction succeeds iff the scheme (if any) agrees with `resfun`, all options are accepted, and Steihaug's method is not combined
with refinement. -/
theorem C46_exact {F : Type} [FloatOps F] {n : ℕ} (happ : Option (Happ F n)) (resfun : Bool) (options : List (RawKey × RawVal))
    (hd : IsDict options) :
    optimizerInit happ resfun options = .ok () ↔
      (∀ h, happ = some h → (resfun = true ↔ NeedsResiduals h)) ∧ (∀ kv ∈ options, Accepted kv) ∧
      ¬ (ChoosesSteihaug options ∧ ChoosesRefine options) := by
  have hs : (getOption options .subspaceDim).toSubspace = .steihaug ↔ ChoosesSteihaug options := by
    unfold ChoosesSteihaug
    rw [← getOption_chosen _ _ _ hd, ← getOption_chosen _ _ _ hd]
    cases getOption options .subspaceDim with
    | str s =>
      simp only [RawVal.toSubspace, reduceCtorEq, RawVal.str.injEq, false_or, SubSpaceDim.ofString]
      split_ifs <;> simp_all
    | subspace d => simp [RawVal.toSubspace]
    | _ => simp [RawVal.toSubspace]
  have hr : (getOption options .stepbackStrat).toStepback = .refine ↔ ChoosesRefine options := by
    unfold ChoosesRefine
    rw [← getOption_chosen _ _ _ hd, ← getOption_chosen _ _ _ hd]
    cases getOption options .stepbackStrat with
    | str s =>
      simp only [RawVal.toStepback, reduceCtorEq, RawVal.str.injEq, false_or, StepBackStrategy.ofString]
      split_ifs <;> simp_all
    | stepback d => simp [RawVal.toStepback]
    | _ => simp [RawVal.toStepback]
  have hrest : optimizerInit.rest options = .ok () ↔ (∀ kv ∈ options, Accepted kv) ∧ ¬ (ChoosesSteihaug options ∧ ChoosesRefine options) := by
    unfold optimizerInit.rest
    rw [← C45_exact, ← hs, ← hr]
    cases validateOptions options with
    | error e => simp
    | ok u =>
      simp only [true_and]
      split_ifs with h
      · simp only [reduceCtorEq, false_iff, not_not]; exact h
      · simp only [true_iff]; exact h
  unfold optimizerInit
  cases happ with
  | none => simp only [hrest, reduceCtorEq, false_imp_iff, implies_true, true_and]
  | some h =>
    have hn := needs_iff h
    simp only [Option.some.injEq, forall_eq', ← hn]
    by_cases hb : resfun = h.requiresResfun
    · simp [hb, hrest]
    · simp only [ne_eq, hb, not_false_eq_true, if_true, reduceCtorEq, false_iff]
      rintro ⟨h1, _⟩
      exact hb (Bool.eq_iff_iff.mpr h1)

/-- C46: a scheme that does not agree with `resfun` and the forbidden combination raise ValueError. -/
theorem C46_error {F : Type} [FloatOps F] {n : ℕ} (happ : Option (Happ F n)) (resfun : Bool) (options : List (RawKey × RawVal))
    (hd : IsDict options) :
    (∀ h, happ = some h → ¬ (resfun = true ↔ NeedsResiduals h) → optimizerInit happ resfun options = .error .valueError) ∧
    ((∀ h, happ = some h → (resfun = true ↔ NeedsResiduals h)) → (∀ kv ∈ options, Accepted kv) → ChoosesSteihaug options →
      ChoosesRefine options → optimizerInit happ resfun options = .error .valueError) := by
  constructor
  · rintro h rfl hb
    rw [← needs_iff] at hb
    unfold optimizerInit
    simp only
    rw [if_pos]
    intro he
    exact hb (by rw [he])
  · intro h1 h2 h3 h4
    have hno : optimizerInit happ resfun options ≠ .ok () := by
      rw [Ne, C46_exact _ _ _ hd]
      rintro ⟨_, _, h⟩
      exact h ⟨h3, h4⟩
    have key : ∀ e, optimizerInit.rest options = .error e → e = .valueError := by
      intro e he
      unfold optimizerInit.rest at he
      rw [(C45_exact options).mpr h2] at he
      simp only at he
      split_ifs at he
      cases he; rfl
    unfold optimizerInit at hno ⊢
    cases happ with
    | none =>
      simp only at hno ⊢
      cases hr : optimizerInit.rest options with
      | ok u => exact absurd hr hno
      | error e => rw [key e hr]
    | some h =>
      have := h1 h rfl
      rw [← needs_iff] at this
      have hb : resfun = h.requiresResfun := Bool.eq_iff_iff.mpr this
      simp only [hb, ne_eq, not_true_eq_false, if_false] at hno ⊢
      cases hr : optimizerInit.rest options with
      | ok u => exact absurd hr hno
      | error e => rw [key e hr]

/-- the forbidden combination exists, written with a member and with a plain string; with the default strategy Steihaug's method is fine -/
example : let o := [(RawKey.member .subspaceDim, RawVal.str "scg"), (.str "stepback_strategy", .str "refine")]
    IsDict o ∧ (∀ kv ∈ o, Accepted kv) ∧ ChoosesSteihaug o ∧ ChoosesRefine o ∧
    ¬ ChoosesRefine [(RawKey.member .subspaceDim, RawVal.str "scg")] := by
  refine ⟨⟨?_, ?_, trivial⟩, ?_, ?_, ?_, ?_⟩
  · intro k hk kv' h
    have hk' : OptKey.subspaceDim = k := hk
    subst hk'
    simp only [List.mem_singleton] at h
    subst h
    simp [Names, docName]
  · intro k _ kv' h; cases h
  · simp only [List.mem_cons, List.not_mem_nil, or_false, forall_eq_or_imp, forall_eq]
    exact ⟨⟨.subspaceDim, rfl, Or.inl (by simp [Documented])⟩, ⟨.stepbackStrat, rfl, Or.inl (by simp [Documented])⟩⟩
  · exact Or.inr (Or.inl ⟨(.member .subspaceDim, .str "scg"), by simp, rfl, rfl⟩)
  · exact Or.inr (Or.inl ⟨(.str "stepback_strategy", .str "refine"), by simp, rfl, rfl⟩)
  · rintro (h | h)
    · rcases h with ⟨kv, h1, h2, h3⟩ | ⟨_, h⟩
      · simp only [List.mem_singleton] at h1; subst h1; cases h2
      · cases h
    · rcases h with ⟨kv, h1, h2, h3⟩ | ⟨_, h⟩
      · simp only [List.mem_singleton] at h1; subst h1; cases h2
      · cases h

end Fides
