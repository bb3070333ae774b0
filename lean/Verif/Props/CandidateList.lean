import Verif.Spec.Considered
import Verif.Props.Witnesses

/-!
# C55: the list of candidates

`trust_region` considers the solution of the subproblem and, if that one had to be cut back and there is more than one variable, the
step along the gradient and the candidates of the chosen strategy, in this order.  The strategy `reflect` goes on reflecting until a
candidate fits or `n` candidates were made; `truncate` goes on until a candidate fits or no direction is left; `mixed` takes the ones of
both.
-/

namespace Fides
open Spec
variable {F : Type} [FloatOps F] {n : ℕ}

theorem Series.cons {S : Type} {R : S → S → Prop} {Done : S → Prop} {c s : S} {l : List S} (hs : R c s) (hd : ¬ Done s) (h : Series R Done s l) :
    Series R Done c (s :: l) := by
  refine ⟨by simp, ?_, ?_⟩
  · rintro (_ | k) hk
    · exact hs
    · simpa using h.made k (by simpa using hk)
  · rintro (_ | k) hk
    · exact hd
    · simpa using h.goesOn k (by simpa using hk)

theorem Series.one {S : Type} {R : S → S → Prop} {Done : S → Prop} {c s : S} (hs : R c s) : Series R Done c [s] := by
  refine ⟨by simp, ?_, ?_⟩
  · rintro (_ | k) hk
    · exact hs
    · simp at hk
  · intro k hk; simp at hk

theorem Ended.cons {S : Type} {Done : S → Prop} {s : S} {l : List S} (hl : l ≠ []) (h : Ended Done l) : Ended Done (s :: l) := by
  obtain ⟨t, h1, h2⟩ := h
  refine ⟨t, ?_, h2⟩
  rw [List.getLast?_cons_of_ne_nil hl]; exact h1

theorem reflectLoop_series (O : Oracles F) (P : Prob F n) (k : ℕ) : ∀ (c cur : Step F n) (l : List (Step F n)), stepReflected O P c = .ok cur →
    reflectLoop O P k cur = .ok l →
    Series (fun a b => stepReflected O P a = .ok b) (fun a => feq a.alpha (lit 1) = true) c (cur :: l) ∧ l.length ≤ k ∧
      (Ended (fun a : Step F n => feq a.alpha (lit 1) = true) (cur :: l) ∨ l.length = k) := by
  induction k with
  | zero =>
    intro c cur l hc h
    simp only [reflectLoop, Except.ok.injEq] at h; subst h
    exact ⟨Series.one hc, le_refl _, Or.inr rfl⟩
  | succ k ih =>
    intro c cur l hc h
    rw [reflectLoop] at h
    split at h
    · rename_i ha
      cases h
      exact ⟨Series.one hc, by simp, Or.inl ⟨cur, rfl, ha⟩⟩
    · rename_i ha
      split at h
      · cases h
      rename_i st hst
      split at h
      · cases h
      rename_i rest hr
      cases h
      obtain ⟨h1, h2, h3⟩ := ih cur st rest hst hr
      refine ⟨Series.cons hc ha h1, by simp; omega, ?_⟩
      rcases h3 with h3 | h3
      · exact Or.inl (Ended.cons (by simp) h3)
      · right; simp [h3]

theorem stepbackReflect_series (O : Oracles F) (P : Prob F n) (hn : 0 < n) (tr : Step F n) (l : List (Step F n)) (h : stepbackReflect O P tr = .ok l) :
    Series (fun a b => stepReflected O P a = .ok b) (fun a => feq a.alpha (lit 1) = true) tr l ∧ l.length ≤ n ∧
      (Ended (fun a : Step F n => feq a.alpha (lit 1) = true) l ∨ l.length = n) := by
  unfold stepbackReflect at h
  split at h
  · cases h
  rename_i st hst
  split at h
  · cases h
  rename_i rest hr
  cases h
  obtain ⟨h1, h2, h3⟩ := reflectLoop_series O P (n - 1) tr st rest hst hr
  refine ⟨h1, by simp; omega, ?_⟩
  rcases h3 with h3 | h3
  · exact Or.inl h3
  · right; simp; omega

theorem truncateLoop_series (O : Oracles F) (P : Prob F n) (k : ℕ) : ∀ (c cur : Step F n) (l : List (Step F n)), stepTruncated O P c = .ok cur →
    truncateLoop O P k cur = .ok l →
    Series (fun a b => stepTruncated O P a = .ok b) (fun a => a.subspace = [] ∨ feq a.alpha (lit 1) = true) c (cur :: l) ∧
      Ended (fun a : Step F n => a.subspace = [] ∨ feq a.alpha (lit 1) = true) (cur :: l) := by
  induction k with
  | zero =>
    intro c cur l hc h
    rw [truncateLoop] at h
    split at h
    · rename_i ha
      cases h
      exact ⟨Series.one hc, cur, rfl, by simpa using ha⟩
    · cases h
  | succ k ih =>
    intro c cur l hc h
    rw [truncateLoop] at h
    split at h
    · rename_i ha
      cases h
      exact ⟨Series.one hc, cur, rfl, Or.inl (by simpa using ha)⟩
    split at h
    · rename_i ha
      cases h
      exact ⟨Series.one hc, cur, rfl, Or.inr ha⟩
    · rename_i hb ha
      split at h
      · cases h
      rename_i st hst
      split at h
      · cases h
      rename_i rest hr
      cases h
      obtain ⟨h1, h2⟩ := ih cur st rest hst hr
      exact ⟨Series.cons hc (by rintro (h | h) <;> simp_all) h1, Ended.cons (by simp) h2⟩

theorem stepbackTruncate_series (O : Oracles F) (P : Prob F n) (fuel : ℕ) (tr : Step F n) (l : List (Step F n)) (h : stepbackTruncate O P fuel tr = .ok l) :
    Series (fun a b => stepTruncated O P a = .ok b) (fun a => a.subspace = [] ∨ feq a.alpha (lit 1) = true) tr l ∧
      Ended (fun a : Step F n => a.subspace = [] ∨ feq a.alpha (lit 1) = true) l := by
  unfold stepbackTruncate at h
  split at h
  · cases h
  rename_i st hst
  split at h
  · cases h
  rename_i rest hr
  cases h
  exact truncateLoop_series O P fuel tr st rest hst hr

/-- the candidates of a strategy -/
theorem stepbackCandidates_list (O : Oracles F) (fuel : ℕ) (P : Prob F n) (strat : StepBackStrategy) (hn : 0 < n) (tr : Step F n) (l : List (Step F n))
    (h : stepbackCandidates O fuel P strat tr = .ok l) :
    (strat = .singleReflect → ∃ r, stepReflected O P tr = .ok r ∧ l = [r]) ∧
    (strat = .reflect → Series (fun a b => stepReflected O P a = .ok b) (fun a => feq a.alpha (lit 1) = true) tr l ∧ l.length ≤ n ∧
      (Ended (fun a : Step F n => feq a.alpha (lit 1) = true) l ∨ l.length = n)) ∧
    (strat = .truncate → Series (fun a b => stepTruncated O P a = .ok b) (fun a => a.subspace = [] ∨ feq a.alpha (lit 1) = true) tr l ∧
      Ended (fun a : Step F n => a.subspace = [] ∨ feq a.alpha (lit 1) = true) l) ∧
    (strat = .mixed → ∃ a b, l = a ++ b ∧ stepbackCandidates O fuel P .reflect tr = .ok a ∧ stepbackCandidates O fuel P .truncate tr = .ok b) ∧
    (strat = .refine → (1 < tr.subspace.length ∧ ∃ r, stepRefined O P tr = .ok r ∧ l = [r]) ∨ (tr.subspace.length ≤ 1 ∧ l = [])) := by
  cases strat with
  | singleReflect =>
    refine ⟨fun _ => ?_, nofun, nofun, nofun, nofun⟩
    simp only [stepbackCandidates] at h
    split at h
    · cases h
    · rename_i st hst; cases h; exact ⟨st, hst, rfl⟩
  | reflect => exact ⟨nofun, fun _ => stepbackReflect_series O P hn tr l h, nofun, nofun, nofun⟩
  | truncate => exact ⟨nofun, nofun, fun _ => stepbackTruncate_series O P fuel tr l h, nofun, nofun⟩
  | mixed =>
    refine ⟨nofun, nofun, nofun, fun _ => ?_, nofun⟩
    simp only [stepbackCandidates] at h
    split at h
    · cases h
    rename_i a ha
    split at h
    · cases h
    rename_i b hb
    cases h
    exact ⟨a, b, rfl, ha, hb⟩
  | refine =>
    refine ⟨nofun, nofun, nofun, nofun, fun _ => ?_⟩
    simp only [stepbackCandidates] at h
    split at h
    · rename_i hl
      split at h
      · cases h
      · rename_i st hst; cases h; exact Or.inl ⟨hl, st, hst, rfl⟩
    · rename_i hl; cases h; exact Or.inr ⟨by omega, rfl⟩
  | other => exact ⟨nofun, nofun, nofun, nofun, nofun⟩

/-- **C55, which candidates.**  The candidates among which a call of `trust_region` chooses: only the solution of the subproblem if it was not
cut back (or there is one variable); otherwise this one, the step along the gradient, and those of the strategy: one reflection
(`singleReflect`); reflections, each of the one before, until one is not cut back or there are `n` (`reflect`); truncations, each of the one
before, until one is not cut back or has no direction left (`truncate`); the ones of both (`mixed`); the refined step if there is more
than one direction (`refine`). -/
theorem C55_considered (O : Oracles F) (fuel : ℕ) (P : Prob F n) (dim : SubSpaceDim) (strat : StepBackStrategy) (tr : Step F n) (rest : List (Step F n))
    (h : candidates O fuel P dim strat = .ok (tr, rest)) :
    trStep O fuel P dim = .ok tr ∧ (¬ (lt tr.alpha (lit 1) = true ∧ 1 < n) → rest = []) ∧
    (lt tr.alpha (lit 1) = true → 1 < n → ∃ gs l, stepGradient O P = .ok gs ∧ rest = gs :: l ∧
      (strat = .singleReflect → ∃ r, stepReflected O P tr = .ok r ∧ l = [r]) ∧
      (strat = .reflect → Series (fun a b => stepReflected O P a = .ok b) (fun a => feq a.alpha (lit 1) = true) tr l ∧ l.length ≤ n ∧
        (Ended (fun a : Step F n => feq a.alpha (lit 1) = true) l ∨ l.length = n)) ∧
      (strat = .truncate → Series (fun a b => stepTruncated O P a = .ok b) (fun a => a.subspace = [] ∨ feq a.alpha (lit 1) = true) tr l ∧
        Ended (fun a : Step F n => a.subspace = [] ∨ feq a.alpha (lit 1) = true) l) ∧
      (strat = .mixed → ∃ a b, l = a ++ b ∧
        (Series (fun a b => stepReflected O P a = .ok b) (fun a => feq a.alpha (lit 1) = true) tr a ∧ a.length ≤ n ∧
          (Ended (fun a : Step F n => feq a.alpha (lit 1) = true) a ∨ a.length = n)) ∧
        (Series (fun a b => stepTruncated O P a = .ok b) (fun a => a.subspace = [] ∨ feq a.alpha (lit 1) = true) tr b ∧
          Ended (fun a : Step F n => a.subspace = [] ∨ feq a.alpha (lit 1) = true) b)) ∧
      (strat = .refine → (1 < tr.subspace.length ∧ ∃ r, stepRefined O P tr = .ok r ∧ l = [r]) ∨ (tr.subspace.length ≤ 1 ∧ l = []))) := by
  unfold candidates at h
  split at h
  · cases h
  rename_i tr' htr
  split at h
  · rename_i hc
    simp only [Bool.and_eq_true, decide_eq_true_eq] at hc
    split at h
    · cases h
    rename_i gs hgs
    split at h
    · cases h
    rename_i l hl
    cases h
    refine ⟨htr, fun hno => absurd hc hno, fun _ hn => ⟨gs, l, hgs, rfl, ?_⟩⟩
    obtain ⟨h1, h2, h3, h4, h5⟩ := stepbackCandidates_list O fuel P strat (by omega) tr l hl
    refine ⟨h1, h2, h3, fun hm => ?_, h5⟩
    obtain ⟨a, b, e, ha, hb⟩ := h4 hm
    exact ⟨a, b, e, stepbackReflect_series O P (by omega) tr a ha, stepbackTruncate_series O P fuel tr b hb⟩
  · rename_i hc
    cases h
    refine ⟨htr, fun _ => rfl, fun h1 h2 => absurd ?_ hc⟩
    simp [h1, h2]

/-- C55_considered: a step cut at a bound with the strategies `reflect` and `singleReflect` -/
example : (∃ tr rest, candidates tdOracles 5 rdIn.prob .full .reflect = .ok (tr, rest) ∧ lt tr.alpha (Fides.lit 1) = true ∧ rest.length = 2) ∧
    ∃ tr rest, candidates tdOracles 5 tdIn.prob .two .singleReflect = .ok (tr, rest) ∧ lt tr.alpha (Fides.lit 1) = true ∧ rest.length = 2 := by
  constructor
  · obtain ⟨tr, htr, h1, h2, h3, h4, h5, h6, h7, q, hq⟩ := rd_base
    obtain ⟨tr', rf, htr', _, _, hl⟩ := rd_reflect_list
    rw [htr] at htr'; cases htr'
    obtain ⟨gs, t, a, hg, _⟩ := gradStep_spec tdOracles rd_data (Real.sqrt_nonneg _) (by norm_num) rd_box
    have h8' : lt tr.alpha (Fides.lit 1) = true := by rw [h7]; norm_num
    refine ⟨tr, [gs, rf], ?_, h8', rfl⟩
    simp only [candidates, trStep, htr, h8', Bool.true_and, hg, stepbackCandidates, hl]
    rfl
  · obtain ⟨tr, gs, rf, _, h2, h, _⟩ := td_list
    exact ⟨tr, _, h, by simpa using h2, rfl⟩

end Fides
