import Verif.Lemmas.Candidates

/-! Helper lemmas: the chains of reflected and of truncated steps. -/

namespace Fides
open Num Spec
variable {F : Type} [FloatOps F] {n : ℕ}

/-- steps obtained from `tr` by repeated reflection -/
inductive RChain (O : Oracles F) (P : Prob F n) (tr : Step F n) : Step F n → Prop
  | base : RChain O P tr tr
  | next (cur st) : RChain O P tr cur → feq cur.alpha (lit 1) = false → stepReflected O P cur = .ok st → RChain O P tr st

/-- steps obtained from `tr` by repeated truncation -/
inductive TChain (O : Oracles F) (P : Prob F n) (tr : Step F n) : Step F n → Prop
  | base : TChain O P tr tr
  | next (cur st) : TChain O P tr cur → feq cur.alpha (lit 1) = false → stepTruncated O P cur = .ok st → TChain O P tr st

theorem reflectLoop_chain (O : Oracles F) (P : Prob F n) (tr : Step F n) (k : ℕ) (cur : Step F n) (hc : RChain O P tr cur)
    (l : List (Step F n)) (h : reflectLoop O P k cur = .ok l) : ∀ st ∈ l, RChain O P tr st := by
  induction k generalizing cur l with
  | zero => simp only [reflectLoop, Except.ok.injEq] at h; subst h; simp
  | succ k ih =>
    rw [reflectLoop] at h
    split at h
    · cases h; simp
    · rename_i ha
      split at h
      · cases h
      · rename_i st hst
        split at h
        · cases h
        · rename_i rest hr
          cases h
          have hcst : RChain O P tr st := .next cur st hc (by simpa using ha) hst
          intro s hs
          rcases List.mem_cons.mp hs with rfl | hs
          · exact hcst
          · exact ih st hcst rest hr s hs

theorem stepbackReflect_chain (O : Oracles F) (P : Prob F n) (tr : Step F n) (ha : feq tr.alpha (lit 1) = false) (l : List (Step F n))
    (h : stepbackReflect O P tr = .ok l) : ∀ st ∈ l, RChain O P tr st := by
  rw [stepbackReflect] at h
  split at h
  · cases h
  · rename_i st hst
    split at h
    · cases h
    · rename_i rest hr
      cases h
      have hcst : RChain O P tr st := .next tr st .base ha hst
      intro s hs
      rcases List.mem_cons.mp hs with rfl | hs
      · exact hcst
      · exact reflectLoop_chain O P tr _ st hcst rest hr s hs

theorem truncateLoop_chain (O : Oracles F) (P : Prob F n) (tr : Step F n) (k : ℕ) (cur : Step F n) (hc : TChain O P tr cur)
    (l : List (Step F n)) (h : truncateLoop O P k cur = .ok l) : ∀ st ∈ l, TChain O P tr st := by
  induction k generalizing cur l with
  | zero =>
    rw [truncateLoop] at h
    split at h
    · cases h; simp
    · cases h
  | succ k ih =>
    rw [truncateLoop] at h
    split at h
    · cases h; simp
    split at h
    · cases h; simp
    · rename_i ha
      split at h
      · cases h
      · rename_i st hst
        split at h
        · cases h
        · rename_i rest hr
          cases h
          have hcst : TChain O P tr st := .next cur st hc (by simpa using ha) hst
          intro s hs
          rcases List.mem_cons.mp hs with rfl | hs
          · exact hcst
          · exact ih st hcst rest hr s hs

theorem stepbackTruncate_chain (O : Oracles F) (k : ℕ) (P : Prob F n) (tr : Step F n) (ha : feq tr.alpha (lit 1) = false)
    (l : List (Step F n)) (h : stepbackTruncate O P k tr = .ok l) : ∀ st ∈ l, TChain O P tr st := by
  rw [stepbackTruncate] at h
  split at h
  · cases h
  · rename_i st hst
    split at h
    · cases h
    · rename_i rest hr
      cases h
      have hcst : TChain O P tr st := .next tr st .base ha hst
      intro s hs
      rcases List.mem_cons.mp hs with rfl | hs
      · exact hcst
      · exact truncateLoop_chain O P tr _ st hcst rest hr s hs

theorem stepbackCandidates_chain (O : Oracles F) (fuel : ℕ) (P : Prob F n) (strat : StepBackStrategy)
    (tr : Step F n) (ha : feq tr.alpha (lit 1) = false) (l : List (Step F n))
    (h : stepbackCandidates O fuel P strat tr = .ok l) : ∀ st ∈ l, RChain O P tr st ∨ ((strat = .truncate ∨ strat = .mixed) ∧ TChain O P tr st) ∨
      (strat = .refine ∧ 1 < tr.subspace.length ∧ stepRefined O P tr = .ok st) := by
  cases strat with
  | singleReflect =>
    simp only [stepbackCandidates] at h
    split at h
    · cases h
    · rename_i st hst
      cases h
      intro s hs
      simp only [List.mem_singleton] at hs
      subst hs
      exact Or.inl (.next tr _ .base ha hst)
  | reflect => exact fun st hst => Or.inl (stepbackReflect_chain O P tr ha l h st hst)
  | truncate => exact fun st hst => Or.inr (Or.inl ⟨Or.inl rfl, stepbackTruncate_chain O fuel P tr ha l h st hst⟩)
  | mixed =>
    simp only [stepbackCandidates] at h
    split at h
    · cases h
    · rename_i a hA
      split at h
      · cases h
      · rename_i b hb
        cases h
        intro s hs
        rcases List.mem_append.mp hs with hs | hs
        · exact Or.inl (stepbackReflect_chain O P tr ha a hA s hs)
        · exact Or.inr (Or.inl ⟨Or.inr rfl, stepbackTruncate_chain O fuel P tr ha b hb s hs⟩)
  | refine =>
    simp only [stepbackCandidates] at h
    split at h
    · rename_i hl
      split at h
      · cases h
      · rename_i st hst
        cases h
        intro s hs
        simp only [List.mem_singleton] at hs
        subst hs
        exact Or.inr (Or.inr ⟨rfl, hl, hst⟩)
    · cases h; simp
  | other => simp only [stepbackCandidates, Except.ok.injEq] at h; subst h; simp

/-- the returned proposal: the base step or a step derived from it, or the gradient step -/
theorem trustRegion_chain [LawfulFloat F] (O : Oracles F) (fuel : ℕ) (dim : SubSpaceDim) (strat : StepBackStrategy)
    (I : TRIn F n) (st : Step F n) (h : trustRegion O fuel dim strat I = .ok st) :
    ∃ tr, trStep O fuel I.prob dim = .ok tr ∧ ((RChain O I.prob tr st ∧ (1 < n ∨ st = tr)) ∨ (1 < n ∧ stepGradient O I.prob = .ok st) ∨
      (1 < n ∧ (strat = .truncate ∨ strat = .mixed) ∧ TChain O I.prob tr st) ∨
      (1 < n ∧ strat = .refine ∧ 1 < tr.subspace.length ∧ stepRefined O I.prob tr = .ok st)) := by
  rw [trustRegion] at h
  split at h
  · cases h
  · rename_i tr rest hc
    cases h
    have hm := argminGo_mem (fun st : Step F n => st.qpval) tr rest
    rw [candidates] at hc
    split at hc
    · cases hc
    · rename_i tr' htr
      split at hc
      · rename_i ha
        simp only [Bool.and_eq_true, decide_eq_true_eq] at ha
        have ha' : feq tr'.alpha (lit 1) = false := by
          have := ((LawfulFloat.lt_iff _ _).mp ha.1).2
          simp [feq, this]
        split at hc
        · cases hc
        · rename_i gs hgs
          split at hc
          · cases hc
          · rename_i rest' hr
            cases hc
            refine ⟨_, htr, ?_⟩
            rcases List.mem_cons.mp hm with h1 | h1
            · left; rw [h1]; exact ⟨.base, Or.inr rfl⟩
            rcases List.mem_cons.mp h1 with h2 | h2
            · right; left; rw [h2]; exact ⟨ha.2, hgs⟩
            · rcases stepbackCandidates_chain O fuel I.prob strat _ ha' _ hr _ h2 with h3 | ⟨h3, h4⟩ | ⟨h3, h4, h5⟩
              · exact Or.inl ⟨h3, Or.inl ha.2⟩
              · exact Or.inr (Or.inr (Or.inl ⟨ha.2, h3, h4⟩))
              · exact Or.inr (Or.inr (Or.inr ⟨ha.2, h3, h4, h5⟩))
      · cases hc
        refine ⟨_, htr, ?_⟩
        rcases List.mem_cons.mp hm with h1 | h1
        · left; rw [h1]; exact ⟨.base, Or.inr rfl⟩
        · cases h1

/-- chain members are considered steps -/
theorem RChain.cand {O : Oracles F} {fuel : ℕ} {P : Prob F n} {dim : SubSpaceDim} {tr st : Step F n} (ht : Cand O fuel P dim tr)
    (h : RChain O P tr st) : Cand O fuel P dim st := by
  induction h with
  | base => exact ht
  | next cur st _ ha h ih => exact .refl cur st ih ha h

theorem TChain.cand {O : Oracles F} {fuel : ℕ} {P : Prob F n} {dim : SubSpaceDim} {tr st : Step F n} (ht : Cand O fuel P dim tr)
    (h : TChain O P tr st) : Cand O fuel P dim st := by
  induction h with
  | base => exact ht
  | next cur st _ ha h ih => exact .trunc cur st ih ha h

end Fides
