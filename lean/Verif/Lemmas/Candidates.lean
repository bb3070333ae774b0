import Verif.Lemmas.StepBack

/-! Helper lemmas: which steps `trust_region` considers. -/

namespace Fides
open Num Spec
variable {F : Type} [FloatOps F] {n : ℕ}

/-- steps considered by one call of `trust_region`, by construction -/
inductive Cand (O : Oracles F) (fuel : ℕ) (P : Prob F n) (dim : SubSpaceDim) : Step F n → Prop
  | base (st) : trStep O fuel P dim = .ok st → Cand O fuel P dim st
  | grad (st) : stepGradient O P = .ok st → Cand O fuel P dim st
  | refl (cur st) : Cand O fuel P dim cur → feq cur.alpha (lit 1) = false → stepReflected O P cur = .ok st →
      Cand O fuel P dim st
  | trunc (cur st) : Cand O fuel P dim cur → feq cur.alpha (lit 1) = false → stepTruncated O P cur = .ok st →
      Cand O fuel P dim st
  | refined (cur st) : Cand O fuel P dim cur → stepRefined O P cur = .ok st → Cand O fuel P dim st

theorem reflectLoop_cand (O : Oracles F) (fuel : ℕ) (P : Prob F n) (dim : SubSpaceDim) (k : ℕ) (cur : Step F n)
    (hc : Cand O fuel P dim cur) (l : List (Step F n)) (h : reflectLoop O P k cur = .ok l) :
    ∀ st ∈ l, Cand O fuel P dim st := by
  induction k generalizing cur l with
  | zero => simp only [reflectLoop, Except.ok.injEq] at h; subst h; simp
  | succ k ih =>
    rw [reflectLoop] at h
    split at h
    · cases h; simp
    · rename_i ha
      split at h
      · cases h
      · rename_i st hst
        split at h
        · cases h
        · rename_i rest hr
          cases h
          have hcst : Cand O fuel P dim st := .refl cur st hc (by simpa using ha) hst
          intro s hs
          rcases List.mem_cons.mp hs with rfl | hs
          · exact hcst
          · exact ih st hcst rest hr s hs

theorem stepbackReflect_cand (O : Oracles F) (fuel : ℕ) (P : Prob F n) (dim : SubSpaceDim) (tr : Step F n)
    (hc : Cand O fuel P dim tr) (ha : feq tr.alpha (lit 1) = false) (l : List (Step F n))
    (h : stepbackReflect O P tr = .ok l) : ∀ st ∈ l, Cand O fuel P dim st := by
  rw [stepbackReflect] at h
  split at h
  · cases h
  · rename_i st hst
    split at h
    · cases h
    · rename_i rest hr
      cases h
      have hcst : Cand O fuel P dim st := .refl tr st hc ha hst
      intro s hs
      rcases List.mem_cons.mp hs with rfl | hs
      · exact hcst
      · exact reflectLoop_cand O fuel P dim _ st hcst rest hr s hs

theorem truncateLoop_cand (O : Oracles F) (fuel : ℕ) (P : Prob F n) (dim : SubSpaceDim) (k : ℕ) (cur : Step F n)
    (hc : Cand O fuel P dim cur) (l : List (Step F n)) (h : truncateLoop O P k cur = .ok l) :
    ∀ st ∈ l, Cand O fuel P dim st := by
  induction k generalizing cur l with
  | zero =>
    rw [truncateLoop] at h
    split at h
    · cases h; simp
    · cases h
  | succ k ih =>
    rw [truncateLoop] at h
    split at h
    · cases h; simp
    split at h
    · cases h; simp
    · rename_i ha
      split at h
      · cases h
      · rename_i st hst
        split at h
        · cases h
        · rename_i rest hr
          cases h
          have hcst : Cand O fuel P dim st := .trunc cur st hc (by simpa using ha) hst
          intro s hs
          rcases List.mem_cons.mp hs with rfl | hs
          · exact hcst
          · exact ih st hcst rest hr s hs

theorem stepbackTruncate_cand (O : Oracles F) (fuel k : ℕ) (P : Prob F n) (dim : SubSpaceDim) (tr : Step F n)
    (hc : Cand O fuel P dim tr) (ha : feq tr.alpha (lit 1) = false) (l : List (Step F n))
    (h : stepbackTruncate O P k tr = .ok l) : ∀ st ∈ l, Cand O fuel P dim st := by
  rw [stepbackTruncate] at h
  split at h
  · cases h
  · rename_i st hst
    split at h
    · cases h
    · rename_i rest hr
      cases h
      have hcst : Cand O fuel P dim st := .trunc tr st hc ha hst
      intro s hs
      rcases List.mem_cons.mp hs with rfl | hs
      · exact hcst
      · exact truncateLoop_cand O fuel P dim _ st hcst rest hr s hs

theorem stepbackCandidates_cand (O : Oracles F) (fuel : ℕ) (P : Prob F n) (dim : SubSpaceDim) (strat : StepBackStrategy)
    (tr : Step F n) (hc : Cand O fuel P dim tr) (ha : feq tr.alpha (lit 1) = false) (l : List (Step F n))
    (h : stepbackCandidates O fuel P strat tr = .ok l) : ∀ st ∈ l, Cand O fuel P dim st := by
  cases strat with
  | singleReflect =>
    simp only [stepbackCandidates] at h
    split at h
    · cases h
    · rename_i st hst
      cases h
      intro s hs
      simp only [List.mem_singleton] at hs
      subst hs
      exact .refl tr _ hc ha hst
  | reflect => exact stepbackReflect_cand O fuel P dim tr hc ha l h
  | truncate => exact stepbackTruncate_cand O fuel _ P dim tr hc ha l h
  | mixed =>
    simp only [stepbackCandidates] at h
    split at h
    · cases h
    · rename_i a hA
      split at h
      · cases h
      · rename_i b hb
        cases h
        intro s hs
        rcases List.mem_append.mp hs with hs | hs
        · exact stepbackReflect_cand O fuel P dim tr hc ha a hA s hs
        · exact stepbackTruncate_cand O fuel _ P dim tr hc ha b hb s hs
  | refine =>
    simp only [stepbackCandidates] at h
    split at h
    · split at h
      · cases h
      · rename_i st hst
        cases h
        intro s hs
        simp only [List.mem_singleton] at hs
        subst hs
        exact .refined tr _ hc hst
    · cases h; simp
  | other => simp only [stepbackCandidates, Except.ok.injEq] at h; subst h; simp

theorem candidates_cand [LawfulFloat F] (O : Oracles F) (fuel : ℕ) (P : Prob F n) (dim : SubSpaceDim) (strat : StepBackStrategy)
    (tr : Step F n) (rest : List (Step F n)) (h : candidates O fuel P dim strat = .ok (tr, rest)) :
    ∀ st ∈ tr :: rest, Cand O fuel P dim st := by
  rw [candidates] at h
  split at h
  · cases h
  · rename_i tr' htr
    have hct : Cand O fuel P dim tr' := .base tr' htr
    split at h
    · rename_i ha
      have ha' : feq tr'.alpha (lit 1) = false := by
        simp only [Bool.and_eq_true] at ha
        have := ((LawfulFloat.lt_iff _ _).mp ha.1).2
        simp [feq, this]
      split at h
      · cases h
      · rename_i gs hgs
        split at h
        · cases h
        · rename_i rest' hr
          cases h
          intro s hs
          simp only [List.mem_cons] at hs
          rcases hs with rfl | rfl | hs
          · exact hct
          · exact .grad _ hgs
          · exact stepbackCandidates_cand O fuel P dim strat _ hct ha' _ hr s hs
    · cases h
      intro s hs
      simp only [List.mem_singleton] at hs
      subst hs; exact hct

theorem argminGo_mem {α : Type} (key : α → F) (b : α) (l : List α) : argminGo key b l ∈ b :: l := by
  induction l generalizing b with
  | nil => simp [argminGo]
  | cons c l ih =>
    rw [argminGo]
    split
    · simp
    · split
      · exact List.mem_cons_of_mem _ (ih c)
      · rcases List.mem_cons.mp (ih b) with h | h
        · rw [h]; simp
        · simp [h]

/-- the returned proposal is one of the considered steps -/
theorem trustRegion_cand [LawfulFloat F] (O : Oracles F) (fuel : ℕ) (dim : SubSpaceDim) (strat : StepBackStrategy)
    (I : TRIn F n) (st : Step F n) (h : trustRegion O fuel dim strat I = .ok st) : Cand O fuel I.prob dim st := by
  rw [trustRegion] at h
  split at h
  · cases h
  · rename_i tr rest hc
    cases h
    exact candidates_cand O fuel I.prob dim strat tr rest hc _ (argminGo_mem _ _ _)

end Fides
