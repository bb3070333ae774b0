import Verif.Props.Options
import Verif.Model.Minimize

/-!
# C57: option values

Every option used by a run has the value the user wrote for it, under its enum member or under its name, and the documented default if the user
did not mention it; the numbers, the iteration limit, the solver, the strategy and the file name mean what they say.
-/

namespace Fides
open Fides Fides.Spec

/-- an accepted value is documented, or a string for one of the two enum options -/
theorem chosen_accepted (options : List (RawKey × RawVal)) (ha : ∀ kv ∈ options, Accepted kv) (k : OptKey) (v : RawVal)
    (h : Chosen options k v) :
    v = docDefault k ∨ Documented k v ∨ ((k = .subspaceDim ∨ k = .stepbackStrat) ∧ IsText v) := by
  rcases h with ⟨kv, h1, h2, rfl⟩ | ⟨_, h⟩
  · obtain ⟨k', h3, h4⟩ := ha kv h1
    cases names_unique _ _ _ h2 h3
    rcases h4 with h4 | ⟨_, h4, h5⟩
    · exact Or.inr (Or.inl h4)
    · exact Or.inr (Or.inr ⟨h4, h5⟩)
  · exact Or.inl h

/-- C57, the numeric options. -/
theorem C57_numbers (options : List (RawKey × RawVal)) (hd : IsDict options) (ha : ∀ kv ∈ options, Accepted kv) :
    let o : Opts Num := resolveOpts options
    let Is := fun (k : OptKey) (x : Num) => ∃ v, Chosen options k v ∧ Denotes v x
    Is .maxtime o.maxtime ∧ Is .fatol o.fatol ∧ Is .frtol o.frtol ∧ Is .xtol o.xtol ∧ Is .gatol o.gatol ∧ Is .grtol o.grtol ∧
      Is .thetaMax o.thetaMax ∧ Is .deltaInit o.deltaInit ∧ Is .mu o.mu ∧ Is .eta o.eta ∧ Is .gamma1 o.gamma1 ∧ Is .gamma2 o.gamma2 := by
  have key : ∀ k : OptKey, (∀ v, Documented k v ↔ (∃ z : ℤ, v = .int z) ∨ (∃ q : ℚ, v = .real q) ∨ (∃ s, v = .infinite s) ∨ v = .nan) →
      Documented k (docDefault k) → k ≠ .subspaceDim → k ≠ .stepbackStrat →
      ∃ v, Chosen options k v ∧ Denotes v (getOption options k).toF := by
    intro k h1 h2 h3 h4
    have hc := (getOption_chosen options k _ hd).mp rfl
    refine ⟨_, hc, ?_⟩
    have hdoc : Documented k (getOption options k) := by
      rcases chosen_accepted _ ha _ _ hc with h | h | ⟨h | h, _⟩
      · rw [h]; exact h2
      · exact h
      · exact absurd h h3
      · exact absurd h h4
    rcases (h1 _).mp hdoc with ⟨z, h⟩ | ⟨q, h⟩ | ⟨s, h⟩ | h
    · rw [h]; simp [Denotes, RawVal.toF]
    · rw [h]; simp [Denotes, RawVal.toF]
    · rw [h]; cases s <;> rfl
    · rw [h]; rfl
  refine ⟨key _ (fun _ => Iff.rfl) ?_ (by decide) (by decide), key _ (fun _ => Iff.rfl) ?_ (by decide) (by decide),
    key _ (fun _ => Iff.rfl) ?_ (by decide) (by decide), key _ (fun _ => Iff.rfl) ?_ (by decide) (by decide),
    key _ (fun _ => Iff.rfl) ?_ (by decide) (by decide), key _ (fun _ => Iff.rfl) ?_ (by decide) (by decide),
    key _ (fun _ => Iff.rfl) ?_ (by decide) (by decide), key _ (fun _ => Iff.rfl) ?_ (by decide) (by decide),
    key _ (fun _ => Iff.rfl) ?_ (by decide) (by decide), key _ (fun _ => Iff.rfl) ?_ (by decide) (by decide),
    key _ (fun _ => Iff.rfl) ?_ (by decide) (by decide), key _ (fun _ => Iff.rfl) ?_ (by decide) (by decide)⟩ <;>
  simp [Documented, docDefault]

/-- C57, the iteration limit: an integer, written as an integer or as a number with an integer value. -/
theorem C57_maxiter (F : Type) [FloatOps F] (options : List (RawKey × RawVal)) (hd : IsDict options) (ha : ∀ kv ∈ options, Accepted kv) :
    Chosen options .maxiter (.int (resolveOpts options : Opts F).maxiter) ∨
      Chosen options .maxiter (.real ((resolveOpts options : Opts F).maxiter : ℚ)) := by
  have hc := (getOption_chosen options .maxiter _ hd).mp rfl
  have key : ∀ z : ℤ, (RawVal.real (z : ℚ)).toInt = z := by
    intro z; simp [RawVal.toInt]
  have hm : (resolveOpts options : Opts F).maxiter = (getOption options .maxiter).toInt := rfl
  rw [hm]
  rcases chosen_accepted _ ha _ _ hc with h | h | ⟨h | h, _⟩
  · right
    rw [h] at hc ⊢
    have : (docDefault .maxiter).toInt = 1000 := key 1000
    rw [this]; exact hc
  · rcases h with ⟨z, h⟩ | ⟨z, h⟩
    · left; rw [h] at hc ⊢; exact hc
    · right; rw [h] at hc ⊢; rw [key]; exact hc
  · cases h
  · cases h

/-- C57, the solver and the strategy. -/
theorem C57_choices (F : Type) [FloatOps F] (options : List (RawKey × RawVal)) (hd : IsDict options) (ha : ∀ kv ∈ options, Accepted kv) :
    let o : Opts F := resolveOpts options
    (∃ v, Chosen options .subspaceDim v ∧ DenotesSubspace v o.subspaceDim) ∧
      ∃ v, Chosen options .stepbackStrat v ∧ DenotesStepback v o.stepbackStrat := by
  constructor
  · have hc := (getOption_chosen options .subspaceDim _ hd).mp rfl
    refine ⟨_, hc, ?_⟩
    show DenotesSubspace _ (getOption options .subspaceDim).toSubspace
    have hs : ∀ s, DenotesSubspace (.str s) (SubSpaceDim.ofString s) := by
      intro s
      simp only [DenotesSubspace, SubSpaceDim.ofString]
      split_ifs <;> simp_all
    rcases chosen_accepted _ ha _ _ hc with h | h | ⟨_, h⟩
    · rw [h]; rfl
    · rcases h with h | h | h | h | h | h <;> rw [h] <;> first | rfl | exact hs _
    · rcases h with ⟨s, h⟩ | ⟨d, h⟩ | ⟨d, h⟩ <;> rw [h]
      · exact hs s
      · rfl
      · rfl
  · have hc := (getOption_chosen options .stepbackStrat _ hd).mp rfl
    refine ⟨_, hc, ?_⟩
    show DenotesStepback _ (getOption options .stepbackStrat).toStepback
    have hs : ∀ s, DenotesStepback (.str s) (StepBackStrategy.ofString s) := by
      intro s
      simp only [DenotesStepback, StepBackStrategy.ofString]
      split_ifs <;> simp_all
    rcases chosen_accepted _ ha _ _ hc with h | h | ⟨_, h⟩
    · rw [h]; rfl
    · rcases h with h | h | h | h | h | h | h | h | h | h <;> rw [h] <;> first | rfl | exact hs _
    · rcases h with ⟨s, h⟩ | ⟨d, h⟩ | ⟨d, h⟩ <;> rw [h]
      · exact hs s
      · rfl
      · rfl

/-- C57, the history: recorded iff a file name other than the empty string was given. -/
theorem C57_history (F : Type) [FloatOps F] (options : List (RawKey × RawVal)) (hd : IsDict options) (ha : ∀ kv ∈ options, Accepted kv) :
    (resolveOpts options : Opts F).history = true ↔ ∃ v, Chosen options .historyFile v ∧ v ≠ .none ∧ v ≠ .str "" := by
  have hc := (getOption_chosen options .historyFile _ hd).mp rfl
  have hm : (resolveOpts options : Opts F).history = (getOption options .historyFile).truthy := rfl
  rw [hm]
  have huniq : ∀ v, Chosen options .historyFile v ↔ getOption options .historyFile = v := fun v => (getOption_chosen _ _ _ hd).symm
  simp only [huniq, exists_eq_left']
  rcases chosen_accepted _ ha _ _ hc with h | h | ⟨h | h, _⟩
  · rw [h]; simp [docDefault, RawVal.truthy]
  · rcases h with ⟨s, h⟩ | h | ⟨d, h⟩ | ⟨d, h⟩ <;> rw [h] <;> simp [RawVal.truthy]
  · cases h
  · cases h

/-- a mixed dict: two options given (one by name), the others at their defaults -/
example : let o := [(RawKey.member .maxiter, RawVal.int 7), (.str "theta_max", .real (1 / 2))]
    IsDict o ∧ (∀ kv ∈ o, Accepted kv) ∧ (resolveOpts o : Opts Num).maxiter = 7 ∧ (resolveOpts o : Opts Num).thetaMax = Num.fin (1 / 2) ∧
      (resolveOpts o : Opts Num).gamma1 = Num.fin (1 / 4) := by
  refine ⟨⟨?_, ?_, trivial⟩, ?_, ?_, ?_, ?_⟩
  · intro k hk kv' h hk'
    cases hk
    simp only [List.mem_singleton] at h
    subst h
    have : ("theta_max" : String) = "maxiter" := hk'
    exact absurd this (by decide)
  · intro k hk kv' h; cases h
  · intro kv h
    rcases List.mem_cons.mp h with rfl | h
    · exact ⟨.maxiter, rfl, Or.inl (Or.inl ⟨7, rfl⟩)⟩
    · rcases List.mem_cons.mp h with rfl | h
      · exact ⟨.thetaMax, rfl, Or.inl (Or.inr (Or.inl ⟨_, rfl⟩))⟩
      · cases h
  · rfl
  · show (getOption [(RawKey.member .maxiter, RawVal.int 7), (.str "theta_max", .real (1 / 2))] .thetaMax).toF = _
    simp [getOption, keyMatches, OptKey.value, RawVal.toF]
  · show (getOption [(RawKey.member .maxiter, RawVal.int 7), (.str "theta_max", .real (1 / 2))] .gamma1).toF = _
    simp [getOption, keyMatches, OptKey.value, RawVal.toF, defaultOption]

end Fides
