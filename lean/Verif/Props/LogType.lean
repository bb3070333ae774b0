import Verif.Spec.LogType
import Verif.Props.Log
import Verif.Props.Unbounded
import Verif.Lemmas.SteihaugDecrease
import Verif.Props.Start
import Verif.Props.Saddle

/-!
# C70: the labels of the steps in the log
-/

set_option linter.unusedSectionVars false

namespace Fides
open Spec
variable {F : Type} [FloatOps F] {n : ℕ}

theorem calculate_type (O : SubOracles F) (P : Prob F n) (st st' : Step F n) (h : st.calculate O P = .ok st') : st'.type = st.type := by
  unfold Step.calculate at h
  split at h
  · cases h
  · rename_i s1 h1
    cases h
    show s1.type = st.type
    unfold Step.computeStep at h1
    split at h1
    · cases h1; rfl
    · cases h1; rfl
    · simp only at h1
      split at h1
      · cases h1
      · cases h1; rfl

theorem trStep_type (O : Oracles F) (fuel : ℕ) (P : Prob F n) (dim : SubSpaceDim) (st : Step F n) (h : trStep O fuel P dim = .ok st) :
    st.type.text = solverLabel dim := by
  cases dim with
  | two =>
    simp only [trStep] at h
    unfold step2d at h
    split at h
    · cases h
    · rw [calculate_type _ _ _ _ h]; rfl
  | full =>
    simp only [trStep] at h
    unfold stepFull at h
    rw [calculate_type _ _ _ _ h]; rfl
  | steihaug =>
    simp only [trStep] at h
    unfold stepSteihaug at h
    simp only at h
    split at h
    · cases h
    · split at h
      · cases h
      · cases h; rfl
  | other => cases h

theorem reflectLoop_type (O : Oracles F) (P : Prob F n) (k : ℕ) (cur : Step F n) (l : List (Step F n)) (h : reflectLoop O P k cur = .ok l) :
    ∀ st ∈ l, st.type = .trr := by
  induction k generalizing cur l with
  | zero => cases h; intro st hst; cases hst
  | succ k ih =>
    unfold reflectLoop at h
    split at h
    · cases h; intro st hst; cases hst
    · split at h
      · cases h
      · rename_i s1 h1
        split at h
        · cases h
        · rename_i rest h2
          cases h
          intro st hst
          rcases List.mem_cons.mp hst with rfl | hst
          · rw [calculate_type _ _ _ _ h1]; rfl
          · exact ih _ _ h2 st hst

theorem stepbackReflect_type (O : Oracles F) (P : Prob F n) (tr : Step F n) (l : List (Step F n)) (h : stepbackReflect O P tr = .ok l) :
    ∀ st ∈ l, st.type = .trr := by
  unfold stepbackReflect at h
  split at h
  · cases h
  · rename_i s1 h1
    split at h
    · cases h
    · rename_i rest h2
      cases h
      intro st hst
      rcases List.mem_cons.mp hst with rfl | hst
      · rw [calculate_type _ _ _ _ h1]; rfl
      · exact reflectLoop_type _ _ _ _ _ h2 st hst

theorem truncateLoop_type (O : Oracles F) (P : Prob F n) (k : ℕ) (cur : Step F n) (l : List (Step F n)) (h : truncateLoop O P k cur = .ok l) :
    ∀ st ∈ l, st.type = .trt := by
  induction k generalizing cur l with
  | zero =>
    unfold truncateLoop at h
    split at h
    · cases h; intro st hst; cases hst
    · cases h
  | succ k ih =>
    unfold truncateLoop at h
    split at h
    · cases h; intro st hst; cases hst
    · split at h
      · cases h; intro st hst; cases hst
      · split at h
        · cases h
        · rename_i s1 h1
          split at h
          · cases h
          · rename_i rest h2
            cases h
            intro st hst
            rcases List.mem_cons.mp hst with rfl | hst
            · rw [calculate_type _ _ _ _ h1]; rfl
            · exact ih _ _ h2 st hst

theorem stepbackTruncate_type (O : Oracles F) (P : Prob F n) (fuel : ℕ) (tr : Step F n) (l : List (Step F n)) (h : stepbackTruncate O P fuel tr = .ok l) :
    ∀ st ∈ l, st.type = .trt := by
  unfold stepbackTruncate at h
  split at h
  · cases h
  · rename_i s1 h1
    split at h
    · cases h
    · rename_i rest h2
      cases h
      intro st hst
      rcases List.mem_cons.mp hst with rfl | hst
      · rw [calculate_type _ _ _ _ h1]; rfl
      · exact truncateLoop_type _ _ _ _ _ h2 st hst

theorem stepbackCandidates_type (O : Oracles F) (P : Prob F n) (fuel : ℕ) (strat : StepBackStrategy) (tr : Step F n) (l : List (Step F n))
    (h : stepbackCandidates O fuel P strat tr = .ok l) : ∀ st ∈ l, ExtraLabel strat st.type.text := by
  intro st hst
  cases strat with
  | singleReflect =>
    simp only [stepbackCandidates] at h
    split at h
    · cases h
    · rename_i s1 h1
      cases h
      rw [List.mem_singleton.mp hst, calculate_type _ _ _ _ h1]
      exact .single
  | reflect =>
    rw [stepbackReflect_type _ _ _ _ h st hst]; exact .reflect
  | truncate =>
    rw [stepbackTruncate_type _ _ _ _ _ h st hst]; exact .truncate
  | mixed =>
    simp only [stepbackCandidates] at h
    split at h
    · cases h
    · rename_i a h1
      split at h
      · cases h
      · rename_i b h2
        cases h
        rcases List.mem_append.mp hst with hst | hst
        · rw [stepbackReflect_type _ _ _ _ h1 st hst]; exact .mixedReflect
        · rw [stepbackTruncate_type _ _ _ _ _ h2 st hst]; exact .mixedTruncate
  | refine =>
    simp only [stepbackCandidates] at h
    split at h
    · split at h
      · cases h
      · rename_i s1 h1
        cases h
        rw [List.mem_singleton.mp hst]
        unfold stepRefined at h1
        split at h1
        · cases h1
        · cases h1; exact .refine
    · cases h; cases hst
  | other => cases h; cases hst

theorem trustRegion_type (O : Oracles F) (fuel : ℕ) (dim : SubSpaceDim) (strat : StepBackStrategy) (I : TRIn F n) (st : Step F n)
    (h : trustRegion O fuel dim strat I = .ok st) : st.type.text = solverLabel dim ∨ (1 < n ∧ ExtraLabel strat st.type.text) := by
  unfold trustRegion at h
  split at h
  · cases h
  · rename_i tr rest hc
    cases h
    unfold candidates at hc
    split at hc
    · cases hc
    · rename_i tr' htr
      split at hc
      · rename_i hcond
        split at hc
        · cases hc
        · rename_i gs hg
          split at hc
          · cases hc
          · rename_i l hl
            cases hc
            rcases List.mem_cons.mp (argminGo_mem (fun st : Step F n => st.qpval) tr (gs :: l)) with h1 | h1
            · left; rw [h1]; exact trStep_type _ _ _ _ _ htr
            · right
              simp only [Bool.and_eq_true, decide_eq_true_eq] at hcond
              refine ⟨hcond.2, ?_⟩
              rcases List.mem_cons.mp h1 with h2 | h2
              · rw [h2, calculate_type _ _ _ _ hg]; exact .gradient _
              · exact stepbackCandidates_type _ _ _ _ _ _ hl _ h2
      · cases hc
        left
        exact trStep_type _ _ _ _ _ htr

/-- C70: the labels in the column `step`.  Every row after the first carries the label of the chosen solver (`2d`, `nd`, `cgs`), or, in problems with more than one
variable, `g`, or one of the labels of the chosen step-back strategy: `trr` only with a strategy that reflects, `trt` only with one that truncates, `ref` only
with refinement. -/
theorem C70_type [LawfulFloat F] (E : Env F n) (x0 : Vec F n) (startId : String) (hess0 : Hess0 F) (st0 : St F n) (O : ℕ → Oracles F) (inner : ℕ)
    (hO : ∀ k I, E.tr k I = trustRegion (O k) inner E.opts.subspaceDim E.opts.stepbackStrat I)
    (fuel : ℕ) (st' : St F n) (h : minimize E fuel x0 startId hess0 st0 = .ok st') :
    let R := rowsOf (minimizeLog E fuel x0 startId hess0 st0)
    R.length = st'.iteration + 1 ∧ (∀ h0 : 0 < R.length, R[0].type = none) ∧
      ∀ j (hj : j + 1 < R.length), ∃ t, R[j + 1].type = some t ∧
        (t.text = solverLabel E.opts.subspaceDim ∨ (1 < n ∧ ExtraLabel E.opts.stepbackStrat t.text)) := by
  intro R
  obtain ⟨r0, rows, w, h1, h2, ⟨_, _, _, h3⟩, h4, -⟩ := C70_table E x0 startId hess0 st0 fuel st' h
  have hR : R = r0 :: rows := by
    show rowsOf (minimizeLog E fuel x0 startId hess0 st0) = _
    rw [h1, rowsOf_append, rowsOf_table]
    simp [rowsOf]
  refine ⟨by rw [hR, List.length_cons, h2], ?_, ?_⟩
  · intro h0
    have : R[0] = r0 := by simp [hR]
    rw [this]; exact h3.blank.2.2.2
  · intro j hj
    have hj' : j < rows.length := by rw [hR, List.length_cons] at hj; omega
    have : R[j + 1] = rows[j] := by simp [hR]
    rw [this]
    obtain ⟨prev, cur, step, new, next, cur', -, hp, -, hs⟩ := h4 j hj'
    refine ⟨step.type, hs.type, ?_⟩
    have := hp.proposal
    rw [hO] at this
    exact trustRegion_type _ _ _ _ _ _ this

/-- C70: without bounds every row after the first carries the label of the chosen solver. -/
theorem C70_type_unbounded (E : Env Num n) (x0 : Vec Num n) (startId : String) (hess0 : Hess0 Num) (st0 : St Num n) (O : ℕ → Oracles Num) (inner : ℕ)
    (hO : ∀ k I, E.tr k I = trustRegion (O k) inner E.opts.subspaceDim E.opts.stepbackStrat I) (hU : NoBounds E.lb E.ub)
    (tm : ℝ) (htm : E.opts.thetaMax = Num.fin tm) (htm0 : 0 < tm) (htm1 : tm ≤ 1)
    (f : (Fin n → ℝ) → ℝ) (g : (Fin n → ℝ) → Fin n → ℝ) (hR : Evaluates E f g) (fuel : ℕ) (st' : St Num n) (h : minimize E fuel x0 startId hess0 st0 = .ok st') :
    let R := rowsOf (minimizeLog E fuel x0 startId hess0 st0)
    R.length = st'.iteration + 1 ∧ ∀ j (hj : j + 1 < R.length), ∃ t, R[j + 1].type = some t ∧ t.text = solverLabel E.opts.subspaceDim := by
  intro R
  obtain ⟨r0, rows, w, h1, h2, -, h4, -⟩ := C70_table E x0 startId hess0 st0 fuel st' h
  have hR' : R = r0 :: rows := by
    show rowsOf (minimizeLog E fuel x0 startId hess0 st0) = _
    rw [h1, rowsOf_append, rowsOf_table]
    simp [rowsOf]
  refine ⟨by rw [hR', List.length_cons, h2], ?_⟩
  intro j hj
  have hj' : j < rows.length := by rw [hR', List.length_cons] at hj; omega
  have : R[j + 1] = rows[j] := by simp [hR']
  rw [this]
  obtain ⟨prev, cur, step, new, next, cur', hh, hp, -, hs⟩ := h4 j hj'
  refine ⟨step.type, hs.type, ?_⟩
  have hpr := hp.proposal
  obtain ⟨x, hx, -⟩ := C01_current E x0 startId hess0 st0 j prev cur hh
  obtain ⟨-, -, hg⟩ := head_values hU hR _ startId hess0 st0 j prev cur hh x hx
  have hv : ∀ i, ∃ v, affineV E.lb E.ub (Num.ofV x) (Num.ofV (g x)) i = Num.fin v := by
    intro i
    rcases affine_coord E.lb E.ub x (g x) (hU.inBox x) i with ⟨_, u, _, _, h, _⟩ | ⟨_, _, h, _⟩ | ⟨_, l, _, _, h, _⟩ | ⟨_, _, h, _⟩ <;> exact ⟨_, h⟩
  choose v hv using hv
  obtain ⟨th, hth, h5, h6⟩ := thetaOf_range tm htm0 htm1 v (g x)
  rw [hO, C51_one_candidate _ _ _ _ _ hU th ?_ (htm0.trans_le h5)] at hpr
  · exact trStep_type _ _ _ _ _ hpr
  · show thetaOf E.opts.thetaMax (affineV E.lb E.ub prev.x prev.grad) prev.grad = _
    rw [htm, hx, hg, show affineV E.lb E.ub (Num.ofV x) (Num.ofV (g x)) = Num.ofV v from funext hv, hth]

/-- the assumptions of `C70_type` and `C70_type_unbounded` are met with default options: minimizing half the squared norm -/
example (r0 : Fin 2 → ℝ) : ∃ (E : Env Num 2) (O : ℕ → Oracles Num) (f : (Fin 2 → ℝ) → ℝ) (g : (Fin 2 → ℝ) → Fin 2 → ℝ) (st' : St Num 2),
    (∀ k I, E.tr k I = trustRegion (O k) 2 E.opts.subspaceDim E.opts.stepbackStrat I) ∧ NoBounds E.lb E.ub ∧
    (∃ tm : ℝ, E.opts.thetaMax = Num.fin tm ∧ 0 < tm ∧ tm < 1) ∧ Evaluates E f g ∧
    minimize E 1000 (Num.ofV r0) "0" (.val .none) (St.new E.opts none) = .ok st' := by
  obtain ⟨st', h⟩ := tameEnv_returns (by norm_num) (fun x : Fin 2 → ℝ => 1 / 2 * Num.rdot x x) (fun x => x) (fun _ => idM) (fun _ i j => by simp [idM, eq_comm]) r0
  refine ⟨tameEnv (fun x : Fin 2 → ℝ => 1 / 2 * Num.rdot x x) (fun x => x) (fun _ => idM), fun _ => exactRoutines, fun x : Fin 2 → ℝ => 1 / 2 * Num.rdot x x, fun x => x, st', ?_,
    fun _ => ⟨rfl, rfl⟩, ?_, ?_, h⟩
  · intro k I; simp only [tameEnv, plainEnv, demo_opts]
  · simp only [tameEnv, plainEnv, demo_opts]
    exact ⟨_, rfl, by norm_num, by norm_num⟩
  · exact Returns.evaluates (H := fun _ => idM) ⟨rfl, rfl, fun k x => tameObj_real (fun x : Fin 2 → ℝ => 1 / 2 * Num.rdot x x) (fun x => x) (fun _ => idM) x⟩

end Fides
