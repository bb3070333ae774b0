import Verif.Lemmas.Affine
import Verif.Lemmas.Nudge
import Verif.Lemmas.Subproblem
import Verif.Lemmas.Demo

/-!
# C51: without bounds the method is a plain trust-region method
-/

set_option linter.unusedSectionVars false

namespace Fides
open Num Spec
variable {n : ℕ}

/-- no variable has a bound -/
def NoBounds (lb ub : Vec Num n) : Prop := ∀ i, lb i = ninf ∧ ub i = pinf

theorem NoBounds.inBox {lb ub : Vec Num n} (h : NoBounds lb ub) (x : Fin n → ℝ) : InBox lb ub x := by
  intro i
  rw [InBox1, (h i).1, (h i).2]
  simp

/-- **C51.** Without bounds every starting point is used unchanged. -/
theorem C51_nudge (lb ub x : Vec Num n) (h : NoBounds lb ub) : nudge lb ub x = x := by
  have key : ∀ v : Vec Num n, (∀ i, v i = nan ∨ v i = pinf ∨ ∃ r, 0 ≤ r ∧ v i = fin r) → (∀ i, v i = nan ∨ v i = pinf) →
      lt (vmin v) (degEps : Num) = false := by
    intro v h1 h2
    rcases vmin_nonneg v h1 with ⟨h, _⟩ | ⟨h, _⟩ | ⟨r, _, _, ⟨i, hi⟩, _⟩
    · rw [h]; simp
    · rw [h]; simp
    · rcases h2 i with h | h <;> rw [h] at hi <;> cases hi
  have h1 : ∀ i, (FloatOps.abs (ub i - x i) : Num) = nan ∨ (FloatOps.abs (ub i - x i) : Num) = pinf := by
    intro i; rw [(h i).2]; cases x i <;> simp
  have h2 : ∀ i, (FloatOps.abs (x i - lb i) : Num) = nan ∨ (FloatOps.abs (x i - lb i) : Num) = pinf := by
    intro i; rw [(h i).1]; cases x i <;> simp
  unfold nudge
  rw [key _ (fun i => by rcases h1 i with h | h <;> simp [h]) h1, key _ (fun i => by rcases h2 i with h | h <;> simp [h]) h2]
  simp

/-- **C51.** Without bounds the step computation works on the unscaled problem: scaling is the identity, the scaled gradient is the
gradient and the scaled Hessian is the Hessian. -/
theorem C51_scaling (E : Env Num n) (st : St Num n) (x g : Fin n → ℝ) (H : Fin n → Fin n → ℝ) (h : NoBounds E.lb E.ub)
    (hx : st.x = ofV x) (hg : st.grad = ofV g) (hH : st.hess = ofM H) :
    (trInput E st).scaling = ofV 1 ∧ (trInput E st).dv = ofV 0 ∧ (trInput E st).prob.sg = ofV g ∧
      (trInput E st).prob.shess = ofM H := by
  have hv : ∀ i, affineDv E.lb E.ub (ofV g) i = fin 0 ∧ ∃ v, affineV E.lb E.ub (ofV x) (ofV g) i = fin v ∧ |v| = 1 := by
    intro i
    rcases affine_coord E.lb E.ub x g (h.inBox x) i with ⟨h1, u, h0, h2, h3, h4⟩ | ⟨h1, h0, h3, h4⟩ | ⟨h1, l, h0, h2, h3, h4⟩ | ⟨h1, h0, h3, h4⟩
    · rw [(h i).2] at h0; cases h0
    · exact ⟨h4, _, h3, by norm_num⟩
    · rw [(h i).1] at h0; cases h0
    · exact ⟨h4, _, h3, by norm_num⟩
  have hs : (trInput E st).scaling = ofV 1 := by
    funext i
    show FloatOps.sqrt (FloatOps.abs (affineV E.lb E.ub st.x st.grad i)) = _
    rw [hx, hg]
    obtain ⟨_, v, h1, h2⟩ := hv i
    rw [h1, fin_abs, h2, fin_sqrt _ zero_le_one]
    simp
  have hdv : (trInput E st).dv = ofV 0 := by
    funext i
    show affineDv E.lb E.ub st.grad i = _
    rw [hg, (hv i).1]; rfl
  refine ⟨hs, hdv, ?_, ?_⟩
  · show sdot (trInput E st).scaling st.grad = _
    rw [hs, hg]
    funext i
    rw [sdot_fin _ _ i (g i) rfl]; simp
  · funext i j
    have hgd : (trInput E st).prob.gDscaling i = fin 0 := by
      show FloatOps.abs (st.grad i) * (trInput E st).dv i = _
      rw [hg, hdv]; simp
    have e1 : (trInput E st).prob.scaling = ofV 1 := hs
    have e2 : (trInput E st).prob.hess = ofM H := hH
    simp only [Prob.shess, hgd, e1, e2]
    simp

/-- without bounds no step is cut back: the factor is 1, or NaN when the step itself is not finite -/
theorem stepBack_noBounds (P : Prob Num n) (hb : NoBounds P.lb P.ub) (theta : ℝ) (ht : P.theta = fin theta) (h0 : 0 < theta)
    (st : Step Num n) : ((st.stepBack P).alpha = nan ∨ (st.stepBack P).alpha = fin 1) ∧
      ∀ x s : Fin n → ℝ, st.x = ofV x → st.s = ofV s → (st.stepBack P).alpha = fin 1 ∧ (st.stepBack P).s = ofV s := by
  have hbr : ∀ i, (st.stepBack P).br i = nan ∨ (st.stepBack P).br i = pinf := by
    intro i
    rw [stepBack_br, (hb i).1, (hb i).2]
    unfold brOf
    split
    · cases st.x i with
      | nan => simp [npMax2]
      | pinf => simp [npMax2]
      | ninf =>
        cases st.s i with
        | fin s =>
          have : (ninf - ninf : Num) / fin s = nan := by simp
          rw [this, show (pinf - ninf : Num) = pinf from rfl, pinf_div_fin]
          split <;> simp [npMax2]
        | _ => simp [npMax2]
      | fin x =>
        cases st.s i with
        | nan => simp [npMax2]
        | pinf => simp [npMax2]
        | ninf => simp [npMax2]
        | fin s =>
          simp only [pinf_sub_fin, ninf_sub_fin, pinf_div_fin, ninf_div_fin]
          split <;> simp [npMax2]
    · right; rfl
  have halpha : ∀ m, (st.stepBack P).minbr = m → (m = nan → (st.stepBack P).alpha = nan) ∧ (m = pinf → (st.stepBack P).alpha = fin 1) := by
    intro m hm
    rw [stepBack_alpha, hm, ht]
    refine ⟨fun h => by rw [h]; simp [npMin2], fun h => ?_⟩
    rw [h, fin_mul_pinf, infSign_pos h0]; simp [npMin2]
  refine ⟨?_, ?_⟩
  · rcases vmin_nonneg (st.stepBack P).br (fun i => by rcases hbr i with h | h <;> simp [h]) with ⟨h, _⟩ | ⟨h, _⟩ | ⟨r, _, _, ⟨i, hi⟩, _⟩
    · exact Or.inl ((halpha _ rfl).1 (by rw [stepBack_minbr, h]))
    · exact Or.inr ((halpha _ rfl).2 (by rw [stepBack_minbr, h]))
    · rcases hbr i with h | h <;> rw [h] at hi <;> cases hi
  · intro x s hx hs
    have hbr' : ∀ i, (st.stepBack P).br i = pinf := by
      intro i
      rw [stepBack_br, hx, hs]
      rcases brOf_real (P.lb i) (P.ub i) (x i) (s i) (hb.inBox x i) with ⟨h, _⟩ | ⟨r, _, _, h, _⟩
      · exact h
      · rcases hbr i with h' | h' <;> rw [stepBack_br, hx, hs] at h'
        · rw [ofV_apply, ofV_apply, h] at h'; cases h'
        · exact h'
    have ha : (st.stepBack P).alpha = fin 1 := by
      rcases vmin_nonneg (st.stepBack P).br (fun i => by simp [hbr' i]) with ⟨_, i, h⟩ | ⟨h, _⟩ | ⟨r, _, _, ⟨i, hi⟩, _⟩
      · rw [hbr' i] at h; cases h
      · exact (halpha _ rfl).2 (by rw [stepBack_minbr, h])
      · rw [hbr' i] at hi; cases hi
    refine ⟨ha, ?_⟩
    funext i
    show st.s i * (st.stepBack P).alpha = _
    rw [ha, hs]; simp

theorem trStep_isStepBack {F : Type} [FloatOps F] (O : Oracles F) (fuel : ℕ) (P : Prob F n) (dim : SubSpaceDim) (tr : Step F n)
    (h : trStep O fuel P dim = .ok tr) : ∃ (st : Step F n) (q : F), tr = { st.stepBack P with qpval := q } ∧ st.x = P.x := by
  have hcalc : ∀ st st' : Step F n, st.x = P.x → st.calculate O.sub P = .ok st' → ∃ (a : Step F n) (q : F), st' = { a.stepBack P with qpval := q } ∧ a.x = P.x := by
    intro st st' hx h
    unfold Step.calculate at h
    split at h
    · cases h
    · rename_i st1 hc
      have := (computeStep_frame _ _ _ _ hc).1
      cases h
      exact ⟨_, _, rfl, by rw [this, hx]⟩
  cases dim with
  | two =>
    simp only [trStep, step2d] at h
    split at h
    · cases h
    · refine hcalc _ _ ?_ h; rfl
  | full => refine hcalc _ _ ?_ h; rfl
  | steihaug =>
    simp only [trStep, stepSteihaug] at h
    split at h
    · cases h
    · split at h
      · cases h
      · cases h; exact ⟨_, _, rfl, rfl⟩
  | other => cases h

/-- **C51.** Without bounds exactly one candidate is computed, whatever the step-back strategy: the proposal is the step of the chosen
subspace solver. -/
theorem C51_one_candidate (O : Oracles Num) (fuel : ℕ) (dim : SubSpaceDim) (strat : StepBackStrategy) (I : TRIn Num n)
    (hb : NoBounds I.lb I.ub) (theta : ℝ) (ht : I.theta = fin theta) (h0 : 0 < theta) :
    trustRegion O fuel dim strat I = trStep O fuel I.prob dim := by
  unfold trustRegion candidates
  cases h : trStep O fuel I.prob dim with
  | error e => rfl
  | ok tr =>
    obtain ⟨st, q, rfl, _⟩ := trStep_isStepBack _ _ _ _ _ h
    have ha : lt (st.stepBack I.prob).alpha (Fides.lit 1 : Num) = false := by
      rcases (stepBack_noBounds I.prob hb theta ht h0 st).1 with h | h <;> rw [h] <;> simp
    simp only [ha, Bool.false_and, Bool.false_eq_true, if_false]
    rfl

/-- **C51.** Without bounds a finite step is taken in full: the proposal moves by exactly the step the subspace solver computed
(`og_s`), and the factor is 1. -/
theorem C51_full_step (O : Oracles Num) (fuel : ℕ) (dim : SubSpaceDim) (strat : StepBackStrategy) (I : TRIn Num n)
    (hb : NoBounds I.lb I.ub) (theta : ℝ) (ht : I.theta = fin theta) (h0 : 0 < theta) (x s : Fin n → ℝ) (hx : I.x = ofV x)
    (tr : Step Num n) (h : trustRegion O fuel dim strat I = .ok tr) (hs : tr.ogS = ofV s) : tr.alpha = fin 1 ∧ tr.s = tr.ogS := by
  rw [C51_one_candidate O fuel dim strat I hb theta ht h0] at h
  obtain ⟨st, q, rfl, hxs⟩ := trStep_isStepBack _ _ _ _ _ h
  have hs' : st.s = ofV s := hs
  obtain ⟨h1, h2⟩ := (stepBack_noBounds I.prob hb theta ht h0 st).2 x s (by rw [hxs]; exact hx) hs'
  exact ⟨h1, by show (st.stepBack I.prob).s = st.s; rw [h2, hs']⟩

/-- an unbounded problem whose proposal is a full finite step -/
example : NoBounds demoIn.lb demoIn.ub ∧ demoIn.theta = fin (19 / 20) ∧ ∃ tr, trustRegion zeroOracles 10 .two .reflect demoIn = .ok tr ∧
    tr.s = v1 (-1) := by
  obtain ⟨step, h1, h2, _⟩ := demo_tr
  exact ⟨fun _ => ⟨rfl, rfl⟩, rfl, step, h1, h2⟩

end Fides
