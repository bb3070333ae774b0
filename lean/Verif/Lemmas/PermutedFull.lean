import Verif.Lemmas.Library
import Verif.Props.Permuted

/-! Helper lemmas: the order of the variables, on positive definite problems, for the full-space solver and for routines that are only known to be exact. -/

namespace Fides
open Num Spec
variable {n : ℕ} {σ : Equiv.Perm (Fin n)}

theorem rdot_perm (σ : Equiv.Perm (Fin n)) (v w : Fin n → ℝ) : rdot (permV σ v) (permV σ w) = rdot v w := by
  unfold rdot permV
  exact Equiv.sum_comp σ fun i => v i * w i

theorem rmv_perm (σ : Equiv.Perm (Fin n)) (B : Fin n → Fin n → ℝ) (v : Fin n → ℝ) : rmv (permM σ B) (permV σ v) = permV σ (rmv B v) := by
  funext i
  exact rdot_perm σ (fun j => B (σ i) j) v

theorem rnorm_perm (σ : Equiv.Perm (Fin n)) (v : Fin n → ℝ) : rnorm (permV σ v) = rnorm v := by
  have h := rdot_perm σ v v
  rw [← rnorm_sq, ← rnorm_sq] at h
  exact (mul_self_inj (rnorm_nonneg _) (rnorm_nonneg _)).mp h

theorem permV_symm' {F : Type} (σ : Equiv.Perm (Fin n)) (v : Vec F n) : permV σ (permV σ.symm v) = v := by
  funext i; simp [permV]

theorem permM_symm' {F : Type} (σ : Equiv.Perm (Fin n)) (a : Mat F n n) : permM σ (permM σ.symm a) = a := by
  funext i j; simp [permM]

theorem sym_perm {B : Fin n → Fin n → ℝ} (hS : Sym B) : Sym (permM σ B) := fun i j => hS (σ i) (σ j)

theorem pd_perm {B : Fin n → Fin n → ℝ} (h : PD B) : PD (permM σ B) := by
  intro v hv
  have e : v = permV σ (permV σ.symm v) := (permV_symm' σ v).symm
  rw [e, rmv_perm, rdot_perm]
  apply h
  intro h0
  apply hv
  rw [e, h0]; rfl

theorem real_perm {P : Prob Num n} {x d sg : Fin n → ℝ} {B : Fin n → Fin n → ℝ} {D th : ℝ} (hP : RealProb P x d sg B D th) :
    RealProb (permProb σ P) (permV σ x) (permV σ d) (permV σ sg) (permM σ B) D th where
  x := by show permV σ P.x = _; rw [hP.x]; rfl
  scaling := by show permV σ P.scaling = _; rw [hP.scaling]; rfl
  sg := by show permV σ P.sg = _; rw [hP.sg]; rfl
  shess := by rw [pv_shess, hP.shess]; rfl
  delta := hP.delta
  theta := hP.theta
  th0 := hP.th0
  th1 := hP.th1
  box := fun i => hP.box (σ i)

/-! ## routines -/

theorem isEig_perm {B : Fin n → Fin n → ℝ} {vals : Fin n → ℝ} {U : Fin n → Fin n → ℝ} (h : IsEig (permM σ.symm B) vals U) : IsEig B vals (fun i j => U (σ i) j) := by
  refine ⟨fun a b => ?_, fun j => ?_⟩
  · rw [← h.1 a b]
    exact rdot_perm σ (fun i => U i a) (fun i => U i b)
  · have h1 := congrArg (permV σ) (h.2 j)
    rw [← rmv_perm, permM_symm'] at h1
    exact h1

theorem conjRoutines_exact {O : Oracles Num} (hX : ExactRoutines O) : ExactRoutines (conjRoutines σ O) where
  eig := hX.eig
  npEig {m} B hB := by
    by_cases h : m = n
    · subst h
      obtain ⟨vals, U, h1, h2⟩ := hX.npEig (permM σ.symm B) (sym_perm hB)
      refine ⟨vals, fun i j => U (σ i) j, ?_, isEig_perm h2⟩
      have : permM σ.symm (ofM B) = ofM (permM σ.symm B) := rfl
      simp only [conjRoutines, dif_pos, this, h1]
      rfl
    · simp only [conjRoutines, dif_neg h]
      exact hX.npEig B hB
  lstsq {m} B g hB := by
    by_cases h : m = n
    · subst h
      obtain ⟨z, h1, h2, h3⟩ := hX.lstsq (permM σ.symm B) (permV σ.symm g) (sym_perm hB)
      have key : ∀ y, rnorm (rmv B (permV σ y) - g) = rnorm (rmv (permM σ.symm B) y - permV σ.symm g) := by
        intro y
        rw [← rnorm_perm σ.symm (rmv B (permV σ y) - g)]
        have : permV σ.symm (rmv B (permV σ y) - g) = permV σ.symm (rmv B (permV σ y)) - permV σ.symm g := rfl
        rw [this, ← rmv_perm, permV_symm]
      refine ⟨permV σ z, ?_, fun y => ?_, fun y hy => ?_⟩
      · have e1 : permM σ.symm (ofM B) = ofM (permM σ.symm B) := rfl
        have e2 : permV σ.symm (ofV g) = ofV (permV σ.symm g) := rfl
        simp only [conjRoutines, dif_pos, e1, e2, h1]
        rfl
      · rw [← permV_symm' σ y, key, key]
        exact h2 _
      · rw [← permV_symm' σ y] at hy ⊢
        rw [key, key] at hy
        rw [rnorm_perm, rnorm_perm]
        exact h3 _ hy
    · simp only [conjRoutines, dif_neg h]
      exact hX.lstsq B g hB
  roots := hX.roots

/-! ## what a run uses of a step -/

/-- a step without the coordinates of the subspace -/
noncomputable def bare (s : Step Num n) : Step Num n := { s with subspace := List.replicate s.subspace.length vzero, sc := [], ogSc := [] }

theorem bare_iff {s s' : Step Num n} (h : bare s = bare s') : s' = { s with subspace := s'.subspace, sc := s'.sc, ogSc := s'.ogSc } ∧ s.subspace.length = s'.subspace.length := by
  cases s; cases s'
  simp only [bare, Step.mk.injEq] at h
  obtain ⟨h1, h2, h3, h4, h5, h6, -, h7, h8, -, h9, h10, h11, h12, h13, h14, h15, h16, h17, h18⟩ := h
  subst h1 h2 h4 h5 h6 h7 h8 h9 h10 h11 h12 h13 h14 h15 h16 h17 h18
  refine ⟨rfl, ?_⟩
  have := congrArg List.length h3
  simpa using this

section
variable (E : Env Num n)

theorem finish_bare (st : St Num n) (old : Funout Num n) (s : Step Num n) (new : Funout Num n) : finish E st old (bare s) new = finish E st old s new := by
  have e1 : radiusStep E st (bare s) new = radiusStep E st s new := rfl
  have e2 : postCheck E st (bare s) new = postCheck E st s new := rfl
  have e3 : ∀ st', update E (bare s) new old st' = update E s new old st' := fun _ => rfl
  have e4 : ∀ acc th sh st', historyRow E acc (bare s) new th sh st' = historyRow E acc s new th sh st' := by
    intro acc th sh st'
    unfold historyRow
    have : (bare s).subspace.length = s.subspace.length := by simp [bare]
    rw [this]
    rfl
  unfold finish
  rw [e1, e2, e3]
  simp only [e4]

theorem iterate_bare (T : ℕ → TRIn Num n → Except PyErr (Step Num n)) (st : St Num n) (old : Funout Num n)
    (h : (T st.proposals (trInput E (preIter st))).map bare = (E.tr st.proposals (trInput E (preIter st))).map bare) :
    iterate { E with tr := T } st old = iterate E st old := by
  rw [iterate_eq, iterate_eq]
  have e : trInput { E with tr := T } (preIter st) = trInput E (preIter st) := rfl
  rw [e]
  split
  · simp only
    cases h1 : T st.proposals (trInput E (preIter st)) with
    | error a =>
      rw [h1] at h
      cases h2 : E.tr st.proposals (trInput E (preIter st)) with
      | error b => rw [h2] at h; cases h; rfl
      | ok b => rw [h2] at h; cases h
    | ok a =>
      rw [h1] at h
      cases h2 : E.tr st.proposals (trInput E (preIter st)) with
      | error b => rw [h2] at h; cases h
      | ok b =>
        rw [h2] at h
        simp only [Except.map, Except.ok.injEq] at h
        have f1 : ∀ s : Step Num n, trialOut { E with tr := T } st s = trialOut E st s := fun _ => rfl
        have f2 : ∀ s : Step Num n, trialOut E st s = trialOut E st (bare s) := fun _ => rfl
        have f3 : ∀ (s : Step Num n) o, afterEval st s o = afterEval st (bare s) o := fun _ _ => rfl
        have f4 : ∀ (s : Step Num n) new, finish { E with tr := T } st old s new = finish E st old s new := fun _ _ => rfl
        simp only [f1, f4]
        rw [f2 a, f2 b, h]
        simp only [f3 a, f3 b, h, ← finish_bare E st old a, ← finish_bare E st old b]
  · rfl

/-- a run does not depend on the coordinates of the subspace, and depends on the proposals made for the states it meets only -/
theorem minimize_bare (T : ℕ → TRIn Num n → Except PyErr (Step Num n)) (x0 : Vec Num n) (startId : String) (hess0 : Hess0 Num) (st0 : St Num n)
    (h : ∀ k st cur st1, LoopHead E x0 startId hess0 st0 k st cur → checkContinue E st = (true, st1) →
      (T st1.proposals (trInput E (preIter st1))).map bare = (E.tr st1.proposals (trInput E (preIter st1))).map bare)
    (fuel : ℕ) : minimize { E with tr := T } fuel x0 startId hess0 st0 = minimize E fuel x0 startId hess0 st0 := by
  have hloop : ∀ (fuel k : ℕ) (st : St Num n) (cur : Funout Num n), LoopHead E x0 startId hess0 st0 k st cur → loop { E with tr := T } fuel st cur = loop E fuel st cur := by
    intro fuel
    induction fuel with
    | zero => intro k st cur hh; rw [loop.eq_def, loop.eq_def]; rfl
    | succ fuel ih =>
      intro k st cur hh
      have e : checkContinue { E with tr := T } st = checkContinue E st := rfl
      rw [loop, loop, e]
      cases hc : checkContinue E st with
      | mk b st1 =>
        cases b with
        | false => rfl
        | true =>
          simp only
          rw [iterate_bare E T st1 cur (h k st cur st1 hh hc)]
          cases hi : iterate E st1 cur with
          | error e => rfl
          | ok r => exact ih (k + 1) r.1 r.2 (.next k st st1 r.1 cur r.2 hh hc hi)
  unfold minimize
  simp only
  by_cases hn : n = 0
  · rw [if_pos hn, if_pos hn]; rfl
  · rw [if_neg hn, if_neg hn]
    have e1 : ∀ st : St Num n, makeNonDegenerate { E with tr := T } st = makeNonDegenerate E st := fun _ => rfl
    have e2 : ∀ x (st : St Num n), checkInBounds { E with tr := T } x st = checkInBounds E x st := fun _ _ => rfl
    have e3 : ∀ h0 (st : St Num n), setup { E with tr := T } h0 st = setup E h0 st := fun _ _ => rfl
    have e4 : ∀ st : St Num n, reset { E with tr := T } startId st = reset E startId st := fun _ => rfl
    have e5 : ∀ st : St Num n, writeHistory { E with tr := T } st = writeHistory E st := fun _ => rfl
    simp only [e1, e2, e3, e4, e5]
    split
    · rfl
    · rename_i st1 hb
      split
      · rfl
      · rename_i st cur hs
        rw [hloop fuel 0 st cur (.start st1 st cur hb hs)]

end

/-! ## proposals from a given trust-region step -/

/-- the rest of `trust_region` after the first step -/
noncomputable def fromStep (O : Oracles Num) (fuel : ℕ) (P : Prob Num n) (strat : StepBackStrategy) (r : Except PyErr (Step Num n)) : Except PyErr (Step Num n) :=
  match r with
  | .error e => .error e
  | .ok tr =>
    if lt tr.alpha (Fides.lit 1) && decide (1 < n) then
      match stepGradient O P with
      | .error e => .error e
      | .ok gs =>
        match stepbackCandidates O fuel P strat tr with
        | .error e => .error e
        | .ok rest => .ok (argminGo (fun st : Step Num n => st.qpval) tr (gs :: rest))
    else .ok tr

theorem trustRegion_from (O : Oracles Num) (fuel : ℕ) (dim : SubSpaceDim) (strat : StepBackStrategy) (I : TRIn Num n) :
    trustRegion O fuel dim strat I = fromStep O fuel I.prob strat (trStep O fuel I.prob dim) := by
  unfold trustRegion candidates fromStep
  cases trStep O fuel I.prob dim with
  | error e => rfl
  | ok tr =>
    simp only
    cases (lt tr.alpha (Fides.lit 1) && decide (1 < n))
    · rfl
    · simp only [if_true]
      cases stepGradient O I.prob with
      | error e => rfl
      | ok gs =>
        simp only
        cases stepbackCandidates O fuel I.prob strat tr <;> rfl

theorem fromStep_perm {O O' : Oracles Num} (hO : PermutedRoutines σ O O') (fuel : ℕ) (P : Prob Num n) (strat : StepBackStrategy) (r : Except PyErr (Step Num n)) :
    fromStep O' fuel (permProb σ P) strat (r.map (permStep σ)) = (fromStep O fuel P strat r).map (permStep σ) := by
  unfold fromStep
  cases r with
  | error e => rfl
  | ok tr =>
    simp only [Except.map]
    rw [pv_stepGradient hO, pv_stepbackCandidates hO]
    show (if (lt tr.alpha (Fides.lit 1) && decide (1 < n)) = true then _ else _) = _
    cases (lt tr.alpha (Fides.lit 1) && decide (1 < n))
    · rfl
    · simp only [if_true]
      cases stepGradient O P with
      | error e => rfl
      | ok gs =>
        simp only [Except.map]
        cases stepbackCandidates O fuel P strat tr with
        | error e => rfl
        | ok rest =>
          simp only
          rw [← argminGo_pv, List.map_cons]

theorem fromStep_oracle (O O' : Oracles Num) (fuel : ℕ) (P : Prob Num n) (strat : StepBackStrategy) (hst : strat = .reflect ∨ strat = .singleReflect) (r : Except PyErr (Step Num n)) :
    fromStep O fuel P strat r = fromStep O' fuel P strat r := by
  have h2 : ∀ tr, stepbackCandidates O fuel P strat tr = stepbackCandidates O' fuel P strat tr := by
    intro tr
    rcases hst with rfl | rfl
    · exact stepbackReflect_oracle O O' P tr
    · simp only [stepbackCandidates, stepReflected_oracle O O']
  unfold fromStep
  simp only [h2, stepGradient_oracle O O']

theorem argminGo_map_bare (a : Step Num n) (l : List (Step Num n)) :
    argminGo (fun st : Step Num n => st.qpval) (bare a) (l.map bare) = bare (argminGo (fun st : Step Num n => st.qpval) a l) := by
  induction l generalizing a with
  | nil => rfl
  | cons b l ih =>
    simp only [List.map_cons, argminGo]
    have h1 : (bare a).qpval = a.qpval := rfl
    have h2 : (bare b).qpval = b.qpval := rfl
    rw [h1, h2]
    cases isNaN a.qpval
    · simp only [Bool.false_eq_true, if_false]
      split <;> exact ih _
    · rfl

theorem argminGo_bare (a b : Step Num n) (l : List (Step Num n)) (h : bare a = bare b) :
    bare (argminGo (fun st : Step Num n => st.qpval) a l) = bare (argminGo (fun st : Step Num n => st.qpval) b l) := by
  rw [← argminGo_map_bare, ← argminGo_map_bare, h]

theorem stepbackCandidates_bare (O : Oracles Num) (fuel : ℕ) (P : Prob Num n) (strat : StepBackStrategy) (hst : strat = .reflect ∨ strat = .singleReflect) (a : Step Num n) :
    stepbackCandidates O fuel P strat (bare a) = stepbackCandidates O fuel P strat a := by
  rcases hst with rfl | rfl <;> rfl

theorem fromStep_bare (O : Oracles Num) (fuel : ℕ) (P : Prob Num n) (strat : StepBackStrategy) (hst : strat = .reflect ∨ strat = .singleReflect) (r r' : Except PyErr (Step Num n))
    (h : r.map bare = r'.map bare) : (fromStep O fuel P strat r).map bare = (fromStep O fuel P strat r').map bare := by
  cases r with
  | error e =>
    cases r' with
    | error e' => simp only [Except.map, Except.error.injEq] at h; rw [h]
    | ok b => cases h
  | ok a =>
    cases r' with
    | error e' => cases h
    | ok b =>
      simp only [Except.map, Except.ok.injEq] at h
      have ha : a.alpha = b.alpha := by have := congrArg Step.alpha h; exact this
      have hc : stepbackCandidates O fuel P strat a = stepbackCandidates O fuel P strat b := by
        rw [← stepbackCandidates_bare O fuel P strat hst a, ← stepbackCandidates_bare O fuel P strat hst b, h]
      unfold fromStep
      simp only [ha, hc]
      split
      · split
        · rfl
        · split
          · rfl
          · simp only [Except.map, argminGo_bare a b _ h]
      · simp only [Except.map, h]

/-! ## the full-space solver -/

/-- the solution of a full-space subproblem found by the code -/
structure WholeBest (B : Fin n → Fin n → ℝ) (g : Fin n → ℝ) (D : ℝ) (w : Fin n → ℝ) : Prop where
  newton : ∀ nv, rmv B nv = -g → rnorm nv ≤ D + ballTol → w = nv
  size : rnorm w ≤ D ∨ (rmv B w = -g ∧ rnorm w ≤ D + ballTol)
  best : MinOverBall B g D w

theorem WholeBest.unique {B : Fin n → Fin n → ℝ} (hS : Sym B) (hpd : PD B) {g : Fin n → ℝ} {D : ℝ} (hD : 0 < D) {w w' : Fin n → ℝ} (h : WholeBest B g D w) (h' : WholeBest B g D w') : w = w' := by
  rcases h.size with h1 | ⟨h1, h2⟩
  · rcases h'.size with h1' | ⟨h1', h2'⟩
    · exact min_unique hS hpd hD.le h.best h'.best h1 h1'
    · exact h.newton w' h1' h2'
  · exact (h'.newton w h1 h2).symm

section
variable {P : Prob Num n} {x d sg : Fin n → ℝ} {B : Fin n → Fin n → ℝ} {D th : ℝ}

/-- the subproblem in an orthonormal basis of the whole space -/
theorem compute_whole (hP : RealProb P x d sg B D th) (hS : Sym B) (hpd : PD B) (hD : 0 < D) (O : Oracles Num) (hX : ExactRoutines O) (st : Step Num n) (hss0 : st.ss0 = vzero)
    (cs : List (Vec Num n)) (hcols : st.subspace = cs) (C : Fin cs.length → Fin n → ℝ) (hC : ∀ a, cs.get a = ofV (C a)) (h2l : 2 ≤ cs.length)
    (hor' : ∀ a b, rdot (C a) (C b) = if a = b then 1 else 0) (hall : ∀ q : Fin n → ℝ, ∃ c, q = colsum C c) :
    ∃ sc w, st.computeStep O.sub P = .ok { st with sc := sc, ss := ofV w, s := sdot P.scaling (ofV w) } ∧ WholeBest B sg D w := by
  have hnorm := colsum_norm C hor'
  have hM : chess (ofM B) cs = ofM (reduced B C) := by
    funext a b
    simp only [chess, hC, mulVec_ofM, dot_ofV, ofM_apply, reduced]
  have hg : cg (ofV sg) cs = ofV fun a => rdot (C a) sg := by
    funext a
    simp only [cg, hC, dot_ofV, ofV_apply]
  have hSr : Sym (reduced B C) := by
    intro a b
    simp only [reduced]
    rw [Sym.rdot_rmv hS, rdot_comm]
  have hpdr : PD (reduced B C) := by
    intro v hv
    rw [reduced_form]
    apply hpd
    intro h0
    apply hv
    have := hnorm v
    rw [h0, rnorm_eq_zero.mpr rfl] at this
    exact rnorm_eq_zero.mp this.symm
  have hnewt : ∀ c0, rmv B (colsum C c0) = -sg → rmv (reduced B C) c0 = -fun a => rdot (C a) sg := by
    intro c0 h
    rw [reduced_rmv, h]
    funext a; rw [rdot_neg]; rfl
  obtain ⟨r, ty, hsol, hmin, hlen⟩ := solveNd_pd O hX (by omega) hSr hpdr (fun a => rdot (C a) sg) hD
  have hrad : FloatOps.sqrt (pyMax (P.delta * P.delta - norm st.ss0 * norm st.ss0) (Fides.lit 0)) = fin D := by
    rw [hP.delta, hss0, vzero_ofV, norm_ofV, rnorm_eq_zero.mpr rfl, fin_mul, fin_mul, fin_sub, lit_def, pyMax_fin]
    have : max (D * D - 0 * 0) ((0 : ℚ) : ℝ) = D * D := by
      rw [max_eq_left (by push_cast; nlinarith)]; ring
    rw [this, fin_sqrt _ (by positivity), Real.sqrt_mul_self hD.le]
  refine ⟨List.ofFn (ofV r), colsum C r, ?_, ?_, ?_, ?_⟩
  · rw [computeStep_many O.sub P st cs h2l hcols, hrad, hP.shess, hP.sg, hM, hg, hsol]
    simp only [subDot_colsum cs C hC]
  · intro nv hnv hin
    obtain ⟨c0, rfl⟩ := hall nv
    rw [hnorm] at hin
    obtain ⟨ty', hsol'⟩ := solveNd_newton O hX (by omega) hSr hpdr _ c0 hD (hnewt c0 hnv) hin
    rw [hsol] at hsol'
    simp only [Except.ok.injEq, Prod.mk.injEq] at hsol'
    rw [ofV_inj.mp hsol'.1]
  · rcases hlen with h | ⟨h, hl⟩
    · left; rw [hnorm]; exact h
    · right
      obtain ⟨nv, hnv⟩ := pd_solve hS hpd sg
      obtain ⟨c0, rfl⟩ := hall nv
      have : r = c0 := pd_injective hpdr (h.trans (hnewt c0 hnv).symm)
      rw [this] at hl ⊢
      exact ⟨hnv, by rw [hnorm]; exact hl⟩
  · intro q hq
    obtain ⟨c, rfl⟩ := hall q
    rw [hnorm] at hq
    rw [← reduced_quad, ← reduced_quad]
    exact hmin _ hq

/-- the columns of the identity in any order -/
def unitCols (τ : Equiv.Perm (Fin n)) : List (Vec Num n) := List.ofFn fun j : Fin n => permV τ (ofV fun i : Fin n => if i = j then (1 : ℝ) else 0)

theorem unitCols_map (σ : Equiv.Perm (Fin n)) : (unitCols (1 : Equiv.Perm (Fin n))).map (permV σ) = unitCols σ := by
  unfold unitCols
  rw [List.map_ofFn]
  rfl

theorem compute_unit (hP : RealProb P x d sg B D th) (hS : Sym B) (hpd : PD B) (hD : 0 < D) (hn : 2 ≤ n) (O : Oracles Num) (hX : ExactRoutines O) (τ : Equiv.Perm (Fin n)) :
    ∃ sc w, (Step.init P .nd (unitCols τ)).computeStep O.sub P = .ok { Step.init P .nd (unitCols τ) with sc := sc, ss := ofV w, s := sdot P.scaling (ofV w) } ∧ WholeBest B sg D w := by
  have hl : (unitCols τ).length = n := by simp [unitCols]
  refine compute_whole hP hS hpd hD O hX (Step.init P .nd (unitCols τ)) rfl (unitCols τ) rfl
      (fun a => fun i => if τ i = a.cast hl then (1 : ℝ) else 0) (fun a => List.getElem_ofFn (f := fun j : Fin n => permV τ (ofV fun i : Fin n => if i = j then (1 : ℝ) else 0)) a.2) (by omega) ?_ ?_
  · intro a b
    have : ∀ j k : Fin n, rdot (fun i : Fin n => if τ i = j then (1 : ℝ) else 0) (fun i => if τ i = k then (1 : ℝ) else 0) = if j = k then 1 else 0 := by
      intro j k
      have := rdot_perm τ (fun i : Fin n => if i = j then (1 : ℝ) else 0) (fun i => if i = k then (1 : ℝ) else 0)
      have e : ∀ j : Fin n, permV τ (fun i : Fin n => if i = j then (1 : ℝ) else 0) = fun i : Fin n => if τ i = j then (1 : ℝ) else 0 := fun _ => rfl
      rw [e, e] at this
      rw [this]
      simp [rdot, eq_comm]
    rw [this]
    congr 1
    rw [eq_iff_iff]
    exact (Fin.cast_injective _).eq_iff
  · intro q
    refine ⟨fun a => q (τ.symm (a.cast hl)), ?_⟩
    funext i
    rw [colsum, Finset.sum_apply]
    rw [Finset.sum_eq_single ((τ i).cast hl.symm)]
    · simp
    · intro b _ hb'
      have : τ i ≠ b.cast hl := by
        intro h; exact hb' (by rw [h]; simp)
      simp [this]
    · intro h; exact absurd (Finset.mem_univ _) h

/-- the order of the columns of the identity matters only for the coordinates -/
theorem unit_bare (hP : RealProb P x d sg B D th) (hS : Sym B) (hpd : PD B) (hD : 0 < D) (hn : 2 ≤ n) (O O' : Oracles Num) (hX : ExactRoutines O) (hX' : ExactRoutines O')
    (τ τ' : Equiv.Perm (Fin n)) : ((Step.init P .nd (unitCols τ)).calculate O.sub P).map bare = ((Step.init P .nd (unitCols τ')).calculate O'.sub P).map bare := by
  obtain ⟨sc, w, h1, h2⟩ := compute_unit hP hS hpd hD hn O hX τ
  obtain ⟨sc', w', h1', h2'⟩ := compute_unit hP hS hpd hD hn O' hX' τ'
  obtain rfl := h2.unique hS hpd hD h2'
  unfold Step.calculate
  rw [h1, h1']
  have hl : (unitCols τ).length = (unitCols τ').length := by simp [unitCols]
  simp only [Except.map, Step.stepBack, Step.init, bare, hl]

theorem full_perm (hP : RealProb P x d sg B D th) (hS : Sym B) (hpd : PD B) (hD : 0 < D) (O O' : Oracles Num)
    (hX : ExactRoutines O) (hX' : ExactRoutines O') : (stepFull O' (permProb σ P)).map bare = ((stepFull O P).map (permStep σ)).map bare := by
  have hcols : (List.ofFn fun j : Fin n => fun i : Fin n => (meye : Mat Num n n) i j) = unitCols 1 := by
    unfold unitCols
    congr 1
    funext j i
    rw [meye_ofM]; rfl
  by_cases h1 : n ≤ 1
  · have hs : σ = 1 := by
      ext i
      have := (σ i).isLt
      have := i.isLt
      simp
      omega
    subst hs
    have e1 : permProb (1 : Equiv.Perm (Fin n)) P = P := rfl
    have e2 : ∀ r : Except PyErr (Step Num n), r.map (permStep 1) = r := by
      intro r
      cases r with
      | error e => rfl
      | ok s =>
        have hid : s.subspace.map (permV (1 : Equiv.Perm (Fin n))) = s.subspace := by
          conv_rhs => rw [← List.map_id s.subspace]
          rfl
        simp only [Except.map, permStep, hid]
        rfl
    rw [e1, e2, full_same hP hS hpd hD O O' hX hX']
  · have hn : 2 ≤ n := by omega
    have e : (stepFull O P).map (permStep σ) = (Step.init (permProb σ P) .nd (unitCols σ)).calculate O.sub (permProb σ P) := by
      unfold stepFull
      rw [hcols, ← pv_calculate, ← pv_init, unitCols_map]
    rw [e]
    unfold stepFull
    rw [hcols]
    exact unit_bare (real_perm hP) (sym_perm hS) (pd_perm hpd) hD hn O' O hX' hX 1 σ

end

/-- the proposal of `trust_region` for the reordered problem -/
theorem trustRegion_perm {I : TRIn Num n} {x d sg : Fin n → ℝ} {B : Fin n → Fin n → ℝ} {D th : ℝ} (hP : RealProb I.prob x d sg B D th) (hn : 0 < n) (hS : Sym B) (hpd : PD B)
    (hD : 0 < D) (O O' : Oracles Num) (hX : ExactRoutines O) (hX' : ExactRoutines O') (fuel : ℕ) (dim : SubSpaceDim) (strat : StepBackStrategy)
    (hst : strat = .reflect ∨ strat = .singleReflect) :
    (trustRegion O' fuel dim strat (permIn σ I)).map bare = ((trustRegion O fuel dim strat I).map (permStep σ)).map bare := by
  by_cases hdim : dim = .full
  · subst hdim
    rw [trustRegion_from, trustRegion_from, ← fromStep_perm (conjRoutines_ok σ O)]
    rw [fromStep_oracle (conjRoutines σ O) O' fuel _ strat hst]
    exact fromStep_bare O' fuel _ strat hst _ _ (full_perm hP hS hpd hD O O' hX hX')
  · have h1 := trustRegion_same (I := permIn σ I) (real_perm hP) hn (sym_perm hS) (pd_perm hpd) hD O' (conjRoutines σ O) hX' (conjRoutines_exact hX) fuel dim strat hst
    rw [h1, pv_trustRegion (conjRoutines_ok σ O) fuel dim hdim]

theorem perm_back {r r' : Except PyErr (Step Num n)} (key : r'.map bare = (r.map (permStep σ)).map bare) : (r'.map (permStep σ.symm)).map bare = r.map bare := by
  cases r' with
  | error e =>
    cases r with
    | error e' => simpa [Except.map] using key
    | ok s => simp [Except.map] at key
  | ok s' =>
    cases r with
    | error e' => simp [Except.map] at key
    | ok s =>
      simp only [Except.map, Except.ok.injEq] at key ⊢
      have hcomm : ∀ t : Step Num n, bare (permStep σ.symm t) = permStep σ.symm (bare t) := by
        intro t
        simp only [bare, permStep, List.length_map, List.map_replicate]
        rfl
      rw [hcomm, key, ← hcomm, permStep_symm]

end Fides
