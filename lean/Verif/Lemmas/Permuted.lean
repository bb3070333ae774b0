import Verif.Spec.Permuted
import Verif.Lemmas.Shift
import Verif.Lemmas.NumLawful

/-! Helper lemmas: a pass on a problem with reordered variables mimics the pass on the original one. -/

set_option linter.unusedSectionVars false

namespace Fides
open Num Spec
variable {n : ℕ} (σ : Equiv.Perm (Fin n))

/-! ## reductions do not depend on the order -/

theorem num_add_left_comm (a b c : Num) : Num.add a (Num.add b c) = Num.add b (Num.add a c) := by
  cases a <;> cases b <;> cases c <;> simp [Num.add]
  ring

theorem sum_perm {l l' : List Num} (h : l.Perm l') : (FloatOps.sum l : Num) = FloatOps.sum l' := by
  haveI : LeftCommutative Num.add := ⟨num_add_left_comm⟩
  exact h.foldr_eq (f := Num.add) (fin 0)

theorem npMin2_right_comm (a b c : Num) : npMin2 (npMin2 a b) c = npMin2 (npMin2 a c) b := by
  have h : ∀ a b : ℝ, npMin2 (fin a) (fin b) = fin (min a b) := by
    intro a b
    simp only [npMin2, fin_isNaN, Bool.false_eq_true, if_false, fin_lt, decide_eq_true_eq]
    split
    · rw [min_eq_right (by linarith)]
    · rw [min_eq_left (by linarith)]
  have h1 : ∀ a : Num, npMin2 nan a = nan := fun _ => rfl
  have h2 : ∀ a : Num, npMin2 a nan = nan := by intro a; cases a <;> simp [npMin2]
  have h3 : ∀ a : Num, npMin2 pinf a = a := by intro a; cases a <;> simp [npMin2]
  have h4 : ∀ a : Num, npMin2 a pinf = a := by intro a; cases a <;> simp [npMin2]
  have h5 : ∀ r : ℝ, npMin2 ninf (fin r) = ninf := by intro r; simp [npMin2]
  have h6 : ∀ r : ℝ, npMin2 (fin r) ninf = ninf := by intro r; simp [npMin2]
  have h7 : npMin2 ninf ninf = (ninf : Num) := by simp [npMin2]
  cases a <;> cases b <;> cases c <;> simp only [h, h1, h2, h3, h4, h5, h6, h7]
  · rw [min_right_comm]
  · rw [min_comm]

theorem npMax2_right_comm (a b c : Num) : npMax2 (npMax2 a b) c = npMax2 (npMax2 a c) b := by
  have h : ∀ a b : ℝ, npMax2 (fin a) (fin b) = fin (max a b) := by
    intro a b
    simp only [npMax2, fin_isNaN, Bool.false_eq_true, if_false, fin_lt, decide_eq_true_eq]
    split
    · rw [max_eq_right (by linarith)]
    · rw [max_eq_left (by linarith)]
  have h1 : ∀ a : Num, npMax2 nan a = nan := fun _ => rfl
  have h2 : ∀ a : Num, npMax2 a nan = nan := by intro a; cases a <;> simp [npMax2]
  have h3 : ∀ a : Num, npMax2 ninf a = a := by intro a; cases a <;> simp [npMax2]
  have h4 : ∀ a : Num, npMax2 a ninf = a := by intro a; cases a <;> simp [npMax2]
  have h5 : ∀ r : ℝ, npMax2 pinf (fin r) = pinf := by intro r; simp [npMax2]
  have h6 : ∀ r : ℝ, npMax2 (fin r) pinf = pinf := by intro r; simp [npMax2]
  have h7 : npMax2 pinf pinf = (pinf : Num) := by simp [npMax2]
  cases a <;> cases b <;> cases c <;> simp only [h, h1, h2, h3, h4, h5, h6, h7]
  · rw [max_right_comm]
  · rw [max_comm]

theorem pv_ofFn {F : Type} (v : Vec F n) : (List.ofFn (permV σ v)).Perm (List.ofFn v) := Equiv.Perm.ofFn_comp_perm σ v

@[simp] theorem pv_dot (v w : Vec Num n) : dot (permV σ v) (permV σ w) = dot v w := sum_perm (pv_ofFn σ fun i => v i * w i)

@[simp] theorem pv_norm (v : Vec Num n) : norm (permV σ v) = norm v := by
  unfold norm; rw [pv_dot]

theorem pv_vmin (v : Vec Num n) : vmin (permV σ v) = vmin v := by
  haveI : RightCommutative (npMin2 : Num → Num → Num) := ⟨npMin2_right_comm⟩
  exact (pv_ofFn σ v).foldl_eq _

theorem pv_normInf (v : Vec Num n) : normInf (permV σ v) = normInf v := by
  haveI : RightCommutative (npMax2 : Num → Num → Num) := ⟨npMax2_right_comm⟩
  exact (pv_ofFn σ fun i => FloatOps.abs (v i)).foldl_eq _

theorem pv_all (p : Fin n → Prop) [Decidable (∀ i, p (σ i))] [Decidable (∀ i, p i)] : decide (∀ i, p (σ i)) = decide (∀ i, p i) := by
  rw [decide_eq_decide]
  exact ⟨fun h i => by simpa using h (σ.symm i), fun h i => h (σ i)⟩

theorem pv_any (p : Fin n → Prop) [Decidable (∃ i, p (σ i))] [Decidable (∃ i, p i)] : decide (∃ i, p (σ i)) = decide (∃ i, p i) := by
  rw [decide_eq_decide]
  exact ⟨fun ⟨i, h⟩ => ⟨_, h⟩, fun ⟨i, h⟩ => ⟨σ.symm i, by simpa using h⟩⟩

/-! ## arrays -/

theorem pv_mulVec (a : Mat Num n n) (v : Vec Num n) : mulVec (permM σ a) (permV σ v) = permV σ (mulVec a v) := by
  funext i; exact pv_dot σ (a (σ i)) v

theorem pv_vecMul (v : Vec Num n) (a : Mat Num n n) : vecMul (permV σ v) (permM σ a) = permV σ (vecMul v a) := by
  funext j; exact pv_dot σ v fun i => a i (σ j)

theorem pv_vecMulC {m : ℕ} (r : Vec Num m) (s : Mat Num m n) : vecMul r (permC σ s) = permV σ (vecMul r s) := rfl

theorem pv_mulTM {m : ℕ} (s : Mat Num m n) : mulTM (permC σ s) (permC σ s) = permM σ (mulTM s s) := rfl

theorem pv_eye : permM σ (meye : Mat Num n n) = meye := by
  funext i j
  simp only [permM, meye, σ.injective.eq_iff]

theorem pv_mzero : permM σ (mzero : Mat Num n n) = mzero := rfl
theorem pv_vzero : permV σ (vzero : Vec Num n) = vzero := rfl
theorem pv_vadd (v w : Vec Num n) : vadd (permV σ v) (permV σ w) = permV σ (vadd v w) := rfl
theorem pv_vsub (v w : Vec Num n) : vsub (permV σ v) (permV σ w) = permV σ (vsub v w) := rfl
theorem pv_vneg (v : Vec Num n) : vneg (permV σ v) = permV σ (vneg v) := rfl
theorem pv_vsmul (c : Num) (v : Vec Num n) : vsmul c (permV σ v) = permV σ (vsmul c v) := rfl
theorem pv_sdot (v w : Vec Num n) : sdot (permV σ v) (permV σ w) = permV σ (sdot v w) := rfl
theorem pv_outer (v w : Vec Num n) : outer (permV σ v) (permV σ w) = permM σ (outer v w) := rfl
theorem pv_madd (a b : Mat Num n n) : madd (permM σ a) (permM σ b) = permM σ (madd a b) := rfl
theorem pv_msub (a b : Mat Num n n) : msub (permM σ a) (permM σ b) = permM σ (msub a b) := rfl
theorem pv_msmul (c : Num) (a : Mat Num n n) : msmul c (permM σ a) = permM σ (msmul c a) := rfl
theorem pv_mdiv (a : Mat Num n n) (c : Num) : mdiv (permM σ a) c = permM σ (mdiv a c) := rfl

theorem pv_vfinite (v : Vec Num n) : vfinite (permV σ v) = vfinite v := pv_all σ fun i => isFinite (v i) = true

theorem pv_mfinite (a : Mat Num n n) : mfinite (permM σ a) = mfinite a := by
  unfold mfinite
  rw [decide_eq_decide]
  exact ⟨fun h i j => by simpa [permM] using h (σ.symm i) (σ.symm j), fun h i j => h (σ i) (σ j)⟩

theorem pv_quadraticForm (q : Mat Num n n) (p x : Vec Num n) : quadraticForm (permM σ q) (permV σ p) (permV σ x) = quadraticForm q p x := by
  unfold quadraticForm
  rw [pv_vecMul, pv_dot, pv_dot]

theorem pv_boundary (b : Mat Num n n) (g s s0 : Vec Num n) (delta : Num) :
    boundarySolution1d (permM σ b) (permV σ g) (permV σ s) (permV σ s0) delta = boundarySolution1d b g s s0 delta := by
  unfold boundarySolution1d
  simp only [pv_dot, pv_vsmul, pv_vadd, pv_quadraticForm]

theorem pv_solve1d (b : Mat Num n n) (g s : Vec Num n) (delta : Num) (s0 : Vec Num n) :
    solve1d (permM σ b) (permV σ g) (permV σ s) delta (permV σ s0) = solve1d b g s delta s0 := by
  unfold solve1d
  rw [show (decide (∀ i, feq (permV σ s i) (lit 0) = true)) = decide (∀ i, feq (s i) (lit 0) = true) from pv_all σ fun i => feq (s i) (lit 0) = true]
  simp only [pv_boundary, pv_mulVec, pv_dot, pv_vadd, pv_vsmul, pv_norm]

theorem pv_normalize (v : Vec Num n) : normalize (permV σ v) = permV σ (normalize v) := by
  unfold normalize
  simp only [pv_norm]
  split <;> rfl

theorem pv_shess (P : Prob Num n) : (permProb σ P).shess = permM σ P.shess := by
  funext i j
  by_cases hij : i = j
  · subst hij
    simp only [Prob.shess, permProb, permM, permV, if_true]
    rfl
  · have hij' : σ i ≠ σ j := fun h => hij (σ.injective h)
    simp only [Prob.shess, permProb, permM, permV, if_neg hij, if_neg hij']
    rfl

theorem pv_subDot (cols : List (Vec Num n)) (sc : List Num) : subDot (cols.map (permV σ)) sc = permV σ (subDot cols sc) := by
  funext i
  unfold subDot permV
  rw [List.zipWith_map_left]

/-! ## steps -/

theorem solveNd_cast (O : SubOracles Num) {k k' : ℕ} (h : k' = k) (b : Mat Num k k) (b' : Mat Num k' k') (g : Vec Num k) (g' : Vec Num k') (r : Num)
    (hb : ∀ i j, b' i j = b (Fin.cast h i) (Fin.cast h j)) (hg : ∀ i, g' i = g (Fin.cast h i)) :
    (solveNd O b' g' r).map (fun p => List.ofFn p.1) = (solveNd O b g r).map (fun p => List.ofFn p.1) := by
  subst h
  have e1 : b' = b := by funext i j; exact hb i j
  have e2 : g' = g := by funext i; exact hg i
  rw [e1, e2]

theorem pv_solveNd (O : SubOracles Num) (S : Mat Num n n) (sg : Vec Num n) (cols : List (Vec Num n)) (r : Num) :
    (solveNd O (chess (permM σ S) (cols.map (permV σ))) (cg (permV σ sg) (cols.map (permV σ))) r).map (fun p => List.ofFn p.1) =
      (solveNd O (chess S cols) (cg sg cols) r).map (fun p => List.ofFn p.1) := by
  refine solveNd_cast O (List.length_map _) _ _ _ _ r (fun i j => ?_) (fun i => ?_)
  · unfold chess
    simp only [List.get_eq_getElem, List.getElem_map, pv_mulVec, pv_dot]
    rfl
  · unfold cg
    simp only [List.get_eq_getElem, List.getElem_map, pv_dot]
    rfl

theorem pv_init (P : Prob Num n) (t : StepType) (l : List (Vec Num n)) : Step.init (permProb σ P) t (l.map (permV σ)) = permStep σ (Step.init P t l) := rfl

theorem pv_stepBack (P : Prob Num n) (st : Step Num n) : (permStep σ st).stepBack (permProb σ P) = permStep σ (st.stepBack P) := by
  unfold Step.stepBack
  have e1 : (fun i => if lt (lit 0) (FloatOps.abs ((permStep σ st).s i)) = true then
      npMax2 (((permProb σ P).ub i - (permStep σ st).x i) / (permStep σ st).s i) (((permProb σ P).lb i - (permStep σ st).x i) / (permStep σ st).s i)
    else FloatOps.inf) = permV σ (fun i => if lt (lit 0) (FloatOps.abs (st.s i)) = true then
      npMax2 ((P.ub i - st.x i) / st.s i) ((P.lb i - st.x i) / st.s i) else FloatOps.inf) := rfl
  have e2 : (permProb σ P).theta = P.theta := rfl
  simp only [e1, e2, pv_vmin]
  rfl

theorem pv_computeStep (O : SubOracles Num) (P : Prob Num n) (st : Step Num n) : (permStep σ st).computeStep O (permProb σ P) = (st.computeStep O P).map (permStep σ) := by
  unfold Step.computeStep
  have h2 : (permStep σ st).subspace = st.subspace.map (permV σ) := rfl
  have h3 : (permStep σ st).ss0 = permV σ st.ss0 := rfl
  have h4 : (permProb σ P).sg = permV σ P.sg := rfl
  have h5 : (permProb σ P).delta = P.delta := rfl
  have h6 : (permProb σ P).scaling = permV σ P.scaling := rfl
  simp only [h2, h3, h4, h5, h6, pv_shess, pv_norm]
  rcases h : st.subspace with _ | ⟨a, _ | ⟨b, l⟩⟩
  · simp only [Except.map, permStep, h]
    rfl
  · have e1 := pv_subDot σ [a] [solve1d P.shess P.sg a P.delta st.ss0]
    simp only [List.map_cons, List.map_nil] at e1 ⊢
    simp only [pv_solve1d, e1, pv_sdot, Except.map, permStep, h, List.map_cons, List.map_nil]
  · have e1 : (solveNd O (chess (permM σ P.shess) (permV σ a :: permV σ b :: l.map (permV σ))) (cg (permV σ P.sg) (permV σ a :: permV σ b :: l.map (permV σ)))
        (FloatOps.sqrt (pyMax (P.delta * P.delta - norm st.ss0 * norm st.ss0) (lit 0)))).map (fun p => List.ofFn p.1) = _ :=
      pv_solveNd σ O P.shess P.sg (a :: b :: l) (FloatOps.sqrt (pyMax (P.delta * P.delta - norm st.ss0 * norm st.ss0) (lit 0)))
    simp only [List.map_cons]
    revert e1
    generalize FloatOps.sqrt (pyMax (P.delta * P.delta - norm st.ss0 * norm st.ss0) (lit 0)) = r
    generalize solveNd O (chess (permM σ P.shess) (permV σ a :: permV σ b :: l.map (permV σ))) (cg (permV σ P.sg) (permV σ a :: permV σ b :: l.map (permV σ))) r = q'
    generalize solveNd O (chess P.shess (a :: b :: l)) (cg P.sg (a :: b :: l)) r = q
    intro e1
    cases q with
    | error e =>
      cases q' with
      | error e' => simp only [Except.map, Except.error.injEq] at e1; simp only [e1, Except.map]
      | ok p' => cases e1
    | ok p =>
      cases q' with
      | error e' => cases e1
      | ok p' =>
        simp only [Except.map, Except.ok.injEq] at e1
        have e2 := pv_subDot σ (a :: b :: l) (List.ofFn p.1)
        simp only [List.map_cons] at e2
        simp only [e1, e2, pv_sdot, Except.map, permStep, h, List.map_cons]

theorem pv_calculate (O : SubOracles Num) (P : Prob Num n) (st : Step Num n) : (permStep σ st).calculate O (permProb σ P) = (st.calculate O P).map (permStep σ) := by
  unfold Step.calculate
  rw [pv_computeStep]
  cases st.computeStep O P with
  | error e => rfl
  | ok s =>
    simp only [Except.map]
    rw [pv_stepBack, pv_shess]
    generalize s.stepBack P = t
    have h1 : (permStep σ t).ss = permV σ t.ss := rfl
    have h2 : (permStep σ t).ss0 = permV σ t.ss0 := rfl
    have h3 : (permProb σ P).sg = permV σ P.sg := rfl
    rw [h1, h2, h3, pv_vadd, pv_quadraticForm]
    rfl

theorem pv_subspace2dOrth (a b : Vec Num n) : subspace2dOrth (permV σ a) (permV σ b) = (subspace2dOrth a b).map (permV σ) := by
  unfold subspace2dOrth
  simp only [pv_normalize, pv_dot]
  have h1 : vsub (permV σ b) (fun i => permV σ (normalize a) i * dot (normalize a) b) = permV σ (vsub b fun i => normalize a i * dot (normalize a) b) := rfl
  rw [h1, pv_norm, pv_normalize]
  split <;> rfl

variable {σ}

theorem pv_subspace2d {O O' : Oracles Num} (hO : PermutedRoutines σ O O') (P : Prob Num n) :
    subspace2d O' (permProb σ P) = (subspace2d O P).map fun r => (r.1.map (permV σ), r.2) := by
  unfold subspace2d
  have h1 : (permProb σ P).sg = permV σ P.sg := rfl
  have h2 : (permProb σ P).delta = P.delta := rfl
  have h3 : (permProb σ P).scaling = permV σ P.scaling := rfl
  rw [pv_shess, h1, h2, h3, hO.lstsq, hO.npEig]
  cases O.lstsq P.shess P.sg with
  | error e => rfl
  | ok newt0 =>
    cases O.npEig P.shess with
    | error e => rfl
    | ok r =>
      obtain ⟨re, ab, v⟩ := r
      simp only [Except.map]
      generalize lt (-spacing1 * (List.ofFn ab).foldl npMax2 (lit 0)) (vmin re) = pd
      by_cases hn : n = 1
      · simp only [hn, if_true]
        rfl
      · simp only [hn, if_false]
        cases pd
        · simp only [Bool.false_eq_true, if_false]
          cases argminIdx re with
          | none => rfl
          | some j =>
            simp only
            have e1 : sdot (permV σ P.scaling) (fun i => fsign (permV σ P.sg i) + if feq (permV σ P.sg i) (lit 0) = true then lit 1 else lit 0) =
              permV σ (sdot P.scaling (fun i => fsign (P.sg i) + if feq (P.sg i) (lit 0) = true then lit 1 else lit 0)) := rfl
            have e2 : (fun i => v (σ i) j) = permV σ (fun i => v i j) := rfl
            rw [e1, e2, pv_subspace2dOrth]
        · simp only [if_true, pv_vneg, pv_norm, pv_normalize, pv_subspace2dOrth]
          split <;> rfl

theorem pv_step2d {O O' : Oracles Num} (hO : PermutedRoutines σ O O') (P : Prob Num n) : step2d O' (permProb σ P) = (step2d O P).map (permStep σ) := by
  unfold step2d
  rw [pv_subspace2d hO, hO.sub]
  cases subspace2d O P with
  | error e => rfl
  | ok r =>
    obtain ⟨cols, pd, nw⟩ := r
    exact pv_calculate σ O.sub P { Step.init P .twoD cols with posdef := pd, newton := nw }

variable (σ)

/-- the result of conjugate gradients, reordered -/
def permCG (o : CGOut Num n) : CGOut Num n := { o with subspace := o.subspace.map (permV σ), ss := permV σ o.ss, ss0 := permV σ o.ss0 }

theorem pv_subDot1 (d : Vec Num n) (sc : List Num) : subDot [permV σ d] sc = permV σ (subDot [d] sc) := pv_subDot σ [d] sc

theorem pv_steihaugLoop (P : Prob Num n) (eps : Num) (k : ℕ) (z r d : Vec Num n) :
    steihaugLoop (permProb σ P) eps k (permV σ z) (permV σ r) (permV σ d) = (steihaugLoop P eps k z r d).map (permCG σ) := by
  induction k generalizing z r d with
  | zero => rfl
  | succ k ih =>
    unfold steihaugLoop
    have h1 : (permProb σ P).sg = permV σ P.sg := rfl
    have h2 : (permProb σ P).delta = P.delta := rfl
    simp only [h1, h2, pv_shess, pv_mulVec, pv_dot, pv_vsmul, pv_vadd, pv_norm, pv_boundary, pv_subDot1, pv_normalize, pv_vsub, pv_vneg, ih]
    generalize (le (dot d (mulVec P.shess d)) (lit 0) || le P.delta (norm (vadd z (vsmul (dot r r / dot d (mulVec P.shess d)) d)))) = b
    cases b
    · simp only [Bool.false_eq_true, if_false]
      split <;> rfl
    · rfl

theorem pv_stepSteihaug (fuel : ℕ) (P : Prob Num n) : stepSteihaug fuel (permProb σ P) = (stepSteihaug fuel P).map (permStep σ) := by
  unfold stepSteihaug
  have h4 : (permProb σ P).sg = permV σ P.sg := rfl
  have h5 := pv_steihaugLoop σ P (pyMin (lit (1 / 2)) (FloatOps.sqrt (norm P.sg)) * norm P.sg) fuel vzero P.sg (vneg P.sg)
  rw [pv_vzero, ← pv_vneg] at h5
  simp only [h4, pv_norm, h5]
  cases lt (norm P.sg) (pyMin (lit (1 / 2)) (FloatOps.sqrt (norm P.sg)) * norm P.sg)
  · simp only [Bool.false_eq_true, if_false]
    cases steihaugLoop P (pyMin (lit (1 / 2)) (FloatOps.sqrt (norm P.sg)) * norm P.sg) fuel vzero P.sg (vneg P.sg) with
    | error e => rfl
    | ok o =>
      simp only [Except.map]
      have e1 : ({ Step.init (permProb σ P) .cgs (permCG σ o).subspace with sc := (permCG σ o).sc, ss := (permCG σ o).ss, ss0 := (permCG σ o).ss0, s := sdot (permProb σ P).scaling (vadd (permCG σ o).ss (permCG σ o).ss0) } : Step Num n) =
        permStep σ { Step.init P .cgs o.subspace with sc := o.sc, ss := o.ss, ss0 := o.ss0, s := sdot P.scaling (vadd o.ss o.ss0) } := rfl
      rw [e1, pv_stepBack, pv_shess]
      generalize Step.stepBack P { Step.init P .cgs o.subspace with sc := o.sc, ss := o.ss, ss0 := o.ss0, s := sdot P.scaling (vadd o.ss o.ss0) } = t
      have h1 : (permStep σ t).ss = permV σ t.ss := rfl
      have h2 : (permStep σ t).ss0 = permV σ t.ss0 := rfl
      rw [h1, h2, pv_vadd, pv_quadraticForm]
      rfl
  · rfl

theorem pv_reflectInit (P : Prob Num n) (st : Step Num n) : reflectInit (permProb σ P) (permStep σ st) = permStep σ (reflectInit P st) := by
  unfold reflectInit
  have e1 : (fun i => if (permStep σ st).iminbr i = true then (permStep σ st).ogSs i * lit (-1) else (permStep σ st).ogSs i) =
    permV σ (fun i => if st.iminbr i = true then st.ogSs i * lit (-1) else st.ogSs i) := rfl
  simp only [e1, pv_normalize]
  rfl

theorem pv_reduceSubspace (b : Fin n → Bool) (cols : List (Vec Num n)) :
    reduceSubspace (fun i => b (σ i)) (cols.map (permV σ)) = (reduceSubspace b cols).map (permV σ) := by
  unfold reduceSubspace
  simp only [List.map_map]
  induction cols with
  | nil => rfl
  | cons c l ih =>
    have e1 : ((fun (c : Vec Num n) (i : Fin n) => if b (σ i) = true then lit 0 else c i) ∘ permV σ) c = permV σ (fun i => if b i = true then lit 0 else c i) := rfl
    have e2 : decide (∃ i, feq (permV σ (fun i => if b i = true then lit 0 else c i) i) (lit 0) = false) =
        decide (∃ i, feq ((fun i => if b i = true then lit 0 else c i) i) (lit 0 : Num) = false) :=
      pv_any σ fun i => feq ((fun i => if b i = true then lit 0 else c i) i) (lit 0 : Num) = false
    simp only [List.map_cons, List.filter_cons, e1, e2]
    split
    · simp only [List.map_cons, ih, Function.comp, pv_normalize]
    · exact ih

theorem pv_truncateInit (P : Prob Num n) (st : Step Num n) : truncateInit (permProb σ P) (permStep σ st) = permStep σ (truncateInit P st) := by
  unfold truncateInit
  have e1 : reduceSubspace (permStep σ st).iminbr (permStep σ st).subspace = (reduceSubspace st.iminbr st.subspace).map (permV σ) := pv_reduceSubspace σ st.iminbr st.subspace
  simp only [e1]
  rfl

variable {σ} {O O' : Oracles Num}

theorem pv_stepReflected (hO : PermutedRoutines σ O O') (P : Prob Num n) (st : Step Num n) :
    stepReflected O' (permProb σ P) (permStep σ st) = (stepReflected O P st).map (permStep σ) := by
  unfold stepReflected
  rw [pv_reflectInit, hO.sub, pv_calculate]

theorem pv_stepTruncated (hO : PermutedRoutines σ O O') (P : Prob Num n) (st : Step Num n) :
    stepTruncated O' (permProb σ P) (permStep σ st) = (stepTruncated O P st).map (permStep σ) := by
  unfold stepTruncated
  rw [pv_truncateInit, hO.sub, pv_calculate]

theorem pv_stepGradient (hO : PermutedRoutines σ O O') (P : Prob Num n) : stepGradient O' (permProb σ P) = (stepGradient O P).map (permStep σ) := by
  unfold stepGradient
  have e1 : [normalize (permProb σ P).sg] = [normalize P.sg].map (permV σ) := by
    have h4 : (permProb σ P).sg = permV σ P.sg := rfl
    rw [h4, pv_normalize]
    rfl
  rw [e1, pv_init, hO.sub, pv_calculate]

theorem pv_stepRefined (hO : PermutedRoutines σ O O') (P : Prob Num n) (st : Step Num n) :
    stepRefined O' (permProb σ P) (permStep σ st) = (stepRefined O P st).map (permStep σ) := by
  unfold stepRefined
  rw [hO.refine]
  cases O.refine P st with
  | error e => rfl
  | ok sc =>
    have e0 : subDot (permStep σ st).subspace sc = permV σ (subDot st.subspace sc) := pv_subDot σ st.subspace sc
    have e1 : ({ Step.init (permProb σ P) .ref (permStep σ st).subspace with sc := sc, ss := subDot (permStep σ st).subspace sc, s := sdot (permProb σ P).scaling (subDot (permStep σ st).subspace sc), reflIdx := (permStep σ st).reflIdx, truncIdx := (permStep σ st).truncIdx } : Step Num n) =
      permStep σ { Step.init P .ref st.subspace with
        sc := sc, ss := subDot st.subspace sc, s := sdot P.scaling (subDot st.subspace sc), reflIdx := st.reflIdx, truncIdx := st.truncIdx } := by
      rw [e0]; rfl
    simp only [e1, pv_stepBack, pv_shess, Except.map]
    generalize Step.stepBack P { Step.init P .ref st.subspace with
        sc := sc, ss := subDot st.subspace sc, s := sdot P.scaling (subDot st.subspace sc), reflIdx := st.reflIdx, truncIdx := st.truncIdx } = t
    have h1 : (permStep σ t).ss = permV σ t.ss := rfl
    have h3 : (permProb σ P).sg = permV σ P.sg := rfl
    rw [h1, h3, pv_quadraticForm]
    rfl

theorem pv_reflectLoop (hO : PermutedRoutines σ O O') (P : Prob Num n) (k : ℕ) (st : Step Num n) :
    reflectLoop O' (permProb σ P) k (permStep σ st) = (reflectLoop O P k st).map (List.map (permStep σ)) := by
  induction k generalizing st with
  | zero => rfl
  | succ k ih =>
    unfold reflectLoop
    show (if feq st.alpha (lit 1) = true then _ else _) = _
    cases feq st.alpha (lit 1)
    · simp only [Bool.false_eq_true, if_false]
      rw [pv_stepReflected hO]
      cases stepReflected O P st with
      | error e => rfl
      | ok s =>
        simp only [Except.map]
        rw [ih]
        cases reflectLoop O P k s <;> rfl
    · rfl

theorem pv_stepbackReflect (hO : PermutedRoutines σ O O') (P : Prob Num n) (st : Step Num n) :
    stepbackReflect O' (permProb σ P) (permStep σ st) = (stepbackReflect O P st).map (List.map (permStep σ)) := by
  unfold stepbackReflect
  rw [pv_stepReflected hO]
  cases stepReflected O P st with
  | error e => rfl
  | ok s =>
    simp only [Except.map]
    rw [pv_reflectLoop hO]
    cases reflectLoop O P (n - 1) s <;> rfl

theorem pv_truncateLoop (hO : PermutedRoutines σ O O') (P : Prob Num n) (k : ℕ) (st : Step Num n) :
    truncateLoop O' (permProb σ P) k (permStep σ st) = (truncateLoop O P k st).map (List.map (permStep σ)) := by
  have he : ∀ s : Step Num n, (permStep σ s).subspace.isEmpty = s.subspace.isEmpty := by
    intro s
    show (s.subspace.map (permV σ)).isEmpty = _
    cases s.subspace <;> rfl
  have ha : ∀ s : Step Num n, (permStep σ s).alpha = s.alpha := fun _ => rfl
  induction k generalizing st with
  | zero =>
    unfold truncateLoop
    rw [he, ha]
    cases (st.subspace.isEmpty || feq st.alpha (lit 1)) <;> rfl
  | succ k ih =>
    unfold truncateLoop
    rw [he, ha]
    cases st.subspace.isEmpty
    · cases feq st.alpha (lit 1)
      · simp only [Bool.false_eq_true, if_false]
        rw [pv_stepTruncated hO]
        cases stepTruncated O P st with
        | error e => rfl
        | ok s =>
          simp only [Except.map]
          rw [ih]
          cases truncateLoop O P k s <;> rfl
      · rfl
    · rfl

theorem pv_stepbackTruncate (hO : PermutedRoutines σ O O') (P : Prob Num n) (fuel : ℕ) (st : Step Num n) :
    stepbackTruncate O' (permProb σ P) fuel (permStep σ st) = (stepbackTruncate O P fuel st).map (List.map (permStep σ)) := by
  unfold stepbackTruncate
  rw [pv_stepTruncated hO]
  cases stepTruncated O P st with
  | error e => rfl
  | ok s =>
    simp only [Except.map]
    rw [pv_truncateLoop hO]
    cases truncateLoop O P fuel s <;> rfl

theorem pv_trStep (hO : PermutedRoutines σ O O') (fuel : ℕ) (P : Prob Num n) (dim : SubSpaceDim) (hd : dim ≠ .full) :
    trStep O' fuel (permProb σ P) dim = (trStep O fuel P dim).map (permStep σ) := by
  cases dim
  · exact pv_step2d hO P
  · exact absurd rfl hd
  · exact pv_stepSteihaug σ fuel P
  · rfl

theorem pv_stepbackCandidates (hO : PermutedRoutines σ O O') (fuel : ℕ) (P : Prob Num n) (strat : StepBackStrategy) (tr : Step Num n) :
    stepbackCandidates O' fuel (permProb σ P) strat (permStep σ tr) = (stepbackCandidates O fuel P strat tr).map (List.map (permStep σ)) := by
  cases strat
  · unfold stepbackCandidates
    simp only
    rw [pv_stepReflected hO]
    cases stepReflected O P tr <;> rfl
  · exact pv_stepbackReflect hO P tr
  · exact pv_stepbackTruncate hO P fuel tr
  · unfold stepbackCandidates
    simp only
    rw [pv_stepbackReflect hO, pv_stepbackTruncate hO]
    cases stepbackReflect O P tr with
    | error e => rfl
    | ok a =>
      cases stepbackTruncate O P fuel tr with
      | error e => rfl
      | ok b => simp [Except.map]
  · unfold stepbackCandidates
    simp only
    rw [pv_stepRefined hO]
    have e1 : (permStep σ tr).subspace.length = tr.subspace.length := List.length_map _
    rw [e1]
    split
    · cases stepRefined O P tr <;> rfl
    · rfl
  · rfl

theorem pv_candidates (hO : PermutedRoutines σ O O') (fuel : ℕ) (P : Prob Num n) (dim : SubSpaceDim) (hd : dim ≠ .full) (strat : StepBackStrategy) :
    candidates O' fuel (permProb σ P) dim strat = (candidates O fuel P dim strat).map fun r => (permStep σ r.1, r.2.map (permStep σ)) := by
  unfold candidates
  rw [pv_trStep hO _ _ _ hd]
  cases trStep O fuel P dim with
  | error e => rfl
  | ok tr =>
    simp only [Except.map]
    rw [pv_stepGradient hO, pv_stepbackCandidates hO]
    show (if (lt tr.alpha (lit 1) && decide (1 < n)) = true then _ else _) = _
    cases (lt tr.alpha (lit 1) && decide (1 < n))
    · rfl
    · simp only [if_true]
      cases stepGradient O P with
      | error e => rfl
      | ok gs =>
        simp only [Except.map]
        cases stepbackCandidates O fuel P strat tr <;> rfl

theorem argminGo_pv (a : Step Num n) (l : List (Step Num n)) :
    argminGo (fun st : Step Num n => st.qpval) (permStep σ a) (l.map (permStep σ)) = permStep σ (argminGo (fun st : Step Num n => st.qpval) a l) := by
  induction l generalizing a with
  | nil => rfl
  | cons b l ih =>
    simp only [List.map_cons, argminGo]
    have h1 : (permStep σ a).qpval = a.qpval := rfl
    have h2 : (permStep σ b).qpval = b.qpval := rfl
    rw [h1, h2]
    cases isNaN a.qpval
    · simp only [Bool.false_eq_true, if_false]
      split <;> exact ih _
    · rfl

/-- the arguments of `trust_region`, reordered -/
def permIn (σ : Equiv.Perm (Fin n)) (I : TRIn Num n) : TRIn Num n :=
  { I with x := permV σ I.x, g := permV σ I.g, hess := permM σ I.hess, scaling := permV σ I.scaling, dv := permV σ I.dv, lb := permV σ I.lb, ub := permV σ I.ub }

theorem pv_trustRegion (hO : PermutedRoutines σ O O') (fuel : ℕ) (dim : SubSpaceDim) (hd : dim ≠ .full) (strat : StepBackStrategy) (I : TRIn Num n) :
    trustRegion O' fuel dim strat (permIn σ I) = (trustRegion O fuel dim strat I).map (permStep σ) := by
  unfold trustRegion
  rw [show (permIn σ I).prob = permProb σ I.prob from rfl, pv_candidates hO _ _ _ hd]
  cases candidates O fuel I.prob dim strat with
  | error e => rfl
  | ok r =>
    simp only [Except.map]
    rw [argminGo_pv]

end Fides
