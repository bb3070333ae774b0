import Verif.Lemmas.FiniteStep
import Verif.Props.SteihaugPredicted
import Verif.Props.Steihaug

/-!
# C27: the step-back loops terminate
-/

set_option linter.unusedSectionVars false

namespace Fides
open Num Spec
variable {n : ℕ}

/-- row `i` of the subspace matrix is zero -/
def DeadRow (cols : List (Vec Num n)) (i : Fin n) : Prop := ∀ c ∈ cols, c i = fin 0

theorem sum_zero_or_nan (l : List Num) (h : ∀ a ∈ l, a = fin 0 ∨ a = nan) : FloatOps.sum l = fin 0 ∨ FloatOps.sum l = nan := by
  induction l with
  | nil => left; rw [sum_nil]
  | cons a l ih =>
    rw [sum_cons]
    rcases h a (by simp) with h1 | h1 <;> rcases ih (fun b hb => h b (by simp [hb])) with h2 | h2 <;> rw [h1, h2] <;> simp

theorem subDot_dead (cols : List (Vec Num n)) (sc : List Num) (i : Fin n) (h : DeadRow cols i) :
    subDot cols sc i = fin 0 ∨ subDot cols sc i = nan := by
  apply sum_zero_or_nan
  intro a ha
  rw [List.mem_iff_getElem] at ha
  obtain ⟨k, hk, rfl⟩ := ha
  rw [List.getElem_zipWith, h _ (List.getElem_mem _)]
  cases sc[k]'(by simp at hk; exact hk.2) with
  | fin r => left; simp
  | pinf => right; rw [fin_mul_pinf]; simp
  | ninf => right; rw [fin_mul_ninf]; simp
  | nan => right; simp

theorem sdot_zero_or_nan (d v : Vec Num n) (i : Fin n) (h : v i = fin 0 ∨ v i = nan) : sdot d v i = fin 0 ∨ sdot d v i = nan := by
  simp only [sdot]
  split
  · left; simp
  · rcases h with h | h <;> rw [h]
    · cases d i with
      | fin r => left; simp
      | pinf => right; rw [pinf_mul_fin]; simp
      | ninf => right; rw [ninf_mul_fin]; simp
      | nan => right; simp
    · right; simp

/-- coordinates outside the span of the subspace are never blocking -/
theorem calculate_dead (O : SubOracles Num) (P : Prob Num n) (st st' : Step Num n) (h : st.calculate O P = .ok st') (i : Fin n)
    (hi : DeadRow st.subspace i) : st'.br i = pinf := by
  unfold Step.calculate at h
  split at h
  · cases h
  · rename_i st1 hc
    cases h
    show (st1.stepBack P).br i = pinf
    rw [stepBack_br]
    have : st1.s i = fin 0 ∨ st1.s i = nan := by
      unfold Step.computeStep at hc
      split at hc
      · cases hc; left; simp
      · rename_i c hsub
        cases hc
        exact sdot_zero_or_nan _ _ _ (subDot_dead _ _ _ (by rw [hsub] at hi; exact hi))
      · simp only at hc
        split at hc
        · cases hc
        · cases hc
          exact sdot_zero_or_nan _ _ _ (subDot_dead _ _ _ hi)
    rcases this with h | h <;> rw [h] <;> simp [brOf]

theorem reduce_dead (im : Fin n → Bool) (cols : List (Vec Num n)) (i : Fin n) (h : im i = true ∨ DeadRow cols i) :
    DeadRow (reduceSubspace im cols) i := by
  intro c hc
  obtain ⟨c1, hc1, rfl⟩ := List.mem_map.mp hc
  obtain ⟨c2, hc2, rfl⟩ := List.mem_map.mp (List.mem_of_mem_filter hc1)
  have hz : (fun (i : Fin n) => if im i = true then (Fides.lit 0 : Num) else c2 i) i = fin 0 := by
    simp only
    rcases h with h | h
    · rw [if_pos h]; simp
    · rw [h c2 hc2]; simp
  simp only [normalize]
  split
  · rename_i hlt
    show (fun (i : Fin n) => if im i = true then (Fides.lit 0 : Num) else c2 i) i / _ = _
    rw [hz]
    generalize norm (fun (i : Fin n) => if im i = true then (Fides.lit 0 : Num) else c2 i) = v at hlt
    cases v with
    | fin r =>
      simp only [lit_def, Rat.cast_zero, fin_lt, decide_eq_true_eq] at hlt
      rw [fin_div _ _ hlt.ne', zero_div]
    | pinf => simp
    | ninf => simp at hlt
    | nan => simp at hlt
  · exact hz

open Classical in
/-- number of nonzero rows -/
noncomputable def liveRows (cols : List (Vec Num n)) : ℕ := (Finset.univ.filter fun i => ¬ DeadRow cols i).card

theorem live_lt (im : Fin n → Bool) (cols : List (Vec Num n)) (i : Fin n) (hi : im i = true) (hl : ¬ DeadRow cols i) :
    liveRows (reduceSubspace im cols) < liveRows cols := by
  classical
  unfold liveRows
  apply Finset.card_lt_card
  rw [Finset.ssubset_iff_of_subset]
  · exact ⟨i, by simp [hl], by simpa using reduce_dead im cols i (Or.inl hi)⟩
  · intro j hj
    simp only [Finset.mem_filter, Finset.mem_univ, true_and] at hj ⊢
    exact fun h => hj (reduce_dead im cols j (Or.inr h))

theorem live_lt_n (im : Fin n → Bool) (cols : List (Vec Num n)) (i : Fin n) (hi : im i = true) :
    liveRows (reduceSubspace im cols) < n := by
  classical
  unfold liveRows
  have : (Finset.univ.filter fun j => ¬ DeadRow (reduceSubspace im cols) j).card < (Finset.univ : Finset (Fin n)).card := by
    apply Finset.card_lt_card
    rw [Finset.ssubset_iff_of_subset (Finset.filter_subset _ _)]
    exact ⟨i, by simp, by simpa using reduce_dead im cols i (Or.inl hi)⟩
  simpa using this

theorem calculate_subspace (O : SubOracles Num) (P : Prob Num n) (st st' : Step Num n) (h : st.calculate O P = .ok st') :
    st'.subspace = st.subspace := by
  unfold Step.calculate at h
  split at h
  · cases h
  · rename_i st1 hc
    cases h
    exact (computeStep_frame O P st st1 hc).2.2.2

theorem stepTruncated_subspace (O : Oracles Num) (P : Prob Num n) (cur st : Step Num n) (h : stepTruncated O P cur = .ok st) :
    st.subspace = reduceSubspace cur.iminbr cur.subspace := calculate_subspace _ _ _ _ h

variable {P : Prob Num n} {x d sg : Fin n → ℝ} {B : Fin n → Fin n → ℝ} {delta theta : ℝ}

theorem truncateLoop_total (hP : RealProb P x d sg B delta theta) (hn : 1 < n) (O : Oracles Num) (hO : FiniteOracles O) (fuel : ℕ) (dim : SubSpaceDim) (k : ℕ) (cur : Step Num n) (hc : Cand O fuel P dim cur)
    (hd : ∀ i, DeadRow cur.subspace i → cur.br i = pinf) (hk : liveRows cur.subspace ≤ k) :
    (∃ l, truncateLoop O P k cur = .ok l ∧ l.length ≤ liveRows cur.subspace) ∨
      ∃ e c, truncateLoop O P k cur = .error e ∧ Cand O fuel P dim c ∧ feq c.alpha (Fides.lit 1) = false ∧ stepTruncated O P c = .error e := by
  have hfin := cand_finStep hP hn O hO fuel dim cur hc
  have hcut : feq cur.alpha (Fides.lit 1) = false → ∃ i, cur.iminbr i = true ∧ ¬ DeadRow cur.subspace i := by
    intro h
    obtain ⟨r, _, hm, i, hi⟩ := hfin.cut h
    refine ⟨i, (hfin.imin i).mpr (by rw [hi, hm]; simp), fun hdead => ?_⟩
    rw [hd i hdead] at hi; cases hi
  induction k generalizing cur with
  | zero =>
    left
    refine ⟨[], ?_, by simp⟩
    rw [truncateLoop, if_pos]
    rw [Bool.or_eq_true]
    right
    by_contra hne
    obtain ⟨i, _, hi⟩ := hcut (by simpa using hne)
    have : liveRows cur.subspace ≠ 0 := by
      classical
      unfold liveRows
      rw [Finset.card_ne_zero]
      exact ⟨i, by simp [hi]⟩
    omega
  | succ k ih =>
    rw [truncateLoop]
    split
    · left; exact ⟨[], rfl, by simp⟩
    split
    · left; exact ⟨[], rfl, by simp⟩
    rename_i _ ha
    have ha' : feq cur.alpha (Fides.lit 1) = false := by simpa using ha
    obtain ⟨i, hi, hlive⟩ := hcut ha'
    cases hst : stepTruncated O P cur with
    | error e => right; exact ⟨e, cur, rfl, hc, ha', hst⟩
    | ok st =>
      have hcst : Cand O fuel P dim st := .trunc cur st hc ha' hst
      have hsub := stepTruncated_subspace O P cur st hst
      have hlt : liveRows st.subspace < liveRows cur.subspace := by rw [hsub]; exact live_lt _ _ i hi hlive
      have hd' : ∀ i, DeadRow st.subspace i → st.br i = pinf := fun i h => calculate_dead O.sub P _ st hst i (by rw [hsub] at h; exact h)
      have hfin' := cand_finStep hP hn O hO fuel dim st hcst
      rcases ih st hcst hd' (by omega) hfin' (by
        intro h
        obtain ⟨r, _, hm, i, hi⟩ := hfin'.cut h
        refine ⟨i, (hfin'.imin i).mpr (by rw [hi, hm]; simp), fun hdead => ?_⟩
        rw [hd' i hdead] at hi; cases hi) with ⟨l, hl, hlen⟩ | ⟨e, c, he, hcc, hca, hce⟩
      · left
        refine ⟨st :: l, by simp only [hl], ?_⟩
        simp only [List.length_cons]; omega
      · right; exact ⟨e, c, by simp only [he], hcc, hca, hce⟩

/-- the problem data of a call in real numbers -/
theorem RealData.prob {I : TRIn Num n} {g dv : Fin n → ℝ} {H : Fin n → Fin n → ℝ} (h : RealData I x d g dv H delta theta) (h0 : 0 < theta)
    (h1 : theta ≤ 1) (hbox : InBox I.lb I.ub x) : RealProb I.prob x d (fun i => d i * g i)
      (fun i j => d i * H i j * d j + if i = j then |g i| * dv i else 0) delta theta :=
  ⟨h.x, h.scaling, h.sg, h.shess, h.delta, h.theta, h0, h1, hbox⟩

theorem cut_ne {a : Num} (h : lt a (fin 1) = true) : feq a (Fides.lit 1) = false := by
  have := ((LawfulFloat.lt_iff _ _).mp h).2
  simp [feq, this]

/-- **C27, truncation.** On finite data the `while` loop of the truncation strategy appends at most `n` proposals, counting the one computed before
the loop: it stops within `n - 1` passes or because a subproblem computation raised. -/
theorem C27_truncate {I : TRIn Num n} {g dv : Fin n → ℝ} {H : Fin n → Fin n → ℝ} (hI : RealData I x d g dv H delta theta) (h0 : 0 < theta)
    (h1 : theta ≤ 1) (hbox : InBox I.lb I.ub x) (hn : 1 < n) (O : Oracles Num) (hO : FiniteOracles O) (fuel : ℕ) (dim : SubSpaceDim)
    (tr : Step Num n) (htr : trStep O fuel I.prob dim = .ok tr) (hcut : lt tr.alpha (fin 1) = true) (k : ℕ) (hk : n ≤ k + 1) :
    (∃ l, stepbackTruncate O I.prob k tr = .ok l ∧ l.length ≤ n) ∨
      ∃ e c, stepbackTruncate O I.prob k tr = .error e ∧ stepTruncated O I.prob c = .error e := by
  have hP := RealData.prob hI h0 h1 hbox
  have hc : Cand O fuel I.prob dim tr := .base tr htr
  have ha := cut_ne hcut
  have hfin := cand_finStep hP hn O hO fuel dim tr hc
  obtain ⟨r, _, hm, i, hi⟩ := hfin.cut ha
  have him : tr.iminbr i = true := (hfin.imin i).mpr (by rw [hi, hm]; simp)
  rw [stepbackTruncate]
  cases hst : stepTruncated O I.prob tr with
  | error e => right; exact ⟨e, tr, rfl, hst⟩
  | ok st =>
    have hcst : Cand O fuel I.prob dim st := .trunc tr st hc ha hst
    have hsub := stepTruncated_subspace O _ tr st hst
    have hlt : liveRows st.subspace < n := by rw [hsub]; exact live_lt_n _ _ i him
    rcases truncateLoop_total hP hn O hO fuel dim k st hcst
      (fun i h => calculate_dead O.sub _ _ st hst i (by rw [hsub] at h; exact h)) (by omega) with ⟨l, hl, hlen⟩ | ⟨e, c, he, _, _, hce⟩
    · left; exact ⟨st :: l, by simp only [hl], by simp only [List.length_cons]; omega⟩
    · right; exact ⟨e, c, by simp only [he], hce⟩

/-- **C27, reflection.** The reflection strategy appends at most `n` proposals. -/
theorem C27_reflect {F : Type} [FloatOps F] (O : Oracles F) (P : Prob F n) (hn : 0 < n) (tr : Step F n) (l : List (Step F n))
    (h : stepbackReflect O P tr = .ok l) : l.length ≤ n := by
  have hloop : ∀ k cur (l : List (Step F n)), reflectLoop O P k cur = .ok l → l.length ≤ k := by
    intro k
    induction k with
    | zero => intro cur l h; simp only [reflectLoop, Except.ok.injEq] at h; subst h; simp
    | succ k ih =>
      intro cur l h
      rw [reflectLoop] at h
      split at h
      · cases h; simp
      · split at h
        · cases h
        · split at h
          · cases h
          · rename_i rest hr
            cases h
            have := ih _ _ hr
            simp only [List.length_cons]; omega
  rw [stepbackReflect] at h
  split at h
  · cases h
  · split at h
    · cases h
    · rename_i rest hr
      cases h
      have := hloop _ _ _ hr
      simp only [List.length_cons]; omega

/-! ### no step computation can hang -/

section
variable {F : Type} [FloatOps F]

theorem brentAttempt_total (O : Oracles F) (hT : TerminatingOracles O) (w v : Vec F n) (U : Mat F n n) (delta li : F) :
    brentAttempt O.sub w v U delta li ≠ .error .diverges := by
  intro h
  unfold brentAttempt at h
  simp only at h
  split at h
  · split at h
    · split at h <;> cases h
    · cases h
    · rename_i e _ he
      cases h
      exact hT.brentq _ _ _ _ he
  · cases h

theorem rootFind_total (O : Oracles F) (hT : TerminatingOracles O) (w v : Vec F n) (U : Mat F n n) (delta li : F) :
    rootFind O.sub w v U delta li ≠ .error .diverges := by
  intro h
  unfold rootFind at h
  simp only at h
  split at h
  · split at h
    · cases h
    · exact brentAttempt_total O hT _ _ _ _ _ h
  · exact brentAttempt_total O hT _ _ _ _ _ h
  · rename_i e _ he
    cases h
    exact hT.newton _ _ _ he

theorem solveNd_total (O : Oracles F) (hT : TerminatingOracles O) (b : Mat F n n) (g : Vec F n) (delta : F) :
    solveNd O.sub b g delta ≠ .error .diverges := by
  intro h
  unfold solveNd at h
  split at h
  · cases h
  split at h
  · rename_i e he
    cases h
    exact hT.eig _ he
  simp only at h
  split at h
  · cases h
  split at h
  · cases h
  split at h
  · rename_i e he
    cases h
    generalize (if lt (lit (F := F) 0) _ = true then _ else _ : F) = li at he
    split at he
    · exact rootFind_total O hT _ _ _ _ _ he
    · cases he
  · cases h
  · cases h

theorem calculate_total (O : Oracles F) (hT : TerminatingOracles O) (P : Prob F n) (st : Step F n) :
    st.calculate O.sub P ≠ .error .diverges := by
  intro h
  unfold Step.calculate at h
  split at h
  · rename_i e he
    cases h
    unfold Step.computeStep at he
    split at he
    · cases he
    · cases he
    · simp only at he
      split at he
      · rename_i e he2
        cases he
        exact solveNd_total O hT _ _ _ he2
      · cases he
  · cases h

theorem step2d_total (O : Oracles F) (hT : TerminatingOracles O) (P : Prob F n) : step2d O P ≠ .error .diverges := by
  intro h
  unfold step2d at h
  split at h
  · rename_i e he
    cases h
    unfold subspace2d at he
    split at he
    · rename_i e he1; cases he; exact hT.lstsq _ _ he1
    split at he
    · rename_i e he1; cases he; exact hT.npEig _ he1
    simp only at he
    split at he
    · cases he
    split at he
    · split at he <;> cases he
    split at he <;> cases he
  · exact calculate_total O hT P _ h

theorem stepRefined_total (O : Oracles F) (hT : TerminatingOracles O) (P : Prob F n) (st : Step F n) :
    stepRefined O P st ≠ .error .diverges := by
  intro h
  unfold stepRefined at h
  split at h
  · rename_i e he; cases h; exact hT.refine _ _ he
  · cases h

theorem reflectLoop_total (O : Oracles F) (hT : TerminatingOracles O) (P : Prob F n) (k : ℕ) (cur : Step F n) :
    reflectLoop O P k cur ≠ .error .diverges := by
  induction k generalizing cur with
  | zero => intro h; cases h
  | succ k ih =>
    intro h
    rw [reflectLoop] at h
    split at h
    · cases h
    split at h
    · rename_i e he; cases h; exact calculate_total O hT P _ he
    split at h
    · rename_i e he; cases h; exact ih _ he
    · cases h

theorem stepbackReflect_total (O : Oracles F) (hT : TerminatingOracles O) (P : Prob F n) (tr : Step F n) :
    stepbackReflect O P tr ≠ .error .diverges := by
  intro h
  rw [stepbackReflect] at h
  split at h
  · rename_i e he; cases h; exact calculate_total O hT P _ he
  split at h
  · rename_i e he; cases h; exact reflectLoop_total O hT P _ _ he
  · cases h

end

/-- **C27, total.** If the external routines return (or raise), then so does the whole computation of a proposal: with `n` passes allowed to
each loop no loop runs out of passes, for every solver, strategy and finite feasible input with symmetric Hessian. -/
theorem C27_total {I : TRIn Num n} {g dv : Fin n → ℝ} {H : Fin n → Fin n → ℝ} (hI : RealData I x d g dv H delta theta) (h0 : 0 < theta)
    (h1 : theta ≤ 1) (hbox : InBox I.lb I.ub x) (hn : 0 < n) (O : Oracles Num) (hO : FiniteOracles O) (hT : TerminatingOracles O)
    (dim : SubSpaceDim) (strat : StepBackStrategy) : trustRegion O n dim strat I ≠ .error .diverges := by
  intro h
  unfold trustRegion at h
  split at h
  swap; · cases h
  rename_i e he
  cases h
  unfold candidates at he
  split at he
  · rename_i e hb
    cases he
    cases dim with
    | two => exact step2d_total O hT _ hb
    | full => exact calculate_total O hT _ _ hb
    | steihaug =>
      obtain ⟨st, hst⟩ := C28_terminates hn O I d g dv H delta hI.scaling hI.g hI.dv hI.hess hI.sym hI.delta
      rw [hst] at hb; cases hb
    | other => cases hb
  rename_i tr htr
  split at he
  swap; · cases he
  rename_i hcond
  simp only [lit_def, Rat.cast_one, Bool.and_eq_true, decide_eq_true_eq] at hcond
  have htrunc : stepbackTruncate O I.prob n tr ≠ .error .diverges := by
    intro hd
    rcases C27_truncate hI h0 h1 hbox hcond.2 O hO n dim tr htr hcond.1 n (by omega) with ⟨l, hl, _⟩ | ⟨e, c, he1, he2⟩
    · rw [hl] at hd; cases hd
    · rw [hd] at he1; cases he1
      exact calculate_total O hT _ _ he2
  split at he
  · rename_i e hb; cases he; exact calculate_total O hT _ _ hb
  split at he
  swap; · cases he
  rename_i e hb
  cases he
  unfold stepbackCandidates at hb
  split at hb
  · split at hb
    · rename_i e hb1; cases hb; exact calculate_total O hT _ _ hb1
    · cases hb
  · exact stepbackReflect_total O hT _ _ hb
  · exact htrunc hb
  · split at hb
    · rename_i e hb1; cases hb; exact stepbackReflect_total O hT _ _ hb1
    split at hb
    · rename_i e hb1; cases hb; exact htrunc hb1
    · cases hb
  · split at hb
    · split at hb
      · rename_i e hb1; cases hb; exact stepRefined_total O hT _ _ hb1
      · cases hb
    · cases hb
  · cases hb

/-- oracles whose answers are finite and which always return -/
noncomputable def tameOracles : Oracles Num where
  sub := { eig := fun _ => .ok (ofV fun _ => 1, meye), newton := fun _ _ _ => .ok (fin 0), brentq := fun _ _ _ _ => .ok (fin 0) }
  lstsq _ _ := .ok (ofV fun _ => 1)
  npEig _ := .ok (ofV fun _ => 1, ofV fun _ => 1, meye)
  refine _ _ := .ok []

theorem tame_finite : FiniteOracles tameOracles where
  eig B v U h := by cases h; exact ⟨⟨fun _ => 1, rfl⟩, ⟨fun i j => if i = j then 1 else 0, meye_ofM⟩⟩
  newton f x f' r h := by cases h; exact ⟨0, rfl⟩
  brentq f a b m r h := by cases h; exact ⟨0, rfl⟩
  lstsq B g v h := by cases h; exact ⟨fun _ => 1, rfl⟩
  npEig B re ab V h := by cases h; exact ⟨fun i j => if i = j then 1 else 0, meye_ofM⟩
  refine P st sc h := by cases h; exact ⟨[], rfl⟩

theorem tame_terminating : TerminatingOracles tameOracles where
  eig B h := by cases h
  newton f x f' h := by cases h
  brentq f a b m h := by cases h
  lstsq B g h := by cases h
  npEig B h := by cases h
  refine P st h := by cases h

/-- the hypotheses of C27 are met by a problem whose step is cut at the bounds -/
example : ∃ (tr : Step Num 2), RealData cutIn 0 ![1 / 2, 1] ![2, 1] ![1, 1] ![![-4, 0], ![0, 2]] 10 (19 / 20) ∧
    InBox cutIn.lb cutIn.ub 0 ∧ FiniteOracles tameOracles ∧ TerminatingOracles tameOracles ∧
    trStep tameOracles 2 cutIn.prob .steihaug = .ok tr ∧ lt tr.alpha (fin 1) = true := by
  obtain ⟨tr, st, h1, h2, h3, h4, h5, h6⟩ := cutIn_tr tameOracles
  refine ⟨tr, cutIn_real, ?_, tame_finite, tame_terminating, h1, ?_⟩
  · intro i
    fin_cases i <;> constructor <;> simp [cutIn] <;> norm_num
  · rw [h2, fin_lt]; norm_num

end Fides
