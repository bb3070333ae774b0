import Verif.Lemmas.SteihaugOracle
import Verif.Lemmas.SteihaugCauchy

/-! Helper lemmas: steps computed in a subspace with one column stay in the trust region. -/

namespace Fides
open Num Spec
variable {n : ℕ}

theorem noOracles_finite : FiniteOracles (noOracles Num) where
  eig := by intro k B v U h; cases h
  newton := by intro f x f' r h; cases h
  brentq := by intro f a b m r h; cases h
  lstsq := by intro k B g v h; cases h
  npEig := by intro k B re ab V h; cases h
  refine := by intro k P st sc h; cases h

section
variable {P : Prob Num n} {x d sg : Fin n → ℝ} {B : Fin n → Fin n → ℝ} {delta theta : ℝ}

theorem calculate_radius1 (hP : RealProb P x d sg B delta theta) (hd : 0 ≤ delta) (O : SubOracles Num) (st st' : Step Num n)
    (L : List (Fin n → ℝ)) (hL : st.subspace = L.map ofV) (hlen : L.length ≤ 1) (ss0 : Fin n → ℝ) (h0 : st.ss0 = ofV ss0)
    (h : st.calculate O P = .ok st') (og : Fin n → ℝ) (hog : st'.ogSs = ofV og) :
    rnorm (ss0 + og) ≤ max delta (rnorm ss0) ∧ ∃ ts, og = comb L ts := by
  unfold Step.calculate at h
  split at h
  · cases h
  rename_i st1 hc
  cases h
  have hog' : st1.ss = ofV og := hog
  unfold Step.computeStep at hc
  split at hc
  · rename_i hsub
    cases hc
    have : og = 0 := by
      have hz : (vzero : Vec Num n) = ofV og := hog'
      rw [vzero_ofV, ofV_inj] at hz; exact hz.symm
    rw [this, add_zero]
    refine ⟨le_max_right _ _, [], ?_⟩
    cases L <;> rfl
  · rename_i c hsub
    cases hc
    obtain ⟨u, hu⟩ : ∃ u, L = [u] := by
      rw [hL] at hsub
      have : L.length = 1 := by simpa using congrArg List.length hsub
      exact List.length_eq_one_iff.mp this
    rw [hL, hu] at hsub
    have hcu : c = ofV u := by simpa using hsub.symm
    subst hcu
    have hss : subDot [ofV u] [solve1d P.shess P.sg (ofV u) P.delta st.ss0] = ofV og := hog'
    rw [hP.shess, hP.sg, hP.delta, h0] at hss
    rcases Nat.eq_zero_or_pos n with rfl | hn
    · have : ss0 + og = ss0 := funext fun i => i.elim0
      rw [this]
      exact ⟨le_max_right _ _, [0], funext fun i => i.elim0⟩
    rcases solve1d_noinf hn B sg u ss0 delta with ht | ⟨t, ht⟩
    · exfalso
      rw [ht] at hss
      have := congrFun hss ⟨0, hn⟩
      simp [subDot, sum_cons] at this
    · rw [ht, subDot_one, ofV_inj] at hss
      rw [← hss]
      exact ⟨solve1d_radius B sg u ss0 delta t hd ht, [t], by rw [hu]; simp [comb]⟩
  · rename_i hne hne1
    exfalso
    rcases Nat.le_one_iff_eq_zero_or_eq_one.mp hlen with h1 | h1
    · rw [List.length_eq_zero_iff] at h1
      exact hne (by rw [hL, h1]; rfl)
    · obtain ⟨u, hu⟩ := List.length_eq_one_iff.mp h1
      exact hne1 (ofV u) (by rw [hL, hu]; rfl)

theorem calculate_inBall1 (hP : RealProb P x d sg B delta theta) (hd : 0 ≤ delta) (O : SubOracles Num) (st st' : Step Num n)
    (L : List (Fin n → ℝ)) (hL : st.subspace = L.map ofV) (hlen : L.length ≤ 1) (ss0 : Fin n → ℝ) (h0 : st.ss0 = ofV ss0) (hs0 : rnorm ss0 ≤ delta)
    (h : st.calculate O P = .ok st') : InBall delta st' := by
  have hf := (calculate_frame O P st st' h).1
  refine ⟨fun q hq => ?_, fun q og hq hog => ?_⟩
  · rw [hf, h0, ofV_inj] at hq; rw [← hq]; exact hs0
  · rw [hf, h0, ofV_inj] at hq; subst hq
    have := (calculate_radius1 hP hd O st st' L hL hlen ss0 h0 h og hog).1
    rwa [max_eq_left hs0] at this

theorem reflect_inBall1 (hP : RealProb P x d sg B delta theta) (hn : 1 < n) (hd : 0 ≤ delta) (O : Oracles Num) (hO : FiniteOracles O)
    (fuel : ℕ) (dim : SubSpaceDim) (cur st : Step Num n) (hc : Cand O fuel P dim cur) (ha : feq cur.alpha (Fides.lit 1) = false)
    (h : stepReflected O P cur = .ok st) (ih : InBall delta cur) : InBall delta st := by
  have hf := cand_finStep hP hn O hO fuel dim cur hc
  obtain ⟨r, hr0, hm, _⟩ := hf.cut ha
  obtain ⟨ss0, hss0⟩ := hf.ss0
  obtain ⟨_, ogs, hogs⟩ : (∃ r, cur.ogS = ofV r) ∧ ∃ r, cur.ogSs = ofV r := by
    rcases hf.og with h | ⟨h, _⟩
    · exact h
    · rw [h] at ha; simp at ha
  have hp : pyMin cur.minbr (Fides.lit 1) = fin (min r 1) := by
    rw [hm, pyMin]
    simp only [lit_def, Rat.cast_one, fin_lt, decide_eq_true_eq]
    split
    · rename_i h1; rw [min_eq_right h1.le]
    · rename_i h1; rw [min_eq_left (not_lt.mp h1)]
  have hv : (fun i => if cur.iminbr i = true then cur.ogSs i * Fides.lit (-1) else cur.ogSs i) =
      ofV (fun i => if cur.iminbr i = true then ogs i * ((-1 : ℚ) : ℝ) else ogs i) := by
    funext i
    simp only [hogs, ofV_apply, lit_def, fin_mul]
    split <;> rfl
  refine calculate_inBall1 hP hd O.sub (reflectInit P cur) st
    [(rnorm (fun i => if cur.iminbr i = true then ogs i * ((-1 : ℚ) : ℝ) else ogs i))⁻¹ •
      (fun i => if cur.iminbr i = true then ogs i * ((-1 : ℚ) : ℝ) else ogs i)] ?_ (by simp) (ss0 + min r 1 • ogs) ?_ ?_ h
  · show [normalize (fun i => if cur.iminbr i = true then cur.ogSs i * Fides.lit (-1) else cur.ogSs i)] = _
    rw [hv, normalize_ofV]; rfl
  · show vadd (vsmul (pyMin cur.minbr (Fides.lit 1)) cur.ogSs) cur.ss0 = _
    rw [hp, hogs, hss0, vsmul_ofV, vadd_ofV, add_comm]
  · exact ih.taken _ (le_min hr0 (by norm_num)) (min_le_right _ _) _ _ hss0 hogs

/-- what truncation preserves: one column, starting point and column on different coordinates -/
structure TInv1 (D : ℝ) (st : Step Num n) : Prop where
  ball : InBall D st
  cols : ∃ L : List (Fin n → ℝ), st.subspace = L.map ofV ∧ L.length ≤ 1 ∧
    (∀ ss0, st.ss0 = ofV ss0 → ∀ i, (∀ c ∈ L, c i = 0) ∨ ss0 i = 0) ∧
    (∀ og, st.ogSs = ofV og → ∀ i, (∀ c ∈ L, c i = 0) → og i = 0)

theorem calculate_tInv1 (hP : RealProb P x d sg B delta theta) (hd : 0 ≤ delta) (O : SubOracles Num) (st st' : Step Num n)
    (L : List (Fin n → ℝ)) (hL : st.subspace = L.map ofV) (hlen : L.length ≤ 1) (ss0 : Fin n → ℝ) (h0 : st.ss0 = ofV ss0) (hs0 : rnorm ss0 ≤ delta)
    (hsep : ∀ i, (∀ c ∈ L, c i = 0) ∨ ss0 i = 0) (h : st.calculate O P = .ok st') : TInv1 delta st' := by
  have hfr := calculate_frame O P st st' h
  refine ⟨calculate_inBall1 hP hd O st st' L hL hlen ss0 h0 hs0 h, L, by rw [hfr.2.2, hL], hlen, ?_, ?_⟩
  · intro q hq
    rw [hfr.1, h0, ofV_inj] at hq
    rw [← hq]; exact hsep
  · intro og hog i hi
    obtain ⟨_, ts, hts⟩ := calculate_radius1 hP hd O st st' L hL hlen ss0 h0 h og hog
    rw [hts]; exact comb_dead L ts i hi

theorem reduceR_length (im : Fin n → Bool) (L : List (Fin n → ℝ)) : (reduceR im L).length ≤ L.length := by
  unfold reduceR
  rw [List.length_map]
  refine (List.length_filter_le _ _).trans ?_
  simp

theorem truncate_tInv1 (hP : RealProb P x d sg B delta theta) (hn : 1 < n) (hd : 0 ≤ delta) (O : Oracles Num) (hO : FiniteOracles O)
    (fuel : ℕ) (dim : SubSpaceDim) (cur st : Step Num n) (hc : Cand O fuel P dim cur) (ha : feq cur.alpha (Fides.lit 1) = false)
    (h : stepTruncated O P cur = .ok st) (ih : TInv1 delta cur) : TInv1 delta st := by
  have hf := cand_finStep hP hn O hO fuel dim cur hc
  obtain ⟨r, hr0, hm, _⟩ := hf.cut ha
  obtain ⟨ss0, hss0⟩ := hf.ss0
  obtain ⟨_, ogs, hogs⟩ : (∃ r, cur.ogS = ofV r) ∧ ∃ r, cur.ogSs = ofV r := by
    rcases hf.og with h | ⟨h, _⟩
    · exact h
    · rw [h] at ha; simp at ha
  have hbr : ∀ i, cur.iminbr i = true → cur.br i = fin r := fun i hi => by
    rw [feq_true_eq ((hf.imin i).mp hi), hm]
  obtain ⟨L, hL, hlen, hsep, hdead⟩ := ih.cols
  have hth : 0 ≤ theta * r ∧ theta * r ≤ 1 := by
    refine ⟨mul_nonneg hP.th0.le hr0, ?_⟩
    have hal := cand_alpha O fuel dim cur hc
    rw [hal, hm, hP.theta, fin_mul, lit_def, npMin2_fin] at ha
    simp only [lit_def, Rat.cast_one, fin_feq, decide_eq_false_iff_not] at ha
    by_contra hgt
    exact ha (min_eq_left (not_le.mp hgt).le)
  have e0 : (truncateInit P cur).ss0 = ofV (fun i => if cur.iminbr i = true then ss0 i + theta * r * ogs i else ss0 i) := by
    funext i
    show (if cur.iminbr i = true then cur.ss0 i + P.theta * cur.br i * cur.ogSs i else cur.ss0 i) = _
    simp only [ofV_apply]
    by_cases hi : cur.iminbr i = true
    · rw [if_pos hi, if_pos hi, hbr i hi, hss0, hogs, hP.theta]; rfl
    · rw [if_neg hi, if_neg hi, hss0]; rfl
  refine calculate_tInv1 hP hd O.sub (truncateInit P cur) st (reduceR cur.iminbr L) ?_ ((reduceR_length _ _).trans hlen) _ e0 ?_ ?_ h
  · show reduceSubspace cur.iminbr cur.subspace = _
    rw [hL, reduce_real]
  · refine le_trans ?_ (ih.ball.full _ _ hss0 hogs)
    apply Real.sqrt_le_sqrt
    refine Finset.sum_le_sum fun i _ => ?_
    simp only [Pi.add_apply]
    rcases hsep _ hss0 i with h1 | h1
    · rw [hdead _ hogs i h1]
      split <;> simp
    · rw [h1]
      split
      · have h2 := hth.1
        have h3 := hth.2
        have : (theta * r) * (theta * r) ≤ 1 := by nlinarith
        nlinarith [mul_self_nonneg (ogs i)]
      · simpa using mul_self_nonneg (ogs i)
  · intro i
    by_cases hi : cur.iminbr i = true
    · exact Or.inl (reduceR_dead _ _ _ (Or.inl hi))
    · rw [if_neg hi]
      rcases hsep _ hss0 i with h1 | h1
      · exact Or.inl (reduceR_dead _ _ _ (Or.inr h1))
      · exact Or.inr h1

theorem grad_inBall1 (hP : RealProb P x d sg B delta theta) (hd : 0 ≤ delta) (O : Oracles Num) (st : Step Num n)
    (h : stepGradient O P = .ok st) : InBall delta st := by
  refine calculate_inBall1 hP hd O.sub _ st [(rnorm sg)⁻¹ • sg] ?_ le_rfl 0 vzero_ofV (by rw [rnorm_eq_zero.mpr rfl]; exact hd) h
  show [normalize P.sg] = _
  rw [hP.sg, normalize_ofV]; rfl

/-- when the radius does not exceed `‖sg‖ / M` the Steihaug loop leaves in its first pass, at the boundary -/
theorem steihaugLoop_first (hP : RealProb P x d sg B delta theta) {M : ℝ} (hM : 0 < M) (hB : ∀ v, rdot v (rmv B v) ≤ M * rdot v v) (hg : sg ≠ 0)
    (hsmall : delta ≤ rnorm sg / M) (eps : ℝ) (k : ℕ) (o : CGOut Num n)
    (h : steihaugLoop P (fin eps) k (ofV 0) (ofV sg) (ofV (-sg)) = .ok o) :
    ∃ t, o = { subspace := [ofV (-sg)], sc := [t], ss := subDot [ofV (-sg)] [t], ss0 := ofV 0 } := by
  cases k with
  | zero => cases h
  | succ k =>
    rcases le_or_gt (rdot (-sg) (rmv B (-sg))) 0 with hc | hc
    · obtain ⟨t, h1, _⟩ := cg_exit_curv P B delta eps hP.shess hP.delta k 0 sg (-sg) hc
      rw [h1] at h; cases h; exact ⟨t, rfl⟩
    · have hfar : delta ≤ rnorm (0 + (rdot sg sg / rdot (-sg) (rmv B (-sg))) • (-sg)) := by
        have hg2 := rdot_self_pos hg
        rw [zero_add, rnorm_smul, pyrnorm_neg, abs_of_pos (div_pos hg2 hc)]
        refine hsmall.trans ?_
        have h1 := hB (-sg)
        have e1 : rdot (-sg) (-sg) = rdot sg sg := by rw [neg_rdot, rdot_neg, neg_neg]
        rw [e1] at h1
        rw [div_mul_eq_mul_div, le_div_iff₀ hc, div_mul_eq_mul_div, div_le_iff₀ hM]
        have := rnorm_nonneg sg
        nlinarith
      obtain ⟨t, h1, _⟩ := cg_exit_far P B delta eps hP.shess hP.delta k 0 sg (-sg) hc hfar
      rw [h1] at h; cases h; exact ⟨t, rfl⟩

theorem stepSteihaug_first (hP : RealProb P x d sg B delta theta) (hd : 0 ≤ delta) {M : ℝ} (hM : 0 < M)
    (hB : ∀ v, rdot v (rmv B v) ≤ M * rdot v v) (hg : sg ≠ 0) (hsmall : delta ≤ rnorm sg / M) (fuel : ℕ) (st : Step Num n)
    (h : stepSteihaug fuel P = .ok st) : TInv1 delta st ∧ Rel d st := by
  have hball := steihaug_inBall hP hd fuel st h
  obtain ⟨c, hc0, hc1, hc2, hc3⟩ := steihaug_eps sg
  simp only [stepSteihaug] at h
  split at h
  · cases h
  · split at h
    · cases h
    · rename_i o ho
      cases h
      rw [hP.sg, hc3, vzero_ofV, vneg_ofV] at ho
      obtain ⟨t, rfl⟩ := steihaugLoop_first hP hM hB hg hsmall _ fuel o ho
      refine ⟨⟨hball, [-sg], rfl, le_rfl, ?_, ?_⟩, ?_⟩
      · intro ss0 h0 i
        right
        have h0' : (ofV 0 : Vec Num n) = ofV ss0 := h0
        rw [ofV_inj] at h0'
        rw [← h0']; rfl
      · intro og hog i hi
        have hog' : subDot [ofV (-sg)] [t] = ofV og := hog
        have h1 := congrFun hog' i
        simp only [subDot, List.zipWith_cons_cons, List.zipWith_nil_left, sum_cons, sum_nil, lit_def, Rat.cast_zero, add_zero_num] at h1
        obtain ⟨a, b, h2, h3, h4⟩ := mul_fin_iff _ _ _ h1
        have h5 := hi (-sg) (by simp)
        rw [ofV_apply, h5, fin_inj] at h2
        rw [h4, ← h2, zero_mul]
      · refine stepBack_rel P d _ ?_ ?_ _
        · show ScaledBy d vzero (ofV 0)
          rw [← vzero_ofV]; exact scaledBy_zero d
        · show ScaledBy d (sdot P.scaling (vadd (subDot [ofV (-sg)] [t]) (ofV 0))) (subDot [ofV (-sg)] [t])
          have : vadd (subDot [ofV (-sg)] [t]) (ofV (0 : Fin n → ℝ)) = subDot [ofV (-sg)] [t] := by
            funext i
            show _ + fin 0 = _
            rw [add_zero_num]
          rw [this, hP.scaling]
          exact scaledBy_sdot d _

theorem chain_rel (hd : P.scaling = ofV d) (O : Oracles Num) {tr st : Step Num n} (htr : Rel d tr) :
    (RChain O P tr st → Rel d st) ∧ (TChain O P tr st → Rel d st) := by
  constructor
  · intro h
    induction h with
    | base => exact htr
    | next cur st _ ha h ih => exact calculate_rel _ P d hd _ _ (reflectInit_rel P d cur ih) h
  · intro h
    induction h with
    | base => exact htr
    | next cur st _ ha h ih => exact calculate_rel _ P d hd _ _ (truncateInit_rel P d cur ih) h

end

/-- proposals of the Steihaug solver for a small radius stay in the trust region, and their displacement is the scaled step -/
theorem steihaug_small {I : TRIn Num n} {x d sg : Fin n → ℝ} {B : Fin n → Fin n → ℝ} {delta theta : ℝ} (hP : RealProb I.prob x d sg B delta theta)
    (hn : 1 < n) (hd : 0 ≤ delta) {M : ℝ} (hM : 0 < M) (hB : ∀ v, rdot v (rmv B v) ≤ M * rdot v v) (hg : sg ≠ 0) (hsmall : delta ≤ rnorm sg / M)
    (O : Oracles Num) (fuel : ℕ) (strat : StepBackStrategy) (st : Step Num n) (h : trustRegion O fuel .steihaug strat I = .ok st) :
    InBall delta st ∧ Rel d st := by
  rw [steihaug_oracle O (noOracles Num)] at h
  obtain ⟨tr, htr, hcase⟩ := trustRegion_chain _ _ _ _ _ _ h
  obtain ⟨ht, hr⟩ := stepSteihaug_first hP hd hM hB hg hsmall fuel tr htr
  have hc : Cand (noOracles Num) fuel I.prob .steihaug tr := .base tr htr
  rcases hcase with ⟨h1, hx⟩ | ⟨_, h1⟩ | ⟨_, _, h1⟩ | ⟨_, _, h1, _⟩
  · refine ⟨?_, (chain_rel hP.scaling _ hr).1 h1⟩
    clear h hx
    induction h1 with
    | base => exact ht.ball
    | next cur st h1 ha h ih => exact reflect_inBall1 hP hn hd _ noOracles_finite fuel .steihaug cur st (h1.cand hc) ha h ih
  · exact ⟨grad_inBall1 hP hd _ st h1, calculate_rel _ _ d hP.scaling _ _ (scaledBy_zero d) h1⟩
  · refine ⟨?_, (chain_rel hP.scaling _ hr).2 h1⟩
    have : TInv1 delta st := by
      clear h
      induction h1 with
      | base => exact ht
      | next cur st h1 ha h ih => exact truncate_tInv1 hP hn hd _ noOracles_finite fuel .steihaug cur st (h1.cand hc) ha h ih
    exact this.ball
  · rw [stepSteihaug_cols fuel I.prob tr htr] at h1
    omega

end Fides
