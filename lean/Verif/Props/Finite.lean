import Verif.Props.Unbounded
import Verif.Props.Steihaug
import Verif.Lemmas.GradStep
import Verif.Lemmas.ExactOracles
import Verif.Lemmas.FiniteStep
import Verif.Lemmas.TruncDemo

/-!
# C52: which proposals are finite
-/

set_option linter.unusedSectionVars false

namespace Fides
open Num Spec
variable {n : ℕ}

section
variable {P : Prob Num n} {x d sg : Fin n → ℝ} {B : Fin n → Fin n → ℝ} {delta theta : ℝ}

/-- a step that starts inside the trust radius is finite -/
theorem calculate_og' (hP : RealProb P x d sg B delta theta) (hB : Sym B) (hd : 0 < delta) (O : Oracles Num) (hO : FiniteOracles O)
    (st st' : Step Num n) (hc : FinCols st.subspace) (q : Fin n → ℝ) (h0 : st.ss0 = ofV q) (hq : rnorm q < delta)
    (h : st.calculate O.sub P = .ok st') : ∃ r, st'.ogSs = ofV r := by
  unfold Step.calculate at h
  split at h
  · cases h
  · rename_i st1 hcs
    cases h
    show ∃ r, st1.ss = ofV r
    unfold Step.computeStep at hcs
    split at hcs
    · cases hcs
      exact ⟨_, vzero_ofV⟩
    · rename_i c hsub
      cases hcs
      obtain ⟨u, rfl⟩ := hc c (by rw [hsub]; simp)
      obtain ⟨t, ht, _⟩ := C20_solve1d hB sg u q delta hd.le hq.le (Or.inl hq)
      refine ⟨t • u, ?_⟩
      show subDot [ofV u] [solve1d P.shess P.sg (ofV u) P.delta st.ss0] = _
      rw [hP.shess, hP.sg, hP.delta, h0, ht, subDot_one]
    · simp only at hcs
      split at hcs
      · cases hcs
      · rename_i sc ty hnd
        cases hcs
        obtain ⟨M, hM⟩ := chess_finite B st.subspace hc
        obtain ⟨gg, hgg⟩ := cg_finite sg st.subspace hc
        have hrad : ∃ rad, FloatOps.sqrt (pyMax (P.delta * P.delta - norm st.ss0 * norm st.ss0) (Fides.lit 0)) = fin rad := by
          rw [hP.delta, h0, norm_ofV, fin_mul, fin_mul, fin_sub, lit_def, pyMax_fin, fin_sqrt _ (by push_cast; exact le_max_right _ _)]
          exact ⟨_, rfl⟩
        obtain ⟨rad, hrad⟩ := hrad
        rw [hP.shess, hP.sg, hM, hgg, hrad] at hnd
        obtain ⟨r, rfl⟩ := solveNd_finite O hO M gg rad sc ty hnd
        exact subDot_finite st.subspace (List.ofFn (ofV r)) hc (by
          intro t ht; rw [List.mem_ofFn] at ht; obtain ⟨i, rfl⟩ := ht; exact ⟨_, rfl⟩)

/-- a step computed from the current point is finite -/
theorem calculate_og (hP : RealProb P x d sg B delta theta) (hB : Sym B) (hd : 0 < delta) (O : Oracles Num) (hO : FiniteOracles O)
    (st st' : Step Num n) (hc : FinCols st.subspace) (h0 : st.ss0 = ofV 0)
    (h : st.calculate O.sub P = .ok st') : ∃ r, st'.ogSs = ofV r :=
  calculate_og' hP hB hd O hO st st' hc 0 h0 (by rw [rnorm_eq_zero.mpr rfl]; exact hd) h

/-- the Steihaug loop started from a nonzero residual gives a finite step -/
theorem steihaugLoop_og (hP : RealProb P x d sg B delta theta) (eps : ℝ) (he : 0 < eps) (m : ℕ) (z r dd : Fin n → ℝ)
    (hz : rnorm z < delta) (hr : r ≠ 0) (hrd : rdot r dd = -rdot r r) (o : CGOut Num n)
    (h : steihaugLoop P (fin eps) m (ofV z) (ofV r) (ofV dd) = .ok o) : ∃ q, o.ss = ofV q := by
  induction m generalizing z r dd with
  | zero => simp [steihaugLoop] at h
  | succ m ih =>
    have hdd : dd ≠ 0 := by
      rintro rfl
      rw [rdot_zero] at hrd
      have := rdot_self_pos hr
      linarith
    have hd0 : 0 ≤ delta := (rnorm_nonneg z).trans hz.le
    have hzz : rdot z z < delta * delta := by
      rw [← rnorm_sq]; exact mul_self_lt_mul_self (rnorm_nonneg z) hz
    have hexit : ∀ t : Num, t = boundarySolution1d P.shess P.sg (ofV dd) (ofV z) P.delta * Fides.lit 1 →
        o = { subspace := [ofV dd], sc := [t], ss := subDot [ofV dd] [t], ss0 := ofV z } → ∃ q, o.ss = ofV q := by
      rintro t ht rfl
      obtain ⟨_, _, t', h1, _⟩ := boundarySolution1d_fin (B := B) sg dd z delta hdd hzz.le (Or.inl hzz)
      rw [hP.shess, hP.sg, hP.delta, h1, lit_def, fin_mul] at ht
      exact ⟨_, by show subDot [ofV dd] [t] = _; rw [ht, subDot_one]⟩
    rcases le_or_gt (rdot dd (rmv B dd)) 0 with hc | hc
    · obtain ⟨t, h1, h2⟩ := cg_exit_curv P B delta eps hP.shess hP.delta m z r dd hc
      rw [h1] at h; cases h
      exact hexit t h2 rfl
    · rcases le_or_gt delta (rnorm (z + (rdot r r / rdot dd (rmv B dd)) • dd)) with hf | hf
      · obtain ⟨t, h1, h2⟩ := cg_exit_far P B delta eps hP.shess hP.delta m z r dd hc hf
        rw [h1] at h; cases h
        exact hexit t h2 rfl
      · rcases lt_or_ge (rnorm (r + (rdot r r / rdot dd (rmv B dd)) • rmv B dd)) eps with hs | hs
        · rw [cg_conv P B delta eps hP.shess hP.delta m z r dd hc hf hs] at h
          cases h
          exact ⟨_, rfl⟩
        · rw [cg_step P B delta eps hP.shess hP.delta m z r dd hr hc hf hs] at h
          refine ih _ _ _ hf ?_ ?_ h
          · intro h0
            rw [h0, rnorm_eq_zero.mpr rfl] at hs
            linarith
          · have e : rdot (r + (rdot r r / rdot dd (rmv B dd)) • rmv B dd) dd = 0 := by
              rw [add_rdot, smul_rdot, hrd, rdot_comm (rmv B dd) dd]
              field_simp
              ring
            rw [rdot_add, rdot_smul, rdot_neg, e]; ring

theorem base_og (hP : RealProb P x d sg B delta theta) (hB : Sym B) (hd : 0 < delta) (hn : 1 < n) (O : Oracles Num) (hO : FiniteOracles O)
    (fuel : ℕ) (dim : SubSpaceDim) (hdim : dim = .steihaug → sg ≠ 0) (st : Step Num n) (h : trStep O fuel P dim = .ok st) : ∃ r, st.ogSs = ofV r := by
  have hn0 : 0 < n := by omega
  cases dim with
  | two =>
    simp only [trStep, step2d] at h
    split at h
    · cases h
    · rename_i cols pd nw hs
      exact calculate_og hP hB hd O hO _ _ (subspace2d_finCols hP hn O hO _ _ _ hs) vzero_ofV h
  | full =>
    simp only [trStep, stepFull] at h
    refine calculate_og hP hB hd O hO _ _ ?_ vzero_ofV h
    intro c hc
    obtain ⟨j, rfl⟩ := List.mem_ofFn.mp hc
    exact ⟨fun i => if i = j then 1 else 0, funext fun i => by rw [meye_ofM]; rfl⟩
  | steihaug =>
    have hz := hdim rfl
    obtain ⟨c, hc0, hc1, hc2, hc3⟩ := steihaug_eps sg
    simp only [trStep, stepSteihaug] at h
    split at h
    · cases h
    · split at h
      · cases h
      · rename_i o ho
        cases h
        rw [hP.sg, hc3, vzero_ofV, vneg_ofV] at ho
        exact steihaugLoop_og hP _ (mul_pos (hc2 (rnorm_pos hz)) (rnorm_pos hz)) fuel 0 sg (-sg) (by rw [rnorm_eq_zero.mpr rfl]; exact hd) hz
          (by rw [rdot_neg]) o ho
  | other => cases h

/-- a step that is not NaN displaces by finite amounts -/
theorem FinStep.displacement {st : Step Num n} (h : FinStep st) (hn : 0 < n) (hog : ∃ r, st.ogSs = ofV r) : ∃ p, vadd st.s st.s0 = ofV p := by
  obtain ⟨r, hr⟩ := hog
  obtain ⟨a, ha, _⟩ := h.alpha
  obtain ⟨s0, h0⟩ := h.s0
  rcases h.og with ⟨⟨q, hq⟩, _⟩ | ⟨_, h1, _⟩
  · refine ⟨fun i => q i * a + s0 i, funext fun i => ?_⟩
    rw [h.s, h0, hq, ha]
    simp [vadd]
  · exfalso
    have := h1 ⟨0, hn⟩
    rw [hr] at this; cases this

end

/-- the scaled step before step-back is finite -/
theorem finite_og {I : TRIn Num n} {x d g dv : Fin n → ℝ} {H : Fin n → Fin n → ℝ} {delta theta : ℝ} (hI : RealData I x d g dv H delta theta)
    (hn : 1 < n) (h0 : 0 < theta) (h1 : theta ≤ 1) (hbox : InBox I.lb I.ub x) (hd : 0 < delta) (O : Oracles Num) (hO : FiniteOracles O) (fuel : ℕ)
    (dim : SubSpaceDim) (strat : StepBackStrategy) (hdim : dim = .steihaug → ∃ i, d i * g i ≠ 0)
    (hs : strat = .refine ∨ ∀ i, I.lb i = ninf ∧ I.ub i = pinf) (st : Step Num n) (h : trustRegion O fuel dim strat I = .ok st) :
    FinStep st ∧ ∃ r, st.ogSs = ofV r := by
  have hP := RealData.prob hI h0 h1 hbox
  have hB := sym_scaled d (fun i => |g i| * dv i) hI.sym
  have hfin := cand_finStep hP hn O hO fuel dim st (trustRegion_cand _ _ _ _ _ _ h)
  have hdim' : dim = .steihaug → (fun i => d i * g i) ≠ 0 := by
    intro hdm hz
    obtain ⟨i, hi⟩ := hdim hdm
    exact hi (congrFun hz i)
  refine ⟨hfin, ?_⟩
  rcases hs with rfl | hnb
  · have hmem : ∀ (tr : Step Num n) (rest : List (Step Num n)), candidates O fuel I.prob dim .refine = .ok (tr, rest) → st ∈ tr :: rest := by
      intro tr rest hc
      rw [trustRegion, hc] at h
      cases h
      exact argminGo_mem (fun st : Step Num n => st.qpval) tr rest
    rw [trustRegion] at h
    split at h
    · cases h
    · rename_i tr rest hc
      have hm := hmem tr rest hc
      rw [candidates] at hc
      split at hc
      · cases hc
      · rename_i tr' htr
        have hbase := base_og hP hB hd hn O hO fuel dim hdim' tr' htr
        split at hc
        · split at hc
          · cases hc
          · rename_i gs hgs
            have hgrad : ∃ r, gs.ogSs = ofV r := by
              refine calculate_og hP hB hd O hO _ gs ?_ vzero_ofV hgs
              intro c hc
              have : c = normalize I.prob.sg := by simpa [Step.init] using hc
              rw [this, hP.sg, normalize_ofV]; exact ⟨_, rfl⟩
            split at hc
            · cases hc
            · rename_i rs hrs
              cases hc
              rcases List.mem_cons.mp hm with rfl | hm
              · exact hbase
              · rcases List.mem_cons.mp hm with rfl | hm
                · exact hgrad
                · simp only [stepbackCandidates] at hrs
                  split at hrs
                  · split at hrs
                    · cases hrs
                    · rename_i rf hrf
                      cases hrs
                      rw [List.mem_singleton.mp hm]
                      simp only [stepRefined] at hrf
                      split at hrf
                      · cases hrf
                      · rename_i sc hsc
                        cases hrf
                        obtain ⟨r, rfl⟩ := hO.refine _ _ _ hsc
                        exact subDot_finite _ _ (cand_finStep hP hn O hO fuel dim tr (.base tr htr)).cols (by
                          intro t ht; obtain ⟨q, _, rfl⟩ := List.mem_map.mp ht; exact ⟨_, rfl⟩)
                  · cases hrs; cases hm
        · cases hc
          rw [List.mem_singleton.mp hm]
          exact hbase
  · rw [C51_one_candidate O fuel dim strat I hnb theta hI.theta h0] at h
    exact base_og hP hB hd hn O hO fuel dim hdim' st h

/-- **C52, partial.** Finite data, more than one variable, a positive radius and external routines that return finite numbers: the
proposal is finite when there are no bounds, or the step-back strategy is `refine`; with the Steihaug solver under the condition
that the scaled gradient is not zero.  Missing: reflected and truncated steps (`C20_nan` tells when the former are NaN). -/
theorem C52_finite_partial {I : TRIn Num n} {x d g dv : Fin n → ℝ} {H : Fin n → Fin n → ℝ} {delta theta : ℝ} (hI : RealData I x d g dv H delta theta)
    (hn : 1 < n) (h0 : 0 < theta) (h1 : theta ≤ 1) (hbox : InBox I.lb I.ub x) (hd : 0 < delta) (O : Oracles Num) (hO : FiniteOracles O) (fuel : ℕ)
    (dim : SubSpaceDim) (strat : StepBackStrategy) (hdim : dim = .steihaug → ∃ i, d i * g i ≠ 0)
    (hs : strat = .refine ∨ ∀ i, I.lb i = ninf ∧ I.ub i = pinf) (st : Step Num n) (h : trustRegion O fuel dim strat I = .ok st) :
    ∃ p, vadd st.s st.s0 = ofV p := by
  obtain ⟨hfin, hog⟩ := finite_og hI hn h0 h1 hbox hd O hO fuel dim strat hdim hs st h
  exact hfin.displacement (by omega) hog

/-- the hypotheses are met by a bounded problem in two variables with indefinite Hessian, exact routines and strategy `refine` -/
example : ∃ st, trustRegion tdOracles 5 .two .refine tdIn = .ok st ∧ ∃ p, vadd st.s st.s0 = ofV p := by
  obtain ⟨tr, htr, h1, h2, h3, h4, h5, h6, h7, h8, q, hq⟩ := td_base
  obtain ⟨gs, t, a, hg, _⟩ := gradStep_spec tdOracles td_data (by norm_num) (by norm_num) td_box
  have h8' : lt tr.alpha (Fides.lit 1) = true := by rw [h8]; norm_num
  have hr : ∃ rf, stepRefined tdOracles tdIn.prob tr = .ok rf := ⟨_, rfl⟩
  obtain ⟨rf, hrf⟩ := hr
  have hlen : 1 < tr.subspace.length := by rw [h1]; decide
  have h : ∃ st, trustRegion tdOracles 5 .two .refine tdIn = .ok st := by
    refine ⟨argminGo (fun st : Step Num 2 => st.qpval) tr [gs, rf], ?_⟩
    simp only [trustRegion, candidates, trStep, htr, h8', Bool.true_and, hg, stepbackCandidates, hlen, if_true, hrf]
    rfl
  obtain ⟨st, h⟩ := h
  exact ⟨st, h, C52_finite_partial td_data (by decide) (by norm_num) (by norm_num) td_box (by norm_num) tdOracles td_finite 5 .two .refine
    (by intro h; cases h) (Or.inl rfl) st h⟩

theorem calculate_keeps (O : SubOracles Num) (P : Prob Num n) (st st' : Step Num n) (h : st.calculate O P = .ok st') :
    st'.ss0 = st.ss0 ∧ st'.type = st.type := by
  unfold Step.calculate at h
  split at h
  · cases h
  · rename_i st1 hc
    cases h
    show st1.ss0 = st.ss0 ∧ st1.type = st.type
    unfold Step.computeStep at hc
    split at hc
    · cases hc; exact ⟨rfl, rfl⟩
    · cases hc; exact ⟨rfl, rfl⟩
    · simp only at hc
      split at hc
      · cases hc
      · cases hc; exact ⟨rfl, rfl⟩

/-- **C52, partial (all strategies).** Finite data, more than one variable, a positive radius and external routines that return finite
numbers, any step-back strategy, any solver (Steihaug: at a nonzero scaled gradient): the proposal is finite unless it is a reflected or truncated step
whose starting point (the point where the path was bent) is not strictly inside the trust radius.  `C52_reflect_counterexample` shows that
the exception occurs. -/
theorem C52_start_partial {I : TRIn Num n} {x d g dv : Fin n → ℝ} {H : Fin n → Fin n → ℝ} {delta theta : ℝ} (hI : RealData I x d g dv H delta theta)
    (hn : 1 < n) (h0 : 0 < theta) (h1 : theta ≤ 1) (hbox : InBox I.lb I.ub x) (hd : 0 < delta) (O : Oracles Num) (hO : FiniteOracles O) (fuel : ℕ)
    (dim : SubSpaceDim) (strat : StepBackStrategy) (hdim : dim = .steihaug → ∃ i, d i * g i ≠ 0)
    (st : Step Num n) (h : trustRegion O fuel dim strat I = .ok st) :
    (∃ p, vadd st.s st.s0 = ofV p) ∨ ((st.type = .trr ∨ st.type = .trt) ∧ ∃ q, st.ss0 = ofV q ∧ delta ≤ rnorm q) := by
  have hn0 : 0 < n := by omega
  have hP := RealData.prob hI h0 h1 hbox
  have hB := sym_scaled d (fun i => |g i| * dv i) hI.sym
  have hc := trustRegion_cand _ _ _ _ _ _ h
  have hfin := cand_finStep hP hn O hO fuel dim st hc
  have hdim' : dim = .steihaug → (fun i => d i * g i) ≠ 0 := by
    intro hdm hz
    obtain ⟨i, hi⟩ := hdim hdm
    exact hi (congrFun hz i)
  cases hc with
  | base _ hb => exact Or.inl (hfin.displacement hn0 (base_og hP hB hd hn O hO fuel dim hdim' st hb))
  | grad _ hg =>
    refine Or.inl (hfin.displacement hn0 (calculate_og hP hB hd O hO _ _ ?_ vzero_ofV hg))
    intro c hc
    have : c = normalize I.prob.sg := by simpa [Step.init] using hc
    rw [this, hP.sg, normalize_ofV]; exact ⟨_, rfl⟩
  | refl cur _ hcur ha hr =>
    obtain ⟨k1, k2⟩ := calculate_keeps _ _ _ _ hr
    obtain ⟨q, hq⟩ := hfin.ss0
    rcases lt_or_ge (rnorm q) delta with hlt | hge
    · left
      have hcols : st.subspace = (reflectInit I.prob cur).subspace := (calculate_frame _ _ _ _ hr).2.2
      exact hfin.displacement hn0 (calculate_og' hP hB hd O hO _ _ (by rw [← hcols]; exact hfin.cols) q (by rw [← k1]; exact hq) hlt hr)
    · exact Or.inr ⟨Or.inl (by rw [k2]; rfl), q, hq, hge⟩
  | trunc cur _ hcur ha hr =>
    obtain ⟨k1, k2⟩ := calculate_keeps _ _ _ _ hr
    obtain ⟨q, hq⟩ := hfin.ss0
    rcases lt_or_ge (rnorm q) delta with hlt | hge
    · left
      have hcols : st.subspace = (truncateInit I.prob cur).subspace := (calculate_frame _ _ _ _ hr).2.2
      exact hfin.displacement hn0 (calculate_og' hP hB hd O hO _ _ (by rw [← hcols]; exact hfin.cols) q (by rw [← k1]; exact hq) hlt hr)
    · exact Or.inr ⟨Or.inr (by rw [k2]; rfl), q, hq, hge⟩
  | refined cur _ hcur hr =>
    left
    have hcf := cand_finStep hP hn O hO fuel dim cur hcur
    refine hfin.displacement hn0 ?_
    simp only [stepRefined] at hr
    split at hr
    · cases hr
    · rename_i sc hsc
      cases hr
      obtain ⟨l, rfl⟩ := hO.refine I.prob cur sc hsc
      exact subDot_finite cur.subspace (l.map fin) hcf.cols (by
        intro t ht; obtain ⟨r, _, rfl⟩ := List.mem_map.mp ht; exact ⟨r, rfl⟩)

theorem boundary_zero (hn : 0 < n) (B : Fin n → Fin n → ℝ) (g s0 : Fin n → ℝ) (delta : ℝ) :
    boundarySolution1d (ofM B) (ofV g) (ofV 0) (ofV s0) (fin delta) = nan := by
  simp only [boundarySolution1d, dot_ofV, lit_def, fin_mul, fin_sub, rdot_zero, mul_zero, zero_mul, sub_self]
  rw [fin_sqrt _ le_rfl, fin_copysign]
  simp only [lt_self_iff_false, if_false, Real.sqrt_zero, abs_zero, fin_add, add_zero, fin_neg, neg_zero]
  rw [show (fin 0 / fin 0 : Num) = nan by rw [fin_div_def, if_pos rfl, infSign_zero]]
  simp only [argminGo]
  have : ∀ i, vadd (ofV s0) (vsmul nan (ofV 0)) i = nan := by
    intro i; simp [vadd, vsmul]
  have hq : quadraticForm (ofM B) (ofV g) (vadd (ofV s0) (vsmul nan (ofV 0))) = nan := by
    have hd : dot (ofV g) (vadd (ofV s0) (vsmul nan (ofV 0))) = nan := by
      have : FloatOps.sum (List.ofFn fun i => ofV g i * vadd (ofV s0) (vsmul nan (ofV 0)) i) = nan := by
        apply sum_nan_mem
        rw [List.mem_ofFn]
        exact ⟨⟨0, hn⟩, by rw [this]; simp⟩
      exact this
    rw [quadraticForm, hd]; simp
  rw [if_pos]
  show isNaN (quadraticForm (ofM B) (ofV g) (vadd (ofV s0) (vsmul nan (ofV 0)))) = true
  rw [hq]; rfl

/-- **C52 is false for the Steihaug solver at every stationary point.**  Where the gradient is zero (for instance when a run starts at
a minimum), the proposal of the Steihaug solver is NaN in every coordinate, whatever the Hessian, radius, bounds and strategy. -/
theorem C52_steihaug_counterexample {I : TRIn Num n} {x d dv : Fin n → ℝ} {H : Fin n → Fin n → ℝ} {delta theta : ℝ}
    (hI : RealData I x d 0 dv H delta theta) (hn : 0 < n) (h0 : 0 < theta) (h1 : theta ≤ 1) (hbox : InBox I.lb I.ub x) (hd : ∀ i, d i ≠ 0)
    (O : Oracles Num) (fuel : ℕ) (hf : 0 < fuel) (strat : StepBackStrategy) :
    ∃ st, trustRegion O fuel .steihaug strat I = .ok st ∧ ∀ i, st.s i = nan := by
  have hP := RealData.prob hI h0 h1 hbox
  have hz : (fun i => d i * (0 : Fin n → ℝ) i) = 0 := by funext i; simp
  rw [hz] at hP
  obtain ⟨c, hc0, hc1, hc2, hc3⟩ := steihaug_eps (0 : Fin n → ℝ)
  obtain ⟨k, rfl⟩ := Nat.exists_eq_succ_of_ne_zero hf.ne'
  obtain ⟨t, ht1, ht2⟩ := cg_exit_curv I.prob _ delta (c * rnorm (0 : Fin n → ℝ)) hP.shess hP.delta k 0 0 (-0) (by rw [neg_zero, zero_rdot])
  have hnan : t = nan := by
    rw [ht2, hP.shess, hP.sg, hP.delta, neg_zero, boundary_zero hn]; rfl
  have hlt : lt (Fides.norm I.prob.sg) (pyMin (Fides.lit (1 / 2)) (FloatOps.sqrt (Fides.norm I.prob.sg)) * Fides.norm I.prob.sg) = false := by
    rw [hP.sg, hc3, norm_ofV, rnorm_eq_zero.mpr rfl]; simp
  have hloop : steihaugLoop I.prob (pyMin (Fides.lit (1 / 2)) (FloatOps.sqrt (Fides.norm I.prob.sg)) * Fides.norm I.prob.sg) (k + 1) vzero I.prob.sg (vneg I.prob.sg) =
      .ok { subspace := [ofV (-0)], sc := [t], ss := subDot [ofV (-0)] [t], ss0 := ofV 0 } := by
    rw [hP.sg, hc3, vzero_ofV, vneg_ofV]; exact ht1
  have hbase : ∃ st, stepSteihaug (k + 1) I.prob = .ok st ∧ st.alpha = fin 1 ∧ ∀ i, st.s i = nan := by
    simp only [stepSteihaug, hlt, Bool.false_eq_true, if_false]
    have hl : steihaugLoop I.prob (pyMin (Fides.lit (1 / 2)) (FloatOps.sqrt (Fides.norm I.prob.sg)) * Fides.norm I.prob.sg) (k.succ) vzero I.prob.sg (vneg I.prob.sg) = _ := hloop
    rw [hl]
    simp only
    have hs : sdot I.prob.scaling (vadd (subDot [ofV (-0)] [t]) (ofV (0 : Fin n → ℝ))) = fun _ => nan := by
      funext i
      rw [hP.scaling, hnan]
      have : feq (ofV d i) (Fides.lit 0 : Num) = false := by simp [hd i]
      simp only [sdot, this]
      simp [vadd, subDot, sum_cons]
    have hbr : (fun i : Fin n => if lt (Fides.lit 0) (FloatOps.abs ((fun _ => nan : Vec Num n) i)) = true then
        npMax2 ((I.prob.ub i - I.prob.x i) / (fun _ => nan : Vec Num n) i) ((I.prob.lb i - I.prob.x i) / (fun _ => nan : Vec Num n) i) else FloatOps.inf) = fun _ => pinf := by
      funext i; simp
    have hvm : vmin (fun _ : Fin n => (pinf : Num)) = pinf := by
      rcases vmin_spec (fun _ : Fin n => (pinf : Num)) (fun _ => rfl) with ⟨_, _, h | ⟨_, h⟩⟩ <;> exact h
    have hal : npMin2 (Fides.lit 1) (I.prob.theta * pinf) = (fin 1 : Num) := by
      rw [hP.theta]
      simp [fin_mul_pinf, infSign_pos, h0, npMin2]
    refine ⟨_, rfl, ?_, fun i => ?_⟩
    · simp only [Step.stepBack, hs, Step.init]
      rw [hbr, hvm, hal]
    · simp only [Step.stepBack, hs, Step.init]
      rfl
  obtain ⟨st, h2, h3, h4⟩ := hbase
  refine ⟨st, ?_, h4⟩
  have : stepSteihaug k.succ I.prob = .ok st := h2
  simp [trustRegion, candidates, trStep, this, h3, argminGo]

/-- the minimum of a positive definite quadratic in two variables -/
noncomputable def stationaryIn : TRIn Num 2 where
  x := ofV 1
  g := ofV 0
  hess := ofM idM
  scaling := ofV 1
  delta := fin 1
  dv := ofV 0
  theta := fin (19 / 20)
  lb := fun _ => ninf
  ub := fun _ => pinf

/-- the hypotheses are met -/
example : ∃ st, trustRegion tdOracles 5 .steihaug .reflect stationaryIn = .ok st ∧ ∀ i, st.s i = nan := by
  refine C52_steihaug_counterexample (x := 1) (d := 1) (dv := 0) (H := idM) (delta := 1) (theta := 19 / 20) ⟨rfl, rfl, rfl, rfl, rfl, rfl, rfl, ?_⟩
    (by norm_num) (by norm_num) (by norm_num) (fun i => ⟨rfl, rfl⟩) (by intro i; simp) tdOracles 5 (by norm_num) .reflect
  intro i j
  simp [idM, eq_comm]

end Fides
