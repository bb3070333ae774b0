import Verif.Props.NoIncrease
import Verif.Props.Ball
import Verif.Props.TrustBall
import Verif.Props.TruncBall
import Verif.Props.Finite

/-!
# Concrete cases that meet the hypotheses of C21_radius_total, C49_basis, C26_*_partial and C50_*

The problem is the one of `Lemmas/TruncDemo.lean`: two variables, `x = 0`, gradient `(8, -6)`, indefinite Hessian, an upper bound that cuts the
trust-region step.
-/

namespace Fides
open Num Spec

/-- C21_radius_total: an indefinite 2x2 subproblem solved on the sphere of radius 51/25 -/
example : (∀ v U, tdOracles.sub.eig (ofM (fun i j => if i = j then ![(-9 : ℝ), 16] i else 0)) = .ok (v, U) → ∃ vals Ur, v = ofV vals ∧ U = ofM Ur ∧ OrthoCols Ur) ∧
    FindsRoots tdOracles.sub ∧ (0 : ℝ) ≤ 51 / 25 ∧
    solveNd tdOracles.sub (ofM (fun i j => if i = j then ![(-9 : ℝ), 16] i else 0)) (ofV (-![-10, 0])) (fin (51 / 25)) = .ok (ofV ![-51 / 25, 0], .indef) := by
  refine ⟨?_, td_findsRoots, by norm_num, td_base_nd⟩
  intro v U h
  rw [td_eig] at h
  cases h
  exact ⟨_, idM, rfl, rfl, (diag_isEig ![(-9 : ℝ), 16]).1⟩

/-- C49_basis: a two-dimensional subspace -/
example : RealData tdIn 0 1 ![8, -6] ![0, 1] (fun i j => ![![0, 12], ![12, 1]] i j) (51 / 25) (24 / 25) ∧ FiniteOracles tdOracles ∧
    ∃ pd nw, subspace2d tdOracles tdIn.prob = .ok ([ofV ![4 / 5, -3 / 5], ofV ![-3 / 5, -4 / 5]], pd, nw) :=
  ⟨td_data, td_finite, td_subspace⟩

/-- with a single reflection the whole computation of the proposal succeeds, after the trust-region step was cut at the bound -/
theorem td_list : ∃ tr gs rf, trStep tdOracles 5 tdIn.prob .two = .ok tr ∧ lt tr.alpha (fin 1) = true ∧
    candidates tdOracles 5 tdIn.prob .two .singleReflect = .ok (tr, [gs, rf]) ∧
    ∀ st ∈ tr :: [gs, rf], (∃ q, st.qpval = fin q) ∧ ∃ p, vadd st.ss st.ss0 = ofV p := by
  have hP := RealData.prob td_data (by norm_num) (by norm_num) td_box
  obtain ⟨tr, htr, h1, h2, h3, h4, h5, h6, h7, h8, q, hq⟩ := td_base
  obtain ⟨gs, t, a, hg, _, _, _, _, _, hs1, hs2, hgq, _⟩ := gradStep_spec tdOracles td_data (by norm_num) (by norm_num) td_box
  have h8' : lt tr.alpha (Fides.lit 1) = true := by rw [h8]; norm_num
  have h8'' : feq tr.alpha (Fides.lit 1) = false := by rw [h8]; norm_num
  obtain ⟨rf, hrf⟩ : ∃ rf, stepReflected tdOracles tdIn.prob tr = .ok rf := ⟨_, rfl⟩
  have h : candidates tdOracles 5 tdIn.prob .two .singleReflect = .ok (tr, [gs, rf]) := by
    simp only [candidates, trStep, htr, h8', Bool.true_and, hg, stepbackCandidates, hrf]
    rfl
  have hcb : Cand tdOracles 5 tdIn.prob .two tr := .base tr htr
  have hcr : Cand tdOracles 5 tdIn.prob .two rf := .refl tr rf hcb h8'' hrf
  have hft := cand_finStep hP (by norm_num) tdOracles td_finite 5 .two tr hcb
  have hfr := cand_finStep hP (by norm_num) tdOracles td_finite 5 .two rf hcr
  obtain ⟨k1, k2⟩ := calculate_keeps _ _ _ _ hrf
  obtain ⟨p0, hp0⟩ := hfr.ss0
  have hminbr : tr.minbr = fin (125 / 153) := by
    obtain ⟨r, _, hm, i, hi⟩ := hft.cut h8''
    rw [h6] at hi
    rcases Fin.exists_fin_two.mp ⟨i, rfl⟩ with rfl | rfl
    · simp at hi
    · rw [hm, ← hi]; rfl
  have hp0' : ofV p0 = ofV ![(-4 : ℝ) / 3, 1] := by
    rw [← hp0, k1]
    show vadd (vsmul (pyMin tr.minbr (Fides.lit 1)) tr.ogSs) tr.ss0 = _
    have : pyMin (fin (125 / 153)) (Fides.lit 1 : Num) = fin (125 / 153) := by norm_num [pyMin]
    rw [hminbr, this, h5, h3, vsmul_ofV, vadd_ofV]
    congr 1
    funext i
    fin_cases i <;> norm_num
  have hn : rnorm ![(-4 : ℝ) / 3, 1] = 5 / 3 := by
    rw [rnorm, show rdot ![(-4 : ℝ) / 3, 1] ![(-4 : ℝ) / 3, 1] = 5 / 3 * (5 / 3) by simp [rdot, Fin.sum_univ_two]; norm_num,
      Real.sqrt_mul_self (by norm_num)]
  obtain ⟨og, hog⟩ := calculate_og' hP (sym_scaled _ _ td_data.sym) (by norm_num) tdOracles td_finite _ _
    (by rw [← (calculate_frame _ _ _ _ hrf).2.2]; exact hfr.cols) ![(-4 : ℝ) / 3, 1] (by rw [← k1, hp0, hp0']) (by rw [hn]; norm_num) hrf
  obtain ⟨ar, har, _⟩ := hfr.alpha
  have hrss : rf.ss = ofV (fun i => og i * ar) := by
    rw [hfr.ss, hog, har]; funext i; simp
  have hqr : ∃ q, rf.qpval = fin q := by
    have hrf' := hrf
    unfold stepReflected Step.calculate at hrf'
    split at hrf'
    · cases hrf'
    · rename_i st1 hc1
      have e : rf.qpval = quadraticForm tdIn.prob.shess tdIn.prob.sg (vadd rf.ss rf.ss0) := by cases hrf'; rfl
      rw [e, hrss, hp0, hP.shess, hP.sg, vadd_ofV, quadraticForm_ofV]
      exact ⟨_, rfl⟩
  refine ⟨tr, gs, rf, htr, by simpa using h8', h, ?_⟩
  intro best hm
  simp only [List.mem_cons, List.not_mem_nil, or_false] at hm
  rcases hm with rfl | rfl | rfl
  · refine ⟨⟨q, hq⟩, ?_⟩
    rw [hft.ss, h5, h8, h3]
    exact ⟨fun i => ![(-204 : ℝ) / 125, 153 / 125] i * (40 / 51) + 0, by funext i; simp [vadd]⟩
  · refine ⟨⟨_, hgq⟩, ?_⟩
    rw [hs1, hs2, vadd_ofV]; exact ⟨_, rfl⟩
  · refine ⟨hqr, ?_⟩
    rw [hrss, hp0, vadd_ofV]; exact ⟨_, rfl⟩

theorem td_candidates : ∃ tr gs rf, candidates tdOracles 5 tdIn.prob .two .singleReflect = .ok (tr, [gs, rf]) ∧ ∀ st ∈ tr :: [gs, rf], ∃ q, st.qpval = fin q := by
  obtain ⟨tr, gs, rf, _, _, h, h'⟩ := td_list
  exact ⟨tr, gs, rf, h, fun st hst => (h' st hst).1⟩

theorem td_single : ∃ tr best, trStep tdOracles 5 tdIn.prob .two = .ok tr ∧ lt tr.alpha (fin 1) = true ∧
    trustRegion tdOracles 5 .two .singleReflect tdIn = .ok best ∧ (∃ q, best.qpval = fin q) ∧ ∃ p, vadd best.ss best.ss0 = ofV p := by
  obtain ⟨tr, gs, rf, h1, h2, h, h'⟩ := td_list
  refine ⟨tr, argminGo (fun st : Step Num 2 => st.qpval) tr [gs, rf], h1, h2, ?_, h' _ (argminGo_mem _ _ _)⟩
  rw [trustRegion, h]

/-- C26_radius_partial, C26_displacement_partial: all hypotheses hold and the conclusion follows for a cut step with a reflected alternative -/
example : ∃ best q p r, trustRegion tdOracles 5 .two .singleReflect tdIn = .ok best ∧ best.qpval = fin q ∧ vadd best.ss best.ss0 = ofV p ∧
    rnorm p ≤ 51 / 25 + 1 / 2 ^ 26 ∧ vadd best.s best.s0 = ofV (fun i => (1 : Fin 2 → ℝ) i * r i) ∧ rnorm r ≤ 51 / 25 + 1 / 2 ^ 26 := by
  obtain ⟨tr, best, h1, h2, h3, ⟨q, h4⟩, p, hp⟩ := td_single
  obtain ⟨r, hr1, hr2⟩ := C26_displacement_partial td_data (by norm_num) (by norm_num) td_box (by norm_num) tdOracles td_finite td_exactEig td_findsRoots 5 .two
    (by decide) .singleReflect (by decide) (Or.inr (by decide)) best h3 q h4
  exact ⟨best, q, p, r, h3, h4, hp, C26_radius_partial td_data (by norm_num) (by norm_num) td_box (by norm_num) tdOracles td_finite td_exactEig
    td_findsRoots 5 .two .singleReflect (by decide) (Or.inr (by decide)) best h3 p hp, hr1, hr2⟩

theorem td_inside : Inside tdIn.lb tdIn.ub 0 := by
  intro i
  refine ⟨rfl, ?_⟩
  fin_cases i
  · rfl
  · show lt (fin (0 : ℝ)) (fin 1) = true
    simp

/-- C50_no_increase, C50_decrease: all hypotheses hold, the predicted value is negative -/
example : ∃ tr best, trStep tdOracles 5 tdIn.prob .two = .ok tr ∧ lt tr.alpha (fin 1) = true ∧
    trustRegion tdOracles 5 .two .singleReflect tdIn = .ok best ∧ best.qpval ≠ nan ∧ lt best.qpval (fin 0) = true := by
  obtain ⟨tr, best, h1, h2, h3, ⟨q, h4⟩, _⟩ := td_single
  have hne : best.qpval ≠ nan := by rw [h4]; exact fun h => by (cases h)
  refine ⟨tr, best, h1, h2, h3, hne, ?_⟩
  exact C50_decrease tdOracles 5 .two .singleReflect (by norm_num) td_data (by norm_num) (by norm_num) td_inside ⟨0, by simp⟩ tr best h1 h2 h3 hne

/-- C52_start_partial: all hypotheses hold, and the proposal is finite -/
example : ∃ best, trustRegion tdOracles 5 .two .singleReflect tdIn = .ok best ∧
    ((∃ p, vadd best.s best.s0 = ofV p) ∨ ((best.type = .trr ∨ best.type = .trt) ∧ ∃ q, best.ss0 = ofV q ∧ 51 / 25 ≤ rnorm q)) := by
  obtain ⟨tr, best, h1, h2, h3, _⟩ := td_single
  exact ⟨best, h3, C52_start_partial td_data (by norm_num) (by norm_num) (by norm_num) td_box (by norm_num) tdOracles td_finite 5 .two .singleReflect
    (by intro h; cases h) best h3⟩

end Fides
