import Verif.Props.Nan1d
import Verif.Lemmas.TruncDemo
import Verif.Lemmas.GradStep

/-!
# C52: a reflected proposal that is NaN although all data are finite

Two variables, `x = 0`, gradient `(2, 2)`, lower bound -1 on the first variable, radius `√2`, full subspace.  The trust-region step is `(-1, -1)`; it ends
on the sphere and on the bound, and the reflected direction `(1, -1)` is tangent to the sphere.
-/

set_option linter.unusedSectionVars false

namespace Fides
open Num Spec

/-- the data of the proposal computation; scaling, `dv` are the ones that belong to `x`, `g` and the bounds -/
noncomputable def rdIn : TRIn Num 2 where
  x := ofV 0
  g := ofV ![2, 2]
  hess := ofM fun i j => if i = j then ![-2, 0] i else 0
  scaling := ofV 1
  delta := fin (Real.sqrt 2)
  dv := ofV ![1, 0]
  theta := fin (19 / 20)
  lb := ![fin (-1), ninf]
  ub := fun _ => pinf

theorem rd_data : RealData rdIn 0 1 ![2, 2] ![1, 0] (fun i j => if i = j then ![-2, 0] i else 0) (Real.sqrt 2) (19 / 20) :=
  ⟨rfl, rfl, rfl, rfl, rfl, rfl, rfl, fun i j => by fin_cases i <;> fin_cases j <;> rfl⟩

theorem rd_box : InBox rdIn.lb rdIn.ub 0 := by
  intro i
  refine ⟨?_, rfl⟩
  fin_cases i
  · show le (fin (-1 : ℝ)) (fin 0) = true
    simp
  · rfl

theorem rd_sg : rdIn.prob.sg = ofV ![2, 2] := by
  show sdot (ofV 1) (ofV ![2, 2]) = _
  rw [sdot_finite]
  congr 1
  funext i; simp

theorem rd_shess : rdIn.prob.shess = ofM (fun _ _ => 0) := by
  have hP := RealData.prob rd_data (by norm_num) (by norm_num) rd_box
  rw [hP.shess]
  congr 1
  funext i j
  fin_cases i <;> fin_cases j <;> simp

theorem rd_norm (k : ℝ) (hk : 0 ≤ k) : rnorm ![-2 * k, -2 * k] = k * Real.sqrt 8 := by
  rw [rnorm, show rdot ![-2 * k, -2 * k] ![-2 * k, -2 * k] = (k * k) * 8 by simp [rdot, Fin.sum_univ_two]; ring,
    Real.sqrt_mul (mul_self_nonneg k), Real.sqrt_mul_self hk]

theorem rd_sqrt8 : Real.sqrt 8 = 2 * Real.sqrt 2 := by
  rw [show (8 : ℝ) = 2 * 2 * 2 by norm_num, Real.sqrt_mul (by norm_num), Real.sqrt_mul_self (by norm_num)]

theorem rd_nd : solveNd tdOracles.sub (ofM (fun i j => if i = j then ![(0 : ℝ), 0] i else 0)) (ofV (-![-2, -2])) (fin (Real.sqrt 2)) =
    .ok (ofV ![-1, -1], .indef) := by
  have h2 : 0 < Real.sqrt 2 := Real.sqrt_pos.mpr (by norm_num)
  have hs : ∀ lam : ℝ, lam ≠ 0 → slamC lam ![(-2 : ℝ), -2] ![0, 0] = ![-2 * lam⁻¹, -2 * lam⁻¹] := by
    intro lam hl
    funext i
    fin_cases i <;> simp [slamC, hl, div_eq_mul_inv]
  have hs0 : slamC 0 ![(-2 : ℝ), -2] ![0, 0] = ![-2 * 1, -2 * 1] := by
    funext i
    fin_cases i <;> simp [slamC]
  obtain ⟨lam, hl, hnl, hsol⟩ := td_solve ![(0 : ℝ), 0] ![-2, -2] (Real.sqrt 2) 2 (by norm_num) (by norm_num) h2 (by norm_num)
    (by rw [hs _ (by norm_num), rd_norm _ (by norm_num), rd_sqrt8]; ring) (by
      rw [show (-![(0 : ℝ), 0] 0) = 0 by norm_num, hs0, rd_norm _ (by norm_num), rd_sqrt8]; linarith)
  have hl0 : (0 : ℝ) ≤ lam := by simpa using hl
  have hne : lam ≠ 0 := by
    rintro rfl
    rw [hs0, rd_norm _ (by norm_num), rd_sqrt8] at hnl; linarith
  have hpos : 0 < lam := lt_of_le_of_ne hl0 hne.symm
  rw [hs lam hne] at hnl hsol
  rw [rd_norm _ (inv_nonneg.mpr hl0), rd_sqrt8] at hnl
  have : lam⁻¹ = 1 / 2 := by
    have h3 : lam⁻¹ * 2 = 1 := mul_right_cancel₀ h2.ne' (by rw [one_mul]; linarith)
    linarith
  rw [this] at hsol
  rw [hsol]
  congr 3
  funext i; fin_cases i <;> norm_num

theorem rd_br : (fun i : Fin 2 => if lt (Fides.lit 0) (FloatOps.abs (ofV ![(-1 : ℝ), -1] i)) = true then
      npMax2 ((rdIn.prob.ub i - rdIn.prob.x i) / ofV ![(-1 : ℝ), -1] i) ((rdIn.prob.lb i - rdIn.prob.x i) / ofV ![(-1 : ℝ), -1] i)
      else FloatOps.inf) = ![fin 1, pinf] := by
  funext i
  fin_cases i
  · simp [TRIn.prob, rdIn, npMax2, pinf_div_fin, ninf_div_fin]
  · simp [TRIn.prob, rdIn, npMax2, ninf_div_fin, pinf_div_fin]

theorem rd_base : ∃ st, stepFull tdOracles rdIn.prob = .ok st ∧ st.s0 = ofV 0 ∧ st.ss0 = ofV 0 ∧ st.ogS = ofV ![-1, -1] ∧ st.ogSs = ofV ![-1, -1] ∧
    st.minbr = fin 1 ∧ (∀ i, st.iminbr i = decide (i = 0)) ∧ st.alpha = fin (19 / 20) ∧ ∃ q, st.qpval = fin q := by
  have hcols : (List.ofFn fun j : Fin 2 => fun i : Fin 2 => (meye : Mat Num 2 2) i j) = [ofV ![1, 0], ofV ![0, 1]] := by
    rw [meye_ofM]
    simp only [List.ofFn_succ, List.ofFn_zero]
    congr 2
    · funext i; fin_cases i <;> simp
    · congr 1
      funext i; fin_cases i <;> simp
  have hrad : Real.sqrt (max (Real.sqrt 2 * Real.sqrt 2 - rnorm (0 : Fin 2 → ℝ) * rnorm (0 : Fin 2 → ℝ)) 0) = Real.sqrt 2 := by
    rw [rnorm_eq_zero.mpr rfl, Real.mul_self_sqrt (by norm_num)]; norm_num
  have hc := compute_two tdOracles.sub rdIn.prob (Step.init rdIn.prob .nd [ofV ![1, 0], ofV ![0, 1]])
    ![1, 0] ![0, 1] 0 1 ![2, 2] (fun _ _ => 0) (Real.sqrt 2) (Real.sqrt 2) (fun i j => if i = j then ![(0 : ℝ), 0] i else 0) (-![-2, -2]) ![-1, -1] .indef
    rfl vzero_ofV rd_shess rd_sg rfl rfl hrad
    (by
      funext i j
      fin_cases i <;> fin_cases j <;> simp [rdot, rmv])
    (by
      funext i
      fin_cases i <;> simp [rdot, Fin.sum_univ_two]) rd_nd
  have hss : ((![-1, -1] : Fin 2 → ℝ) 0 • ![(1 : ℝ), 0] + (![-1, -1] : Fin 2 → ℝ) 1 • ![0, 1]) = ![-1, -1] := by
    funext i
    fin_cases i <;> simp
  have hs : (fun i => (1 : Fin 2 → ℝ) i * ((![-1, -1] : Fin 2 → ℝ) 0 * ![(1 : ℝ), 0] i + (![-1, -1] : Fin 2 → ℝ) 1 * ![0, 1] i)) = ![-1, -1] := by
    funext i
    fin_cases i <;> simp
  rw [hss, hs] at hc
  have hbr := rd_br
  have hmin : vmin (![fin 1, pinf] : Vec Num 2) = fin 1 := by
    simp [vmin, npMin2]
  have hal : npMin2 (Fides.lit 1) (rdIn.prob.theta * (fin 1 : Num)) = fin (19 / 20) := by
    show npMin2 (Fides.lit 1) (fin (19 / 20) * (fin 1 : Num)) = fin (19 / 20)
    rw [fin_mul, lit_def, npMin2_fin, fin_inj, min_eq_right (by norm_num)]
    norm_num
  rw [stepFull, hcols]
  have hmb := (congrArg vmin hbr).trans hmin
  have hal' := (congrArg (fun m => npMin2 (Fides.lit 1) (rdIn.prob.theta * m)) hmb).trans hal
  refine ⟨_, calculate_ok _ _ _ _ hc, vzero_ofV, vzero_ofV, rfl, rfl, hmb, ?_, hal', ?_⟩
  · intro i
    refine (congrArg (fun b : Vec Num 2 => feq (b i) (vmin b)) hbr).trans ?_
    simp only [hmin]
    rcases Fin.exists_fin_two.mp ⟨i, rfl⟩ with rfl | rfl
    · simp
    · simp; rfl
  · refine ⟨quad (fun _ _ => 0) ![2, 2] ((19 / 20 : ℝ) • ![-1, -1]), ?_⟩
    refine (congrArg (fun a => quadraticForm rdIn.prob.shess rdIn.prob.sg (vadd (fun i => ofV ![(-1 : ℝ), -1] i * a) (vzero : Vec Num 2))) hal').trans ?_
    have : vadd (fun i => ofV ![(-1 : ℝ), -1] i * fin (19 / 20)) (vzero : Vec Num 2) = ofV ((19 / 20 : ℝ) • ![-1, -1]) := by
      funext i
      rw [vzero_ofV]
      show (fin (![(-1 : ℝ), -1] i) * fin (19 / 20) + fin 0 : Num) = fin ((19 / 20 : ℝ) * ![(-1 : ℝ), -1] i)
      rw [fin_mul, fin_add, fin_inj]; ring
    show quadraticForm _ _ (vadd (fun i => ofV ![(-1 : ℝ), -1] i * fin (19 / 20)) (vzero : Vec Num 2)) = _
    rw [this, rd_shess, rd_sg, quadraticForm_ofV]

/-- the reflected step is NaN -/
theorem rd_reflected (cur : Step Num 2) (h1 : cur.s0 = ofV 0) (h2 : cur.ss0 = ofV 0) (h3 : cur.ogS = ofV ![-1, -1]) (h4 : cur.ogSs = ofV ![-1, -1])
    (h5 : cur.minbr = fin 1) (h6 : ∀ i, cur.iminbr i = decide (i = 0)) :
    ∃ st, stepReflected tdOracles rdIn.prob cur = .ok st ∧ st.qpval = nan ∧ (∀ i, st.s i = nan) ∧ feq st.alpha (Fides.lit 1) = true := by
  have hss0 : (reflectInit rdIn.prob cur).ss0 = ofV ![-1, -1] := by
    show vadd (vsmul (pyMin cur.minbr (Fides.lit 1)) cur.ogSs) cur.ss0 = _
    rw [h5, h4, h2]
    have : pyMin (fin 1) (Fides.lit 1 : Num) = fin 1 := by simp [pyMin]
    rw [this, vsmul_ofV, vadd_ofV]; simp
  have hsub : (reflectInit rdIn.prob cur).subspace = [ofV ((rnorm ![(1 : ℝ), -1])⁻¹ • ![1, -1])] := by
    show [normalize (fun i => if cur.iminbr i = true then cur.ogSs i * Fides.lit (-1) else cur.ogSs i)] = _
    have : (fun i => if cur.iminbr i = true then cur.ogSs i * Fides.lit (-1) else cur.ogSs i) = ofV ![(1 : ℝ), -1] := by
      funext i
      rw [h6, h4]
      fin_cases i <;> simp
    rw [this, normalize_ofV]
  set u := (rnorm ![(1 : ℝ), -1])⁻¹ • ![(1 : ℝ), -1] with hu
  have hn1 : (![(1 : ℝ), -1] : Fin 2 → ℝ) ≠ 0 := by intro h; have := congrFun h 0; norm_num at this
  have hu1 : rnorm u = 1 := rnorm_normalized hn1
  have hunz : u ≠ 0 := by
    intro h
    rw [h, rnorm_eq_zero.mpr rfl] at hu1; norm_num at hu1
  have hm1 : rnorm ![(-1 : ℝ), -1] = Real.sqrt 2 := by
    have := rd_norm (1 / 2) (by norm_num)
    rw [rd_sqrt8] at this
    norm_num at this
    linarith
  have hsol : solve1d rdIn.prob.shess rdIn.prob.sg (ofV u) rdIn.prob.delta (ofV ![-1, -1]) = nan := by
    rw [rd_shess, rd_sg]
    refine (C20_nan_iff (fun _ _ => rfl) ![2, 2] u ![-1, -1] (Real.sqrt 2) (Real.sqrt_nonneg _) hm1.le).mpr ⟨Real.sqrt_pos.mpr (by norm_num), hm1, hunz, ?_, ?_⟩
    · rw [hu, rdot_smul]
      simp [rdot, Fin.sum_univ_two]
    · simp [rdot, rmv]
  have hcomp : (reflectInit rdIn.prob cur).computeStep tdOracles.sub rdIn.prob =
      .ok { reflectInit rdIn.prob cur with sc := [nan], ss := fun _ => nan, s := fun _ => nan } := by
    simp only [Step.computeStep, hsub, hss0, hsol]
    have e1 : subDot [ofV u] [(nan : Num)] = fun _ => nan := by
      funext i
      simp [subDot, sum_cons]
    rw [e1]
    congr 2
    funext i
    show sdot (ofV (1 : Fin 2 → ℝ)) (fun _ => (nan : Num)) i = nan
    simp [sdot]
  have hbr : (fun i : Fin 2 => if lt (Fides.lit 0) (FloatOps.abs (nan : Num)) = true then
      npMax2 ((rdIn.prob.ub i - (reflectInit rdIn.prob cur).x i) / nan) ((rdIn.prob.lb i - (reflectInit rdIn.prob cur).x i) / nan)
      else FloatOps.inf) = fun _ => pinf := by
    funext i; simp
  have hal : npMin2 (Fides.lit 1) (rdIn.prob.theta * vmin (fun _ : Fin 2 => (pinf : Num))) = fin 1 := by
    have hv : vmin (fun _ : Fin 2 => (pinf : Num)) = pinf := by simp [vmin, npMin2]
    rw [hv]
    show npMin2 (Fides.lit 1) (fin (19 / 20) * (pinf : Num)) = _
    simp [fin_mul_pinf, infSign_pos, npMin2]
  have hal' := (congrArg (fun b : Vec Num 2 => npMin2 (Fides.lit 1) (rdIn.prob.theta * vmin b)) hbr).trans hal
  refine ⟨_, calculate_ok _ _ _ _ hcomp, ?_, ?_, ?_⟩
  · exact quadraticForm_nan _ _ _ 0 (by simp [Step.stepBack, vadd])
  · intro i
    show (nan : Num) * _ = nan
    simp
  · refine (congrArg (fun a : Num => feq a (Fides.lit 1)) hal').trans ?_
    simp

/-- **C52 is false for reflected steps.**  All data are finite and consistent with each other (the scaling is the one of the point, gradient
and bounds), the external routines are exact; the uncut trust-region step ends within the bounds (on one of them), on the sphere.  `trust_region` with strategy
`reflect` (and `single_reflect`) returns a step that is NaN in every coordinate: the reflected direction is tangent to the sphere, one of the
two intersections is computed as 0/0, and `argmin` prefers the NaN candidate. -/
theorem C52_reflect_counterexample : ∃ (O : Oracles Num) (I : TRIn Num 2) (x d g dv : Fin 2 → ℝ) (H : Fin 2 → Fin 2 → ℝ) (delta theta : ℝ),
    RealData I x d g dv H delta theta ∧ 0 < theta ∧ theta ≤ 1 ∧ Inside I.lb I.ub x ∧ 0 < delta ∧ (∀ i, d i * g i ≠ 0) ∧
      FiniteOracles O ∧ ExactEig O.sub ∧ FindsRoots O.sub ∧
      ∀ fuel, ∀ strat ∈ [StepBackStrategy.reflect, .singleReflect], ∃ st, trustRegion O fuel .full strat I = .ok st ∧ ∀ i, vadd st.s st.s0 i = nan := by
  obtain ⟨tr, htr, h1, h2, h3, h4, h5, h6, h7, q, hq⟩ := rd_base
  obtain ⟨rf, hrf, hr1, hr2, hr3⟩ := rd_reflected tr h1 h2 h3 h4 h5 h6
  obtain ⟨gs, t, a, hg, _, _, _, _, _, _, _, hgq, _⟩ := gradStep_spec tdOracles rd_data (Real.sqrt_nonneg _) (by norm_num) rd_box
  have h8' : lt tr.alpha (Fides.lit 1) = true := by rw [h7]; norm_num
  refine ⟨tdOracles, rdIn, _, _, _, _, _, _, _, rd_data, by norm_num, by norm_num, ?_, Real.sqrt_pos.mpr (by norm_num), ?_, td_finite, td_exactEig,
    td_findsRoots, ?_⟩
  · intro i
    refine ⟨?_, rfl⟩
    fin_cases i
    · show lt (fin (-1 : ℝ)) (fin 0) = true
      simp
    · rfl
  · intro i
    fin_cases i <;> simp
  · intro fuel strat hstrat
    have hcand : candidates tdOracles fuel rdIn.prob .full strat = .ok (tr, [gs, rf]) := by
      simp only [List.mem_cons, List.not_mem_nil, or_false] at hstrat
      rcases hstrat with rfl | rfl
      · simp only [candidates, trStep, htr, h8', Bool.true_and, hg, stepbackCandidates, stepbackReflect, hrf, reflectLoop, hr3]
        rfl
      · simp only [candidates, trStep, htr, h8', Bool.true_and, hg, stepbackCandidates, hrf]
        rfl
    have hsel : argminGo (fun st : Step Num 2 => st.qpval) tr [gs, rf] = rf := by
      simp only [argminGo, hq, hgq, hr1]
      simp
    refine ⟨rf, ?_, ?_⟩
    · rw [trustRegion, hcand]; simp only [hsel]
    · intro i
      simp [vadd, hr2]

end Fides
