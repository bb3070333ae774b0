import Verif.Lemmas.CG
import Verif.Lemmas.Demo
import Verif.Props.NoIncrease

/-!
# C25: the counterexample for the Steihaug solver; a two-dimensional problem whose step is cut at the bounds
-/

set_option linter.unusedSectionVars false

namespace Fides
open Num Spec

/-- gradient (2, 1), Hessian diag(-4, 2), at distance 1/4 and 1 from the lower bounds -/
noncomputable def cutIn : TRIn Num 2 :=
  { x := ofV 0, g := ofV ![2, 1], hess := ofM ![![-4, 0], ![0, 2]], scaling := ofV ![1 / 2, 1], delta := fin 10, dv := ofV ![1, 1],
    theta := fin (19 / 20), lb := ofV ![-1 / 4, -1], ub := fun _ => pinf }

theorem cutIn_real : RealData cutIn 0 ![1 / 2, 1] ![2, 1] ![1, 1] ![![-4, 0], ![0, 2]] 10 (19 / 20) where
  x := rfl
  scaling := rfl
  g := rfl
  dv := rfl
  hess := rfl
  delta := rfl
  theta := rfl
  sym := by intro i j; fin_cases i <;> fin_cases j <;> rfl

theorem cutIn_inside : Inside cutIn.lb cutIn.ub 0 := by
  intro i
  fin_cases i <;> constructor <;> simp [cutIn] <;> norm_num

theorem cutIn_sg : cutIn.prob.sg = ofV ![1, 1] := by
  rw [cutIn_real.sg, ofV_inj]
  funext i; fin_cases i <;> simp

theorem cutIn_shess : cutIn.prob.shess = ofM ![![1, 0], ![0, 3]] := by
  rw [cutIn_real.shess]
  congr 1
  funext i j
  fin_cases i <;> fin_cases j <;> simp <;> norm_num

theorem rd2 (a b c e : ℝ) : rdot ![a, b] ![c, e] = a * c + b * e := by simp [rdot, Fin.sum_univ_two]
theorem rmv2 (a b c e x y : ℝ) : rmv ![![a, b], ![c, e]] ![x, y] = ![a * x + b * y, c * x + e * y] := by
  funext i; fin_cases i <;> simp [rmv, rdot, Fin.sum_univ_two]
theorem rnorm2 (a b : ℝ) : rnorm ![a, b] = Real.sqrt (a * a + b * b) := by rw [rnorm, rd2]
theorem add2 (a b c e : ℝ) : (![a, b] : Fin 2 → ℝ) + ![c, e] = ![a + c, b + e] := by funext i; fin_cases i <;> rfl
theorem smul2 (k a b : ℝ) : k • (![a, b] : Fin 2 → ℝ) = ![k * a, k * b] := by funext i; fin_cases i <;> rfl
theorem neg2 (a b : ℝ) : -(![a, b] : Fin 2 → ℝ) = ![-a, -b] := by funext i; fin_cases i <;> rfl
theorem sub2 (a b c e : ℝ) : (![a, b] : Fin 2 → ℝ) - ![c, e] = ![a - c, b - e] := by funext i; fin_cases i <;> rfl
theorem zero2 : (0 : Fin 2 → ℝ) = ![0, 0] := by funext i; fin_cases i <;> rfl

theorem cutIn_loop : steihaugLoop cutIn.prob (fin (Real.sqrt 2 / 2)) 2 (ofV 0) (ofV ![1, 1]) (ofV ![-1, -1]) =
    .ok { subspace := [ofV ((rnorm ![-3 / 4, 1 / 4])⁻¹ • ![-3 / 4, 1 / 4])],
          sc := [fin (rdot ![-1, -1 / 3] ((rnorm ![-3 / 4, 1 / 4])⁻¹ • ![-3 / 4, 1 / 4]))],
          ss := ofV ![-4 / 5, 4 / 15], ss0 := ofV ![-1 / 5, -3 / 5] } := by
  have h2 : Real.sqrt 2 / 2 = Real.sqrt (1 / 2) := by
    rw [eq_comm, Real.sqrt_eq_iff_mul_self_eq (by norm_num) (by positivity)]
    rw [div_mul_div_comm, Real.mul_self_sqrt (by norm_num)]; norm_num
  have e1 : rdot (![1, 1] : Fin 2 → ℝ) ![1, 1] / rdot ![-1, -1] (rmv ![![1, 0], ![0, 3]] ![-1, -1]) = 1 / 2 := by
    rw [rmv2, rd2, rd2]; norm_num
  rw [cg_step cutIn.prob ![![1, 0], ![0, 3]] 10 (Real.sqrt 2 / 2) cutIn_shess rfl 1 0 ![1, 1] ![-1, -1]]
  · simp only [e1]
    have e2 : (0 : Fin 2 → ℝ) + (1 / 2 : ℝ) • ![-1, -1] = ![-1 / 2, -1 / 2] := by
      rw [zero2, smul2, add2]; norm_num
    have e3 : (![1, 1] : Fin 2 → ℝ) + (1 / 2 : ℝ) • rmv ![![1, 0], ![0, 3]] ![-1, -1] = ![1 / 2, -1 / 2] := by
      rw [rmv2, smul2, add2]; norm_num
    have e4 : -(![1 / 2, -1 / 2] : Fin 2 → ℝ) + (rdot (![1 / 2, -1 / 2] : Fin 2 → ℝ) ![1 / 2, -1 / 2] / rdot (![1, 1] : Fin 2 → ℝ) ![1, 1]) • ![-1, -1] = ![-3 / 4, 1 / 4] := by
      rw [rd2, rd2, smul2, neg2, add2]; norm_num
    rw [e2, e3, e4]
    have e5 : rdot (![1 / 2, -1 / 2] : Fin 2 → ℝ) ![1 / 2, -1 / 2] / rdot ![-3 / 4, 1 / 4] (rmv ![![1, 0], ![0, 3]] ![-3 / 4, 1 / 4]) = 2 / 3 := by
      rw [rmv2, rd2, rd2]; norm_num
    have e6 : (![-1 / 2, -1 / 2] : Fin 2 → ℝ) + (2 / 3 : ℝ) • ![-3 / 4, 1 / 4] = ![-1, -1 / 3] := by rw [smul2, add2]; norm_num
    have hn : rnorm (![-3 / 4, 1 / 4] : Fin 2 → ℝ) * rnorm (![-3 / 4, 1 / 4] : Fin 2 → ℝ) = 5 / 8 := by
      rw [rnorm_sq, rd2]; norm_num
    have hne : rnorm (![-3 / 4, 1 / 4] : Fin 2 → ℝ) ≠ 0 := by
      intro h; rw [h] at hn; norm_num at hn
    have e7 : rdot ![-1, -1 / 3] ((rnorm (![-3 / 4, 1 / 4] : Fin 2 → ℝ))⁻¹ • ![-3 / 4, 1 / 4]) • (rnorm (![-3 / 4, 1 / 4] : Fin 2 → ℝ))⁻¹ • (![-3 / 4, 1 / 4] : Fin 2 → ℝ) =
        ![-4 / 5, 4 / 15] := by
      rw [rdot_smul, rd2, smul_smul]
      have : (rnorm (![-3 / 4, 1 / 4] : Fin 2 → ℝ))⁻¹ * (-1 * (-3 / 4) + -1 / 3 * (1 / 4)) * (rnorm (![-3 / 4, 1 / 4] : Fin 2 → ℝ))⁻¹ = 16 / 15 := by
        have : (rnorm (![-3 / 4, 1 / 4] : Fin 2 → ℝ))⁻¹ * (rnorm (![-3 / 4, 1 / 4] : Fin 2 → ℝ))⁻¹ = 8 / 5 := by
          rw [← mul_inv, hn]; norm_num
        linear_combination (2 / 3) * this
      rw [this, smul2]; norm_num
    rw [cg_conv cutIn.prob ![![1, 0], ![0, 3]] 10 (Real.sqrt 2 / 2) cutIn_shess rfl 0]
    · rw [e5, e6, e7, sub2]; norm_num
    · rw [rmv2, rd2]; norm_num
    · rw [e5, e6, rnorm2, Real.sqrt_lt' (by norm_num)]; norm_num
    · rw [e5, rmv2, smul2, add2, rnorm2]
      have : Real.sqrt ((1 / 2 + 2 / 3 * (1 * (-3 / 4) + 0 * (1 / 4))) * (1 / 2 + 2 / 3 * (1 * (-3 / 4) + 0 * (1 / 4))) +
          (-1 / 2 + 2 / 3 * (0 * (-3 / 4) + 3 * (1 / 4))) * (-1 / 2 + 2 / 3 * (0 * (-3 / 4) + 3 * (1 / 4)))) = 0 := by norm_num
      rw [this]; positivity
  · intro h; have := congrFun h 0; simp at this
  · rw [rmv2, rd2]; norm_num
  · rw [e1, zero2, smul2, add2, rnorm2, Real.sqrt_lt' (by norm_num)]; norm_num
  · rw [e1, rmv2, smul2, add2, rnorm2, h2]
    exact le_of_eq (by norm_num)

theorem brOf_down (l x s : ℝ) (hs : s < 0) : brOf (fin l) pinf (fin x) (fin s) = fin ((l - x) / s) := by
  have : 0 < |s| := abs_pos.mpr hs.ne
  simp [brOf, this, pinf_div_fin, hs, fin_div _ _ hs.ne, npMax2]

theorem vmin2 (v : Vec Num 2) (a b : ℝ) (h0 : v 0 = fin a) (h1 : v 1 = fin b) : vmin v = fin (min a b) := by
  simp only [vmin, List.ofFn_succ, List.ofFn_zero, List.foldl_cons, List.foldl_nil, Fin.succ_zero_eq_one, h0, h1, inf_def]
  have : npMin2 pinf (fin a) = fin a := by simp [npMin2]
  rw [this, npMin2_fin]

/-- step-back in two variables with lower bounds only and a step that decreases both -/
theorem stepBack2 (P : Prob Num 2) (st : Step Num 2) (l0 l1 x0 x1 s0 s1 th : ℝ) (hl : P.lb = ofV ![l0, l1]) (hu : P.ub = fun _ => pinf)
    (ht : P.theta = fin th) (hx : st.x = ofV ![x0, x1]) (hs : st.s = ofV ![s0, s1]) (h0 : s0 < 0) (h1 : s1 < 0) :
    (st.stepBack P).br 0 = fin ((l0 - x0) / s0) ∧ (st.stepBack P).br 1 = fin ((l1 - x1) / s1) ∧
    (st.stepBack P).minbr = fin (min ((l0 - x0) / s0) ((l1 - x1) / s1)) ∧
    (st.stepBack P).alpha = fin (min 1 (th * min ((l0 - x0) / s0) ((l1 - x1) / s1))) := by
  have e0 : (st.stepBack P).br 0 = fin ((l0 - x0) / s0) := by
    rw [stepBack_br, hl, hu, hx, hs]; exact brOf_down l0 x0 s0 h0
  have e1 : (st.stepBack P).br 1 = fin ((l1 - x1) / s1) := by
    rw [stepBack_br, hl, hu, hx, hs]; exact brOf_down l1 x1 s1 h1
  have e2 : (st.stepBack P).minbr = fin (min ((l0 - x0) / s0) ((l1 - x1) / s1)) := vmin2 _ _ _ e0 e1
  refine ⟨e0, e1, e2, ?_⟩
  rw [stepBack_alpha, e2, ht, lit_def, fin_mul, npMin2_fin]; norm_num

theorem sdot2 (d0 d1 a b : ℝ) : sdot (ofV ![d0, d1]) (ofV ![a, b]) = ofV ![d0 * a, d1 * b] := by
  funext i
  fin_cases i
  · exact sdot_fin _ _ 0 a rfl
  · exact sdot_fin _ _ 1 b rfl

theorem fsmul2 (k a b : ℝ) : (fun i => ofV ![a, b] i * fin k) = ofV ![a * k, b * k] := by
  funext i; fin_cases i <;> rfl

theorem cutIn_base : ∃ st, stepSteihaug 2 cutIn.prob = .ok st ∧ st.alpha = fin (19 / 40) ∧ st.qpval = fin (-41180 / 75000) ∧
    st.minbr = fin (1 / 2) ∧ st.iminbr 0 = true ∧ st.iminbr 1 = false ∧ st.ogS = ofV ![-1 / 2, -1 / 3] ∧
    st.ogSs = ofV ![-4 / 5, 4 / 15] ∧ st.s0 = ofV 0 ∧ st.ss0 = ofV ![-1 / 5, -3 / 5] := by
  have heps : pyMin (Fides.lit (1 / 2)) (FloatOps.sqrt (norm cutIn.prob.sg)) * norm cutIn.prob.sg = fin (Real.sqrt 2 / 2) := by
    rw [cutIn_sg, norm_ofV, rnorm2]
    have : Real.sqrt (1 * 1 + 1 * 1) = Real.sqrt 2 := by norm_num
    rw [this, fin_sqrt _ (Real.sqrt_nonneg 2), pyMin, if_neg]
    · simp only [lit_def, fin_mul, fin_inj]; push_cast; ring
    · simp only [lit_def, fin_lt, decide_eq_true_eq, not_lt]
      push_cast
      refine Real.le_sqrt_of_sq_le (Real.le_sqrt_of_sq_le ?_)
      norm_num
  have hlt : lt (norm cutIn.prob.sg) (fin (Real.sqrt 2 / 2)) = false := by
    rw [cutIn_sg, norm_ofV, rnorm2, fin_lt, decide_eq_false_iff_not, not_lt]
    have : Real.sqrt (1 * 1 + 1 * 1) = Real.sqrt 2 := by norm_num
    rw [this]; linarith [Real.sqrt_nonneg 2]
  have hl := cutIn_loop
  set st1 : Step Num 2 := { Step.init cutIn.prob .cgs [ofV ((rnorm ![-3 / 4, 1 / 4])⁻¹ • ![-3 / 4, 1 / 4])] with
    sc := [fin (rdot ![-1, -1 / 3] ((rnorm ![-3 / 4, 1 / 4])⁻¹ • ![-3 / 4, 1 / 4]))], ss := ofV ![-4 / 5, 4 / 15],
    ss0 := ofV ![-1 / 5, -3 / 5], s := sdot cutIn.prob.scaling (vadd (ofV ![-4 / 5, 4 / 15]) (ofV ![-1 / 5, -3 / 5])) } with hst1
  have hst : stepSteihaug 2 cutIn.prob = .ok { st1.stepBack cutIn.prob with
      qpval := quadraticForm cutIn.prob.shess cutIn.prob.sg (vadd (st1.stepBack cutIn.prob).ss (st1.stepBack cutIn.prob).ss0) } := by
    rw [stepSteihaug]
    simp only [heps, hlt, Bool.false_eq_true, if_false]
    have : steihaugLoop cutIn.prob (fin (Real.sqrt 2 / 2)) 2 vzero cutIn.prob.sg (vneg cutIn.prob.sg) =
        steihaugLoop cutIn.prob (fin (Real.sqrt 2 / 2)) 2 (ofV 0) (ofV ![1, 1]) (ofV ![-1, -1]) := by
      rw [vzero_ofV, cutIn_sg, vneg_ofV, neg2]
    rw [this, hl]
  have hs : st1.s = ofV ![-1 / 2, -1 / 3] := by
    show sdot cutIn.prob.scaling (vadd (ofV ![-4 / 5, 4 / 15]) (ofV ![-1 / 5, -3 / 5])) = _
    rw [vadd_ofV, add2]
    show sdot (ofV ![1 / 2, 1]) _ = _
    rw [sdot2]; norm_num
  obtain ⟨b0, b1, hm, ha⟩ := stepBack2 cutIn.prob st1 (-1 / 4) (-1) 0 0 (-1 / 2) (-1 / 3) (19 / 20) rfl rfl rfl
    (by show ofV 0 = _; rw [zero2]) hs (by norm_num) (by norm_num)
  norm_num at b0 b1 hm ha
  have hm' : (st1.stepBack cutIn.prob).minbr = fin (1 / 2) := by rw [hm]
  have ha' : (st1.stepBack cutIn.prob).alpha = fin (19 / 40) := by rw [ha]
  refine ⟨_, hst, ha', ?_, hm', ?_, ?_, hs, rfl, by rw [← vzero_ofV]; rfl, rfl⟩
  · show quadraticForm _ _ (vadd (fun i => ofV ![-4 / 5, 4 / 15] i * (st1.stepBack cutIn.prob).alpha) (ofV ![-1 / 5, -3 / 5])) = _
    rw [ha', fsmul2, vadd_ofV, add2, cutIn_shess, cutIn_sg, quadraticForm_ofV, quad, rmv2, rd2, rd2]
    norm_num
  · show feq ((st1.stepBack cutIn.prob).br 0) (st1.stepBack cutIn.prob).minbr = true
    rw [b0, hm']; norm_num
  · show feq ((st1.stepBack cutIn.prob).br 1) (st1.stepBack cutIn.prob).minbr = false
    rw [b1, hm']; norm_num

theorem cutIn_gradient (O : Oracles Num) : ∃ st, stepGradient O cutIn.prob = .ok st ∧ st.qpval = fin (-49875 / 100000) := by
  have hs11 : (![1, 1] : Fin 2 → ℝ) ≠ 0 := by intro h; have := congrFun h 0; simp at this
  have eB : rdot (rmv ![![1, 0], ![0, 3]] ![1, 1]) (![1, 1] : Fin 2 → ℝ) = 4 := by rw [rmv2, rd2]; norm_num
  have eg : rdot (![1, 1] : Fin 2 → ℝ) (rmv ![![1, 0], ![0, 3]] 0 + ![1, 1]) = 2 := by rw [rmv_zero, zero_add, rd2]; norm_num
  obtain ⟨t, h1, h2⟩ := solve1d_normalized ![![1, 0], ![0, 3]] ![1, 1] ![1, 1] 0 10 (by norm_num) hs11 (by rw [eB]; norm_num)
    (by rw [eB, eg, add_zero, smul2, rnorm2, Real.sqrt_le_left (by norm_num)]; norm_num)
  rw [eB, eg, smul2] at h2
  set st1 : Step Num 2 := { Step.init cutIn.prob .g [normalize (ofV ![1, 1])] with
    sc := [fin t], ss := ofV ![-1 / 2, -1 / 2], s := ofV ![-1 / 4, -1 / 2] } with hst1
  have hst : stepGradient O cutIn.prob = .ok { st1.stepBack cutIn.prob with
      qpval := quadraticForm cutIn.prob.shess cutIn.prob.sg (vadd (st1.stepBack cutIn.prob).ss (st1.stepBack cutIn.prob).ss0) } := by
    have : (Step.init cutIn.prob .g [normalize cutIn.prob.sg]).computeStep O.sub cutIn.prob = .ok st1 := by
      simp only [Step.computeStep, Step.init, hst1]
      rw [cutIn_shess, cutIn_sg, vzero_ofV, show cutIn.prob.delta = fin 10 from rfl, h1, h2,
        show cutIn.prob.scaling = ofV ![1 / 2, 1] from rfl, sdot2]
      norm_num
    rw [stepGradient, Step.calculate, this]
  obtain ⟨_, _, _, ha⟩ := stepBack2 cutIn.prob st1 (-1 / 4) (-1) 0 0 (-1 / 4) (-1 / 2) (19 / 20) rfl rfl rfl
    (by show ofV 0 = _; rw [zero2]) rfl (by norm_num) (by norm_num)
  norm_num at ha
  refine ⟨_, hst, ?_⟩
  show quadraticForm _ _ (vadd (fun i => ofV ![-1 / 2, -1 / 2] i * (st1.stepBack cutIn.prob).alpha) vzero) = _
  rw [ha, fsmul2, vzero_ofV, vadd_ofV, add_zero, cutIn_shess, cutIn_sg, quadraticForm_ofV, quad, rmv2, rd2, rd2]
  norm_num

theorem cutIn_reflected (O : Oracles Num) (tr : Step Num 2) (hm : tr.minbr = fin (1 / 2)) (hi0 : tr.iminbr 0 = true) (hi1 : tr.iminbr 1 = false)
    (hog : tr.ogS = ofV ![-1 / 2, -1 / 3]) (hogs : tr.ogSs = ofV ![-4 / 5, 4 / 15]) (h0 : tr.s0 = ofV 0) (hss0 : tr.ss0 = ofV ![-1 / 5, -3 / 5]) :
    ∃ st, stepReflected O cutIn.prob tr = .ok st ∧ st.qpval = fin (-14 / 25) ∧ st.s = ofV ![0, 0] ∧ st.s0 = ofV ![-1 / 4, -1 / 6] := by
  have ha : pyMin (tr.minbr) (Fides.lit 1) = fin (1 / 2) := by
    rw [hm, pyMin, if_neg]
    simp only [lit_def, fin_lt, decide_eq_true_eq, not_lt]; norm_num
  have hns : (fun i => if tr.iminbr i = true then tr.ogSs i * Fides.lit (-1) else tr.ogSs i) = ofV ![4 / 5, 4 / 15] := by
    funext i
    fin_cases i
    · simp only [Fin.zero_eta, hi0, if_true, hogs, ofV_apply, lit_def, fin_mul, fin_inj]; norm_num
    · simp [hi1, hogs]
  have hs0 : vadd (vsmul (fin (1 / 2)) tr.ogS) tr.s0 = ofV ![-1 / 4, -1 / 6] := by
    rw [hog, h0, vsmul_ofV, vadd_ofV, add_zero, smul2]; norm_num
  have hss : vadd (vsmul (fin (1 / 2)) tr.ogSs) tr.ss0 = ofV ![-3 / 5, -7 / 15] := by
    rw [hogs, hss0, vsmul_ofV, vadd_ofV, smul2, add2]; norm_num
  have hinit : reflectInit cutIn.prob tr = { Step.init cutIn.prob .trr [normalize (ofV ![4 / 5, 4 / 15])] with
      s0 := ofV ![-1 / 4, -1 / 6], ss0 := ofV ![-3 / 5, -7 / 15], x := ofV ![-1 / 4, -1 / 6], reflIdx := tr.iminbr } := by
    simp only [reflectInit, ha, hns, hs0, hss]
    congr 1
    show vadd (ofV 0) (ofV ![-1 / 4, -1 / 6]) = _
    rw [vadd_ofV, zero_add]
  have hu : (![4 / 5, 4 / 15] : Fin 2 → ℝ) ≠ 0 := by intro h; have := congrFun h 0; norm_num at this
  have eB : rdot (rmv ![![1, 0], ![0, 3]] ![4 / 5, 4 / 15]) (![4 / 5, 4 / 15] : Fin 2 → ℝ) = 64 / 75 := by rw [rmv2, rd2]; norm_num
  have eg : rdot (![4 / 5, 4 / 15] : Fin 2 → ℝ) (rmv ![![1, 0], ![0, 3]] ![-3 / 5, -7 / 15] + ![1, 1]) = 16 / 75 := by rw [rmv2, add2, rd2]; norm_num
  obtain ⟨t, h1, h2⟩ := solve1d_normalized ![![1, 0], ![0, 3]] ![1, 1] ![4 / 5, 4 / 15] ![-3 / 5, -7 / 15] 10 (by norm_num) hu (by rw [eB]; norm_num)
    (by rw [eB, eg, smul2, add2, rnorm2, Real.sqrt_le_left (by norm_num)]; norm_num)
  rw [eB, eg, smul2] at h2
  set st1 : Step Num 2 := { Step.init cutIn.prob .trr [normalize (ofV ![4 / 5, 4 / 15])] with
    s0 := ofV ![-1 / 4, -1 / 6], ss0 := ofV ![-3 / 5, -7 / 15], x := ofV ![-1 / 4, -1 / 6], reflIdx := tr.iminbr,
    sc := [fin t], ss := ofV ![-1 / 5, -1 / 15], s := ofV ![-1 / 10, -1 / 15] } with hst1
  have hst : stepReflected O cutIn.prob tr = .ok { st1.stepBack cutIn.prob with
      qpval := quadraticForm cutIn.prob.shess cutIn.prob.sg (vadd (st1.stepBack cutIn.prob).ss (st1.stepBack cutIn.prob).ss0) } := by
    have : (reflectInit cutIn.prob tr).computeStep O.sub cutIn.prob = .ok st1 := by
      rw [hinit]
      simp only [Step.computeStep, Step.init, hst1]
      rw [cutIn_shess, cutIn_sg, show cutIn.prob.delta = fin 10 from rfl, h1, h2,
        show cutIn.prob.scaling = ofV ![1 / 2, 1] from rfl, sdot2]
      norm_num
    rw [stepReflected, Step.calculate, this]
  obtain ⟨_, _, _, hal⟩ := stepBack2 cutIn.prob st1 (-1 / 4) (-1) (-1 / 4) (-1 / 6) (-1 / 10) (-1 / 15) (19 / 20) rfl rfl rfl rfl rfl
    (by norm_num) (by norm_num)
  norm_num at hal
  refine ⟨_, hst, ?_, ?_, rfl⟩
  · show quadraticForm _ _ (vadd (fun i => ofV ![-1 / 5, -1 / 15] i * (st1.stepBack cutIn.prob).alpha) (ofV ![-3 / 5, -7 / 15])) = _
    rw [hal, fsmul2, vadd_ofV, add2, cutIn_shess, cutIn_sg, quadraticForm_ofV, quad, rmv2, rd2, rd2]
    norm_num
  · show (fun i => ofV ![-1 / 10, -1 / 15] i * (st1.stepBack cutIn.prob).alpha) = _
    rw [hal, fsmul2]; norm_num

/-- the whole proposal computation for this problem -/
theorem cutIn_tr (O : Oracles Num) : ∃ tr st, trStep O 2 cutIn.prob .steihaug = .ok tr ∧ tr.alpha = fin (19 / 40) ∧
    trustRegion O 2 .steihaug .singleReflect cutIn = .ok st ∧ st.qpval = fin (-14 / 25) ∧ st.s = ofV ![0, 0] ∧ st.s0 = ofV ![-1 / 4, -1 / 6] := by
  obtain ⟨tr, h1, ha, hq, hm, hi0, hi1, hog, hogs, h0, hss0⟩ := cutIn_base
  obtain ⟨gs, h2, hgq⟩ := cutIn_gradient O
  obtain ⟨rf, h3, hrq, hr1, hr2⟩ := cutIn_reflected O tr hm hi0 hi1 hog hogs h0 hss0
  refine ⟨tr, rf, h1, ha, ?_, hrq, hr1, hr2⟩
  have hcut : (lt tr.alpha (Fides.lit 1) && decide (1 < 2)) = true := by
    rw [ha, lit_def, fin_lt]; norm_num
  rw [trustRegion, candidates, trStep, h1]
  simp only [hcut, if_true, h2, stepbackCandidates, h3]
  have e1 : lt gs.qpval tr.qpval = false := by rw [hgq, hq, fin_lt]; norm_num
  have e2 : lt rf.qpval tr.qpval = true := by rw [hrq, hq, fin_lt]; norm_num
  have n1 : isNaN tr.qpval = false := by rw [hq]; exact fin_isNaN _
  have n2 : isNaN gs.qpval = false := by rw [hgq]; exact fin_isNaN _
  have n3 : isNaN rf.qpval = false := by rw [hrq]; exact fin_isNaN _
  simp [argminGo, n1, n2, n3, e1, e2]

/-- **C25 is false for the Steihaug solver after step-back**: on this problem (minimum of a smooth function near two lower bounds) the
proposal is the displacement `(-1/4, -1/6)`, where the scaled quadratic model has the value `-1/2`, but the predicted value used for the acceptance
test is `-14/25`. -/
theorem C25_steihaug_counterexample (O : Oracles Num) :
    ∃ (I : TRIn Num 2) (d g dv p : Fin 2 → ℝ) (H : Fin 2 → Fin 2 → ℝ) (st : Step Num 2), RealData I 0 d g dv H 10 (19 / 20) ∧ Inside I.lb I.ub 0 ∧
      trustRegion O 2 .steihaug .singleReflect I = .ok st ∧ vadd st.s st.s0 = ofV (fun i => d i * p i) ∧ (∀ i, d i ≠ 0) ∧
      quad H g (fun i => d i * p i) + (∑ i, |g i| * dv i * (p i * p i)) / 2 = -1 / 2 ∧ st.qpval = fin (-14 / 25) := by
  obtain ⟨tr, st, _, _, h3, h4, h5, h6⟩ := cutIn_tr O
  have hd : (fun i => (![1 / 2, 1] : Fin 2 → ℝ) i * (![-1 / 2, -1 / 6] : Fin 2 → ℝ) i) = ![-1 / 4, -1 / 6] := by
    funext i; fin_cases i <;> simp <;> norm_num
  refine ⟨cutIn, ![1 / 2, 1], ![2, 1], ![1, 1], ![-1 / 2, -1 / 6], ![![-4, 0], ![0, 2]], st, cutIn_real, cutIn_inside, h3, ?_, ?_, ?_, h4⟩
  · rw [h5, h6, vadd_ofV, add2, hd]; norm_num
  · intro i; fin_cases i <;> norm_num
  · rw [hd, quad, rmv2, rd2, rd2, Fin.sum_univ_two]
    simp only [Matrix.cons_val_zero, Matrix.cons_val_one]
    norm_num

/-- the hypotheses of C50 (both forms) are met -/
example (O : Oracles Num) : ∃ (tr best : Step Num 2), RealData cutIn 0 ![1 / 2, 1] ![2, 1] ![1, 1] ![![-4, 0], ![0, 2]] 10 (19 / 20) ∧
    Inside cutIn.lb cutIn.ub 0 ∧ (∃ i, (![1 / 2, 1] : Fin 2 → ℝ) i * (![2, 1] : Fin 2 → ℝ) i ≠ 0) ∧
    trStep O 2 cutIn.prob .steihaug = .ok tr ∧ lt tr.alpha (fin 1) = true ∧
    trustRegion O 2 .steihaug .singleReflect cutIn = .ok best ∧ best.qpval ≠ nan := by
  obtain ⟨tr, st, h1, h2, h3, h4, h5, h6⟩ := cutIn_tr O
  refine ⟨tr, st, cutIn_real, cutIn_inside, ⟨0, by norm_num⟩, h1, ?_, h3, ?_⟩
  · rw [h2, fin_lt]; norm_num
  · rw [h4]; simp

end Fides
