import Verif.Lemmas.ExactOracles
import Verif.Props.StepBack

/-!
# A proposal that leaves the trust region

Two variables, `x = 0`, gradient `(8, -6)`, Hessian `[[0, 12], [12, 1]]`, upper bound 1 on the second variable, radius 51/25, 2D subspace,
strategy `truncate`.
-/

set_option linter.unusedSectionVars false

namespace Fides
open Num Spec
variable {n : ℕ}

open Classical in
/-- external routines that meet every contract; for a diagonal matrix the eigenvectors are the unit vectors -/
noncomputable def tdOracles : Oracles Num where
  sub :=
    { eig := fun {k} b => if ∃ d : Fin k → ℝ, b = ofM (fun i j => if i = j then d i else 0) then .ok (fun i => b i i, meye)
        else exactOracles.sub.eig b
      newton := exactNewton
      brentq := fun _ _ _ _ => .error .runtimeError }
  lstsq _ _ := .ok (ofV 0)
  npEig _ := .ok (ofV fun i => if i.val = 0 then -9 else 16, ofV fun i => if i.val = 0 then 9 else 16,
    ofM fun i j => if i.val = 0 then (if j.val = 0 then 4 / 5 else 3 / 5) else (if j.val = 0 then -3 / 5 else 4 / 5))
  refine _ _ := .ok []

theorem td_eig (d : Fin n → ℝ) : tdOracles.sub.eig (ofM (fun i j => if i = j then d i else 0)) = .ok (ofV d, ofM idM) := by
  simp only [tdOracles]
  rw [if_pos ⟨d, rfl⟩]
  congr 2
  · funext i; simp
  · rw [meye_ofM]; rfl

theorem td_finite : FiniteOracles tdOracles where
  eig B v U h := by
    simp only [tdOracles] at h
    split at h
    · cases h
      refine ⟨⟨fun i => B i i, rfl⟩, ⟨idM, ?_⟩⟩
      rw [meye_ofM]; rfl
    · exact exact_finite.eig B v U h
  newton f x f' r h := exact_finite.newton f x f' r h
  brentq f a b m r h := by cases h
  lstsq B g v h := by cases h; exact ⟨_, rfl⟩
  npEig B re ab V h := by cases h; exact ⟨_, rfl⟩
  refine P st sc h := by cases h; exact ⟨[], rfl⟩

theorem td_exactEig : ExactEig tdOracles.sub := by
  intro k B hB v U h
  by_cases hd : ∃ d : Fin k → ℝ, ofM B = ofM (fun i j => if i = j then d i else 0)
  · obtain ⟨d, hd⟩ := hd
    rw [hd, td_eig] at h
    cases h
    refine ⟨d, idM, rfl, rfl, ?_⟩
    have : B = fun i j => if i = j then d i else 0 := by
      funext i j
      have := congrFun (congrFun hd i) j
      simpa using this
    rw [this]; exact diag_isEig d
  · simp only [tdOracles] at h
    rw [if_neg hd] at h
    exact exact_eig B hB v U h

theorem td_findsRoots : FindsRoots tdOracles.sub := exact_findsRoots

/-- the n-dimensional solver on a diagonal matrix whose first entry is the smallest and not positive, when the secular equation has a root -/
theorem td_solve (d w : Fin 2 → ℝ) (rad q : ℝ) (h0 : d 0 ≤ 0) (h1 : d 0 ≤ d 1) (hr : 0 < rad) (hq : -d 0 ≤ q)
    (hroot : rnorm (slamC q w d) = rad) (hsec : rad < rnorm (slamC (-d 0) w d)) :
    ∃ lam : ℝ, -d 0 ≤ lam ∧ rnorm (slamC lam w d) = rad ∧
      solveNd tdOracles.sub (ofM (fun i j => if i = j then d i else 0)) (ofV (-w)) (fin rad) = .ok (ofV (slamC lam w d), .indef) := by
  obtain ⟨j, hj, hmin⟩ := argminIdx_fin d (by norm_num)
  have hdj : d j = d 0 := by
    fin_cases j
    · rfl
    · exact le_antisymm (hmin 0) h1
  have hw : (fun i => -(dot (fun l => ofM (idM : Fin 2 → Fin 2 → ℝ) l i) (ofV (-w)))) = ofV w := by
    funext i
    refine (congrArg Neg.neg (dot_ofV (fun l => idM l i) _)).trans ?_
    simp only [fin_neg, ofV_apply, fin_inj, rdot, Fin.sum_univ_two, idM]
    fin_cases i <;> simp
  have hsecular : ∀ lam, -d 0 ≤ lam → secular (fin lam) (ofV w) (ofV d) (ofM idM) (fin rad) =
      if 0 < rnorm (slamC lam w d) then fin (1 / rnorm (slamC lam w d) - 1 / rad) else pinf := by
    intro lam hl
    rw [secular_fin _ _ _ _ _ j hmin hr.ne', if_neg (by rw [hdj]; exact not_lt.mpr hl), idM_rmv]
  have hex : ∃ q : ℝ, -d 0 ≤ q ∧ secular (fin q) (ofV w) (ofV d) (ofM idM) (fin rad) = fin 0 := by
    refine ⟨q, hq, ?_⟩
    rw [hsecular q hq, hroot, if_pos hr, sub_self]
  obtain ⟨lam, hn, hl, hz⟩ := td_findsRoots (fun l => secular l (ofV w) (ofV d) (ofM idM) (fin rad)) (-d 0)
    (fun l => dsecular l (ofV w) (ofV d) (ofM idM) (fin rad)) hex
  have hnorm : rnorm (slamC lam w d) = rad := by
    have hz' : secular (fin lam) (ofV w) (ofV d) (ofM idM) (fin rad) = fin 0 := hz
    rw [hsecular lam hl] at hz'
    split at hz'
    · rename_i hp
      rw [fin_inj, sub_eq_zero] at hz'
      simpa using hz'
    · cases hz'
  refine ⟨lam, hl, hnorm, ?_⟩
  rw [solveNd, if_neg (by simp [hr.ne']), td_eig]
  simp only [hj, hw]
  have hv0 : ofV d j = fin (d 0) := by rw [ofV_apply, hdj]
  have hlt : lt (Fides.lit 0 : Num) (fin (d 0)) = false := by simp [h0]
  have hs0 : lt (secular (fin (-d 0)) (ofV w) (ofV d) (ofM idM) (fin rad)) (Fides.lit 0 : Num) = true := by
    rw [hsecular _ le_rfl, if_pos (hr.trans hsec)]
    simp only [lit_def, Rat.cast_zero, fin_lt, decide_eq_true_eq, sub_neg]
    exact one_div_lt_one_div_of_lt hr hsec
  simp only [hv0, hlt, Bool.false_and, Bool.false_eq_true, if_false, fin_neg, hs0, if_true]
  have hrf : rootFind tdOracles.sub (ofV w) (ofV d) (ofM idM) (fin rad) (fin (-d 0)) = .ok (some (ofV (slamC lam w d))) := by
    simp only [rootFind, hn]
    have : le (Fides.norm (slam (fin lam) (ofV w) (ofV d) (ofM idM))) (fin rad + Fides.lit (1 / 1000000000000)) = true := by
      rw [slam_fin, idM_rmv, norm_ofV, hnorm]
      simp only [lit_def, fin_add, fin_le, decide_eq_true_eq]
      push_cast
      linarith
    rw [if_pos this, slam_fin, idM_rmv]
  rw [hrf]


/-- one step computation in two columns -/
theorem compute_two (O : SubOracles Num) (P : Prob Num n) (st : Step Num n) (a b ss0 dd sg : Fin n → ℝ) (B : Fin n → Fin n → ℝ) (delta rad : ℝ)
    (M : Fin 2 → Fin 2 → ℝ) (gg c : Fin 2 → ℝ) (ty : SubType)
    (hsub : st.subspace = [ofV a, ofV b]) (h0 : st.ss0 = ofV ss0) (hB : P.shess = ofM B) (hg : P.sg = ofV sg) (hs : P.scaling = ofV dd)
    (hd : P.delta = fin delta) (hr : Real.sqrt (max (delta * delta - rnorm ss0 * rnorm ss0) 0) = rad)
    (hM : M = fun i j => rdot (![a, b] i) (rmv B (![a, b] j))) (hgg : gg = fun i => rdot (![a, b] i) sg)
    (h : solveNd O (ofM M) (ofV gg) (fin rad) = .ok (ofV c, ty)) :
    st.computeStep O P = .ok { st with sc := [fin (c 0), fin (c 1)], ss := ofV (c 0 • a + c 1 • b), s := ofV (fun i => dd i * (c 0 * a i + c 1 * b i)) } := by
  have hrad : FloatOps.sqrt (pyMax (P.delta * P.delta - Fides.norm st.ss0 * Fides.norm st.ss0) (Fides.lit 0)) = (fin rad : Num) := by
    rw [hd, h0, norm_ofV, fin_mul, fin_mul, fin_sub, pyMax]
    simp only [lit_def, Rat.cast_zero, fin_lt, decide_eq_true_eq]
    rw [← hr]
    split
    · rename_i hlt
      rw [fin_sqrt _ le_rfl, max_eq_right hlt.le]
    · rename_i hlt
      rw [fin_sqrt _ (not_lt.mp hlt), max_eq_left (not_lt.mp hlt)]
  have hch : chess (ofM B) [ofV a, ofV b] = ofM M := by
    funext i j
    have e : ∀ i : Fin 2, [ofV a, ofV b].get i = ofV (![a, b] i) := by intro i; fin_cases i <;> rfl
    simp only [chess]
    rw [hM]
    exact (congrArg₂ (fun x y => dot x (mulVec (ofM B) y)) (e i) (e j)).trans (by rw [mulVec_ofM, dot_ofV]; rfl)
  have hcg : cg (ofV sg) [ofV a, ofV b] = ofV gg := by
    funext i
    have e : ∀ i : Fin 2, [ofV a, ofV b].get i = ofV (![a, b] i) := by intro i; fin_cases i <;> rfl
    simp only [cg]
    rw [hgg]
    exact (congrArg (fun x => dot x (ofV sg)) (e i)).trans (by rw [dot_ofV]; rfl)
  have hss : subDot [ofV a, ofV b] [fin (c 0), fin (c 1)] = ofV (c 0 • a + c 1 • b) := by
    have := subDot_comb [a, b] [c 0, c 1]
    rw [show ([a, b].map ofV) = [ofV a, ofV b] from rfl, show [c 0, c 1].map fin = [fin (c 0), fin (c 1)] from rfl] at this
    rw [this]
    congr 1
    simp [comb]
  have hofn : List.ofFn (ofV c) = [fin (c 0), fin (c 1)] := rfl
  simp only [Step.computeStep, hsub, hrad, hB, hg, hs]
  rw [hch, hcg]
  have hres : solveNd O (ofM M) (ofV gg) (fin rad) = .ok (ofV c, ty) := h
  split
  · rename_i e he
    have : (Except.error e : Except PyErr _) = .ok (ofV c, ty) := he.symm.trans hres
    cases this
  · rename_i sc ty' he
    have : (Except.ok (sc, ty') : Except PyErr _) = .ok (ofV c, ty) := he.symm.trans hres
    cases this
    rw [show List.ofFn (n := [ofV a, ofV b].length) (ofV c) = [fin (c 0), fin (c 1)] from rfl, hss, sdot_finite]
    rfl


/-- the data of the proposal computation -/
noncomputable def tdIn : TRIn Num 2 where
  x := ofV 0
  g := ofV ![8, -6]
  hess := ofM fun i j => ![![0, 12], ![12, 1]] i j
  scaling := ofV 1
  delta := fin (51 / 25)
  dv := ofV ![0, 1]
  theta := fin (24 / 25)
  lb := fun _ => ninf
  ub := ![pinf, fin 1]

theorem td_data : RealData tdIn 0 1 ![8, -6] ![0, 1] (fun i j => ![![0, 12], ![12, 1]] i j) (51 / 25) (24 / 25) :=
  ⟨rfl, rfl, rfl, rfl, rfl, rfl, rfl, fun i j => by fin_cases i <;> fin_cases j <;> rfl⟩

theorem td_box : InBox tdIn.lb tdIn.ub 0 := by
  intro i
  refine ⟨rfl, ?_⟩
  fin_cases i
  · rfl
  · show le (fin (0 : ℝ)) (fin 1) = true
    simp

/-- the scaled Hessian -/
def tdB : Fin 2 → Fin 2 → ℝ := fun i j => ![![0, 12], ![12, 7]] i j

theorem td_sg : tdIn.prob.sg = ofV ![8, -6] := by
  show sdot (ofV 1) (ofV ![8, -6]) = _
  rw [sdot_finite]
  congr 1
  funext i; simp

theorem td_shess : tdIn.prob.shess = ofM tdB := by
  have hP := RealData.prob td_data (by norm_num) (by norm_num) td_box
  rw [hP.shess]
  congr 1
  funext i j
  fin_cases i <;> fin_cases j <;> simp [tdB]
  norm_num

theorem td_u_norm : rnorm ![(4 : ℝ) / 5, -3 / 5] = 1 := by
  rw [rnorm, show rdot ![(4 : ℝ) / 5, -3 / 5] ![(4 : ℝ) / 5, -3 / 5] = 1 by simp [rdot, Fin.sum_univ_two]; norm_num, Real.sqrt_one]

theorem td_subspace : ∃ pd nw, subspace2d tdOracles tdIn.prob = .ok ([ofV ![4 / 5, -3 / 5], ofV ![-3 / 5, -4 / 5]], pd, nw) := by
  have hre : (fun i : Fin 2 => if i.val = 0 then (-9 : ℝ) else 16) = ![-9, 16] := by funext i; fin_cases i <;> simp
  have hj : argminIdx (ofV ![(-9 : ℝ), 16]) = some 0 := by
    obtain ⟨j, hj, hmin⟩ := argminIdx_fin ![(-9 : ℝ), 16] (by norm_num)
    have : j = 0 := by
      fin_cases j
      · rfl
      · exfalso
        have := hmin 0
        norm_num at this
    rw [hj, this]
  have hvm : vmin (ofV ![(-9 : ℝ), 16]) = fin (-9) := by
    rw [vmin_eq_of_min ![(-9 : ℝ), 16] 0 (by intro k; fin_cases k <;> norm_num)]; rfl
  have hmax : ∃ m : ℝ, 0 ≤ m ∧ m ≤ 16 ∧ (List.ofFn (ofV fun i : Fin 2 => if i.val = 0 then (9 : ℝ) else 16)).foldl npMax2 (Fides.lit 0 : Num) = fin m := by
    refine ⟨16, by norm_num, le_rfl, ?_⟩
    simp [npMax2]
    norm_num
  obtain ⟨m, hm0, hm1, hm⟩ := hmax
  have hpd : lt (-spacing1 * fin m) (fin (-9) : Num) = false := by
    simp only [spacing1, lit_def, fin_neg, fin_mul, fin_lt, decide_eq_false_iff_not, not_lt]
    push_cast
    nlinarith
  have hgr : sdot (ofV (1 : Fin 2 → ℝ)) (fun i => fsign (ofV ![(8 : ℝ), -6] i) + (if feq (ofV ![(8 : ℝ), -6] i) (Fides.lit 0) = true then Fides.lit 1 else Fides.lit 0)) = ofV ![1, -1] := by
    funext i
    fin_cases i <;> simp [sdot, fsign]
    norm_num
  have hn : subspace2dOrth (ofV ![(4 : ℝ) / 5, -3 / 5]) (ofV ![1, -1]) = [ofV ![4 / 5, -3 / 5], ofV ![-3 / 5, -4 / 5]] := by
    have h1 : normalize (ofV ![(4 : ℝ) / 5, -3 / 5]) = ofV ![4 / 5, -3 / 5] := by
      rw [normalize_ofV, td_u_norm, inv_one, one_smul]
    have h2 : rdot ![(4 : ℝ) / 5, -3 / 5] ![1, -1] = 7 / 5 := by simp [rdot, Fin.sum_univ_two]; norm_num
    have h3 : vsub (ofV ![(1 : ℝ), -1]) (fun i => ofV ![(4 : ℝ) / 5, -3 / 5] i * fin (7 / 5)) = ofV ![-3 / 25, -4 / 25] := by
      funext i
      fin_cases i <;> simp [vsub] <;> norm_num
    have h4 : rnorm ![(-3 : ℝ) / 25, -4 / 25] = 1 / 5 := by
      rw [rnorm, show rdot ![(-3 : ℝ) / 25, -4 / 25] ![(-3 : ℝ) / 25, -4 / 25] = 1 / 5 * (1 / 5) by simp [rdot, Fin.sum_univ_two]; norm_num,
        Real.sqrt_mul_self (by norm_num)]
    have h5 : ((1 / 5 : ℝ))⁻¹ • ![(-3 : ℝ) / 25, -4 / 25] = ![-3 / 5, -4 / 5] := by
      funext i
      fin_cases i <;> simp <;> norm_num
    simp only [subspace2dOrth, h1, dot_ofV, h2, h3, norm_ofV, normalize_ofV, h4, h5]
    rw [if_pos (by simp only [spacing1, lit_def, fin_lt, decide_eq_true_eq]; norm_num)]
  have hcol : (fun i : Fin 2 => (ofM fun i j : Fin 2 => if i.val = 0 then (if j.val = 0 then (4 : ℝ) / 5 else 3 / 5) else (if j.val = 0 then -3 / 5 else 4 / 5)) i 0) =
      ofV ![(4 : ℝ) / 5, -3 / 5] := by
    funext i; fin_cases i <;> simp
  have hsc : tdIn.prob.scaling = ofV 1 := rfl
  rw [subspace2d, td_shess, td_sg, hsc]
  simp only [tdOracles]
  simp only [hm, hre, hvm, hpd, hj, hgr, hcol, hn]
  simp


theorem td_base_nd : solveNd tdOracles.sub (ofM (fun i j => if i = j then ![(-9 : ℝ), 16] i else 0)) (ofV (-![-10, 0])) (fin (51 / 25)) =
    .ok (ofV ![-51 / 25, 0], .indef) := by
  have hn : ∀ a : ℝ, rnorm ![a, 0] = |a| := by
    intro a
    rw [rnorm, show rdot ![a, 0] ![a, 0] = a * a by simp [rdot, Fin.sum_univ_two], Real.sqrt_mul_self_eq_abs]
  have hs : ∀ lam : ℝ, lam ≠ 9 → slamC lam ![(-10 : ℝ), 0] ![-9, 16] = ![-10 / (-9 + lam), 0] := by
    intro lam hl
    funext i
    fin_cases i
    · simp only [slamC]
      rw [if_neg (by simp; intro h; apply hl; linarith)]
      simp
    · simp [slamC]
  have hs9 : slamC 9 ![(-10 : ℝ), 0] ![-9, 16] = ![-10, 0] := by
    funext i
    fin_cases i <;> simp [slamC]
  obtain ⟨lam, hl, hnl, hsol⟩ := td_solve ![(-9 : ℝ), 16] ![-10, 0] (51 / 25) (9 + 250 / 51) (by norm_num) (by norm_num) (by norm_num)
    (by norm_num) (by rw [hs _ (by norm_num), hn]; norm_num [abs_of_neg, abs_of_pos]) (by
      rw [show (-![(-9 : ℝ), 16] 0) = 9 by norm_num, hs9, hn]; norm_num [abs_of_neg, abs_of_pos])
  have hl9 : (9 : ℝ) ≤ lam := by simpa using hl
  have hne : lam ≠ 9 := by
    rintro rfl
    rw [hs9, hn] at hnl; norm_num [abs_of_neg, abs_of_pos] at hnl
  rw [hs lam hne, hn] at hnl
  have hpos : 0 < -9 + lam := by
    rcases lt_or_eq_of_le hl9 with h | h
    · linarith
    · exact absurd h.symm hne
  have : -10 / (-9 + lam) = -51 / 25 := by
    have hneg : -10 / (-9 + lam) < 0 := div_neg_of_neg_of_pos (by norm_num) hpos
    rw [abs_of_neg hneg] at hnl
    linarith
  rw [hs lam hne, this] at hsol
  exact hsol

theorem calculate_ok (O : SubOracles Num) (P : Prob Num n) (st st1 : Step Num n) (h : st.computeStep O P = .ok st1) :
    st.calculate O P = .ok { st1.stepBack P with qpval := quadraticForm P.shess P.sg (vadd (st1.stepBack P).ss (st1.stepBack P).ss0) } := by
  rw [Step.calculate, h]

theorem td_br : (fun i : Fin 2 => if lt (Fides.lit 0) (FloatOps.abs (ofV ![(-204 : ℝ) / 125, 153 / 125] i)) = true then
      npMax2 ((tdIn.prob.ub i - tdIn.prob.x i) / ofV ![(-204 : ℝ) / 125, 153 / 125] i) ((tdIn.prob.lb i - tdIn.prob.x i) / ofV ![(-204 : ℝ) / 125, 153 / 125] i)
      else FloatOps.inf) = ![pinf, fin (125 / 153)] := by
  funext i
  fin_cases i
  · have h1 : (-204 : ℝ) / 125 < 0 := by norm_num
    simp [TRIn.prob, tdIn, npMax2, pinf_div_fin, ninf_div_fin, h1]
  · have h1 : ¬ (153 : ℝ) / 125 < 0 := by norm_num
    simp [TRIn.prob, tdIn, npMax2, ninf_div_fin, h1]

/-- the step of the 2D solver: direction, then the bound on the second variable at 125/153 of it -/
theorem td_base : ∃ st, step2d tdOracles tdIn.prob = .ok st ∧ st.subspace = [ofV ![4 / 5, -3 / 5], ofV ![-3 / 5, -4 / 5]] ∧
    st.s0 = ofV 0 ∧ st.ss0 = ofV 0 ∧ st.ogS = ofV ![-204 / 125, 153 / 125] ∧ st.ogSs = ofV ![-204 / 125, 153 / 125] ∧
    st.br = ![pinf, fin (125 / 153)] ∧ (∀ i, st.iminbr i = decide (i = 1)) ∧ st.alpha = fin (40 / 51) ∧ ∃ q, st.qpval = fin q := by
  obtain ⟨pd, nw, hsub⟩ := td_subspace
  have hc := compute_two tdOracles.sub tdIn.prob ({ Step.init tdIn.prob .twoD [ofV ![4 / 5, -3 / 5], ofV ![-3 / 5, -4 / 5]] with posdef := pd, newton := nw } : Step Num 2)
    ![4 / 5, -3 / 5] ![-3 / 5, -4 / 5] 0 1 ![8, -6] tdB (51 / 25) (51 / 25) (fun i j => if i = j then ![(-9 : ℝ), 16] i else 0) (-![-10, 0]) ![-51 / 25, 0] .indef
    rfl (by show (vzero : Vec Num 2) = _; exact vzero_ofV) td_shess td_sg rfl rfl (by
      rw [rnorm_eq_zero.mpr rfl, mul_zero, sub_zero, max_eq_left (by norm_num), Real.sqrt_mul_self (by norm_num)])
    (by
      funext i j
      fin_cases i <;> fin_cases j <;> simp [rdot, rmv, Fin.sum_univ_two, tdB] <;> norm_num)
    (by
      funext i
      fin_cases i <;> simp [rdot, Fin.sum_univ_two] <;> norm_num) td_base_nd
  have hss : ((![-51 / 25, 0] : Fin 2 → ℝ) 0 • ![(4 : ℝ) / 5, -3 / 5] + (![-51 / 25, 0] : Fin 2 → ℝ) 1 • ![-3 / 5, -4 / 5]) = ![-204 / 125, 153 / 125] := by
    funext i
    fin_cases i <;> simp <;> norm_num
  have hs : (fun i => (1 : Fin 2 → ℝ) i * ((![-51 / 25, 0] : Fin 2 → ℝ) 0 * ![(4 : ℝ) / 5, -3 / 5] i + (![-51 / 25, 0] : Fin 2 → ℝ) 1 * ![-3 / 5, -4 / 5] i)) =
      ![-204 / 125, 153 / 125] := by
    funext i
    fin_cases i <;> simp <;> norm_num
  rw [hss, hs] at hc
  have hbr := td_br
  have hmin : vmin (![pinf, fin (125 / 153)] : Vec Num 2) = fin (125 / 153) := by
    simp [vmin, npMin2]
  have hal : npMin2 (Fides.lit 1) (tdIn.prob.theta * (fin (125 / 153) : Num)) = fin (40 / 51) := by
    show npMin2 (Fides.lit 1) (fin (24 / 25) * (fin (125 / 153) : Num)) = fin (40 / 51)
    rw [fin_mul, lit_def, npMin2_fin, fin_inj, min_eq_right (by norm_num)]
    norm_num
  rw [step2d, hsub]
  have hal' := (congrArg (fun b : Vec Num 2 => npMin2 (Fides.lit 1) (tdIn.prob.theta * vmin b)) hbr).trans
    ((congrArg (fun m => npMin2 (Fides.lit 1) (tdIn.prob.theta * m)) hmin).trans hal)
  refine ⟨_, calculate_ok _ _ _ _ hc, rfl, vzero_ofV, vzero_ofV, rfl, rfl, hbr, ?_, hal', ?_⟩
  · intro i
    refine (congrArg (fun b : Vec Num 2 => feq (b i) (vmin b)) hbr).trans ?_
    simp only [hmin]
    rcases Fin.exists_fin_two.mp ⟨i, rfl⟩ with rfl | rfl
    · simp; rfl
    · simp
  · refine ⟨quad tdB ![8, -6] ((40 / 51 : ℝ) • ![-204 / 125, 153 / 125]), ?_⟩
    refine (congrArg (fun a => quadraticForm tdIn.prob.shess tdIn.prob.sg (vadd (fun i => ofV ![(-204 : ℝ) / 125, 153 / 125] i * a) (vzero : Vec Num 2))) hal').trans ?_
    have : vadd (fun i => ofV ![(-204 : ℝ) / 125, 153 / 125] i * fin (40 / 51)) (vzero : Vec Num 2) = ofV ((40 / 51 : ℝ) • ![-204 / 125, 153 / 125]) := by
      funext i
      rw [vzero_ofV]
      show (fin (![(-204 : ℝ) / 125, 153 / 125] i) * fin (40 / 51) + fin 0 : Num) = fin ((40 / 51 : ℝ) * ![(-204 : ℝ) / 125, 153 / 125] i)
      rw [fin_mul, fin_add, fin_inj]; ring
    show quadraticForm _ _ (vadd (fun i => ofV ![(-204 : ℝ) / 125, 153 / 125] i * fin (40 / 51)) (vzero : Vec Num 2)) = _
    rw [this, td_shess, td_sg, quadraticForm_ofV]

theorem td_trunc_nd : ∃ k : ℝ, 0 < k ∧ 128 * (k * k) = 81 / 25 ∧
    solveNd tdOracles.sub (ofM (fun i j => if i = j then ![(0 : ℝ), 0] i else 0)) (ofV (-![-8, 8])) (fin (9 / 5)) = .ok (ofV ![-8 * k, 8 * k], .indef) := by
  have hn : ∀ k : ℝ, 0 ≤ k → rnorm ![-8 * k, 8 * k] = k * Real.sqrt 128 := by
    intro k hk
    rw [rnorm, show rdot ![-8 * k, 8 * k] ![-8 * k, 8 * k] = (k * k) * 128 by simp [rdot, Fin.sum_univ_two]; ring,
      Real.sqrt_mul (mul_self_nonneg k), Real.sqrt_mul_self hk]
  have h128 : 0 < Real.sqrt 128 := Real.sqrt_pos.mpr (by norm_num)
  have hs : ∀ lam : ℝ, lam ≠ 0 → slamC lam ![(-8 : ℝ), 8] ![0, 0] = ![-8 * lam⁻¹, 8 * lam⁻¹] := by
    intro lam hl
    funext i
    fin_cases i <;> simp [slamC, hl, div_eq_mul_inv]
  have hs0 : slamC 0 ![(-8 : ℝ), 8] ![0, 0] = ![-8 * 1, 8 * 1] := by
    funext i
    fin_cases i <;> simp [slamC]
  have h1 : (9 : ℝ) / 5 < Real.sqrt 128 := by
    apply Real.lt_sqrt_of_sq_lt; norm_num
  have hq : 0 < Real.sqrt 128 * (5 / 9) := by positivity
  obtain ⟨lam, hl, hnl, hsol⟩ := td_solve ![(0 : ℝ), 0] ![-8, 8] (9 / 5) (Real.sqrt 128 * (5 / 9)) (by norm_num) (by norm_num) (by norm_num)
    (by simpa using hq.le) (by rw [hs _ hq.ne', hn _ (inv_nonneg.mpr hq.le)]; field_simp) (by
      rw [show (-![(0 : ℝ), 0] 0) = 0 by norm_num, hs0, hn _ (by norm_num)]; linarith)
  have hl0 : (0 : ℝ) ≤ lam := by simpa using hl
  have hne : lam ≠ 0 := by
    rintro rfl
    rw [hs0, hn _ (by norm_num)] at hnl; linarith
  have hpos : 0 < lam⁻¹ := inv_pos.mpr (lt_of_le_of_ne hl0 hne.symm)
  rw [hs lam hne] at hnl hsol
  rw [hn _ hpos.le] at hnl
  refine ⟨lam⁻¹, hpos, ?_, hsol⟩
  have := congrArg (fun x => x * x) hnl
  rw [show lam⁻¹ * √128 * (lam⁻¹ * √128) = (√128 * √128) * (lam⁻¹ * lam⁻¹) by ring, Real.mul_self_sqrt (by norm_num)] at this
  rw [this]; norm_num

/-- the truncated step -/
theorem td_trunc (cur : Step Num 2) (h1 : cur.subspace = [ofV ![4 / 5, -3 / 5], ofV ![-3 / 5, -4 / 5]])
    (h2 : cur.s0 = ofV 0) (h3 : cur.ss0 = ofV 0) (h4 : cur.ogS = ofV ![-204 / 125, 153 / 125]) (h5 : cur.ogSs = ofV ![-204 / 125, 153 / 125])
    (h6 : cur.br = ![pinf, fin (125 / 153)]) (h7 : ∀ i, cur.iminbr i = decide (i = 1)) :
    ∃ (st : Step Num 2) (k : ℝ), 0 < k ∧ 128 * (k * k) = 81 / 25 ∧ stepTruncated tdOracles tdIn.prob cur = .ok st ∧ st.alpha = fin 1 ∧
      st.qpval = fin (quad tdB ![8, -6] ![-16 * k, 24 / 25]) := by
  obtain ⟨k, hk, hkk, hnd⟩ := td_trunc_nd
  have him : cur.iminbr = fun i => decide (i = 1) := funext h7
  have h0 : (truncateInit tdIn.prob cur).ss0 = ofV ![0, 24 / 25] := by
    funext i
    show (if cur.iminbr i = true then cur.ss0 i + tdIn.prob.theta * cur.br i * cur.ogSs i else cur.ss0 i) = _
    rw [h7, h3, h5, h6]
    fin_cases i
    · simp
    · show (fin (0 : ℝ) + fin (24 / 25) * fin (125 / 153) * fin (153 / 125) : Num) = fin (24 / 25)
      simp only [fin_mul, fin_add, fin_inj]; norm_num
  have h00 : (truncateInit tdIn.prob cur).s0 = ofV ![0, 24 / 25] := by
    funext i
    show (if cur.iminbr i = true then cur.s0 i + tdIn.prob.theta * cur.br i * cur.ogS i else cur.s0 i) = _
    rw [h7, h2, h4, h6]
    fin_cases i
    · simp
    · show (fin (0 : ℝ) + fin (24 / 25) * fin (125 / 153) * fin (153 / 125) : Num) = fin (24 / 25)
      simp only [fin_mul, fin_add, fin_inj]; norm_num
  have hsub : (truncateInit tdIn.prob cur).subspace = [ofV ![1, 0], ofV ![-1, 0]] := by
    show reduceSubspace cur.iminbr cur.subspace = _
    rw [h1, him]
    have := reduce_real (fun i : Fin 2 => decide (i = 1)) [![4 / 5, -3 / 5], ![-3 / 5, -4 / 5]]
    rw [show ([![(4 : ℝ) / 5, -3 / 5], ![-3 / 5, -4 / 5]].map ofV) = [ofV ![(4 : ℝ) / 5, -3 / 5], ofV ![-3 / 5, -4 / 5]] from rfl] at this
    rw [this]
    have e1 : (fun i : Fin 2 => if decide (i = 1) = true then (0 : ℝ) else ![4 / 5, -3 / 5] i) = ![4 / 5, 0] := by
      funext i; fin_cases i <;> simp
    have e2 : (fun i : Fin 2 => if decide (i = 1) = true then (0 : ℝ) else ![-3 / 5, -4 / 5] i) = ![-3 / 5, 0] := by
      funext i; fin_cases i <;> simp
    have n1 : (![(4 : ℝ) / 5, 0] : Fin 2 → ℝ) ≠ 0 := by intro h; have := congrFun h 0; norm_num at this
    have n2 : (![(-3 : ℝ) / 5, 0] : Fin 2 → ℝ) ≠ 0 := by intro h; have := congrFun h 0; norm_num at this
    have hn : ∀ a : ℝ, rnorm ![a, 0] = |a| := by
      intro a
      rw [rnorm, show rdot ![a, 0] ![a, 0] = a * a by simp [rdot, Fin.sum_univ_two], Real.sqrt_mul_self_eq_abs]
    simp only [reduceR, List.map_cons, List.map_nil, e1, e2, List.filter_cons, List.filter_nil, n1, n2, ne_eq, not_false_eq_true,
      decide_true, if_true, hn]
    congr 2
    · funext i
      fin_cases i
      · simp; norm_num [abs_of_pos]
      · simp
    · congr 1
      funext i
      fin_cases i
      · simp; norm_num [abs_of_neg, abs_of_pos]
      · simp
  have hrad : Real.sqrt (max ((51 / 25 : ℝ) * (51 / 25) - rnorm ![(0 : ℝ), 24 / 25] * rnorm ![(0 : ℝ), 24 / 25]) 0) = 9 / 5 := by
    rw [rnorm_sq, show rdot ![(0 : ℝ), 24 / 25] ![(0 : ℝ), 24 / 25] = 24 / 25 * (24 / 25) by simp [rdot, Fin.sum_univ_two],
      max_eq_left (by norm_num), show (51 / 25 : ℝ) * (51 / 25) - 24 / 25 * (24 / 25) = 9 / 5 * (9 / 5) by norm_num, Real.sqrt_mul_self (by norm_num)]
  have hc := compute_two tdOracles.sub tdIn.prob (truncateInit tdIn.prob cur)
    ![1, 0] ![-1, 0] ![0, 24 / 25] 1 ![8, -6] tdB (51 / 25) (9 / 5) (fun i j => if i = j then ![(0 : ℝ), 0] i else 0) (-![-8, 8]) ![-8 * k, 8 * k] .indef
    hsub h0 td_shess td_sg rfl rfl hrad
    (by
      funext i j
      fin_cases i <;> fin_cases j <;> simp [rdot, rmv, Fin.sum_univ_two, tdB])
    (by
      funext i
      fin_cases i <;> simp [rdot, Fin.sum_univ_two]) hnd
  have hss : ((![-8 * k, 8 * k] : Fin 2 → ℝ) 0 • ![(1 : ℝ), 0] + (![-8 * k, 8 * k] : Fin 2 → ℝ) 1 • ![-1, 0]) = ![-16 * k, 0] := by
    funext i
    fin_cases i <;> simp; ring
  have hs : (fun i => (1 : Fin 2 → ℝ) i * ((![-8 * k, 8 * k] : Fin 2 → ℝ) 0 * ![(1 : ℝ), 0] i + (![-8 * k, 8 * k] : Fin 2 → ℝ) 1 * ![-1, 0] i)) =
      ![-16 * k, 0] := by
    funext i
    fin_cases i <;> simp; ring
  rw [hss, hs] at hc
  have hx : (truncateInit tdIn.prob cur).x = ofV ![0, 24 / 25] := by
    show vadd (ofV 0) (truncateInit tdIn.prob cur).s0 = _
    rw [h00, vadd_ofV, zero_add]
  have hbr : (fun i : Fin 2 => if lt (Fides.lit 0) (FloatOps.abs (ofV ![-16 * k, 0] i)) = true then
      npMax2 ((tdIn.prob.ub i - (truncateInit tdIn.prob cur).x i) / ofV ![-16 * k, 0] i) ((tdIn.prob.lb i - (truncateInit tdIn.prob cur).x i) / ofV ![-16 * k, 0] i)
      else FloatOps.inf) = fun _ => pinf := by
    rw [hx]
    funext i
    fin_cases i
    · have h1 : ¬ 0 < -(16 * k) := by linarith
      have h3 : k ≠ 0 := hk.ne'
      simp [TRIn.prob, tdIn, npMax2, pinf_div_fin, ninf_div_fin, hk, h3]
    · simp
  have hal : npMin2 (Fides.lit 1) (tdIn.prob.theta * vmin (fun _ : Fin 2 => (pinf : Num))) = fin 1 := by
    have hv : vmin (fun _ : Fin 2 => (pinf : Num)) = pinf := by simp [vmin, npMin2]
    rw [hv]
    show npMin2 (Fides.lit 1) (fin (24 / 25) * (pinf : Num)) = _
    simp [fin_mul_pinf, infSign_pos, npMin2]
  have hal' := (congrArg (fun b : Vec Num 2 => npMin2 (Fides.lit 1) (tdIn.prob.theta * vmin b)) hbr).trans hal
  refine ⟨_, k, hk, hkk, calculate_ok _ _ _ _ hc, hal', ?_⟩
  show quadraticForm tdIn.prob.shess tdIn.prob.sg (vadd (fun i => ofV ![-16 * k, 0] i * npMin2 (Fides.lit 1) (tdIn.prob.theta * vmin (fun i : Fin 2 =>
    if lt (Fides.lit 0) (FloatOps.abs (ofV ![-16 * k, 0] i)) = true then
      npMax2 ((tdIn.prob.ub i - (truncateInit tdIn.prob cur).x i) / ofV ![-16 * k, 0] i) ((tdIn.prob.lb i - (truncateInit tdIn.prob cur).x i) / ofV ![-16 * k, 0] i)
      else FloatOps.inf))) (truncateInit tdIn.prob cur).ss0) = _
  rw [hbr, hal, h0, td_shess, td_sg]
  have : vadd (fun i => ofV ![-16 * k, 0] i * fin 1) (ofV ![0, 24 / 25]) = ofV ![-16 * k, 24 / 25] := by
    funext i
    fin_cases i <;> simp [vadd]
  rw [this, quadraticForm_ofV]

end Fides
