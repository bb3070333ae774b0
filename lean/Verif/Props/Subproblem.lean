import Verif.Lemmas.Subproblem
import Mathlib.Topology.Order.IntermediateValue
import Mathlib.Topology.Algebra.Order.Field
import Mathlib.Topology.Instances.Real.Lemmas

/-!
# C20-C22: the trust-region subproblem solvers
-/

namespace Fides
open Num Spec
variable {n : ℕ}

/-! ## C20 -/

/-- C20: with `‖s0‖ ≤ delta`, the 1-D solver returns a step length inside the trust region that minimises the model over
all step lengths inside it.  The only excluded case (last hypothesis) is a start on the sphere with a search
direction orthogonal to it, see `C20_nan`. -/
theorem C20_solve1d {B : Fin n → Fin n → ℝ} (hB : Sym B) (g s s0 : Fin n → ℝ) (delta : ℝ) (hd : 0 ≤ delta)
    (h0 : rnorm s0 ≤ delta) (hex : rnorm s0 < delta ∨ rdot s0 s ≠ 0 ∨ s = 0 ∨ delta = 0) :
    ∃ t : ℝ, solve1d (ofM B) (ofV g) (ofV s) (fin delta) (ofV s0) = fin t ∧ rnorm (s0 + t • s) ≤ delta ∧
      ∀ t' : ℝ, rnorm (s0 + t' • s) ≤ delta → quad B g (s0 + t • s) ≤ quad B g (s0 + t' • s) := by
  by_cases hd0 : delta = 0
  · subst hd0
    have hs0 : s0 = 0 := rnorm_eq_zero.mp (le_antisymm h0 (rnorm_nonneg _))
    subst hs0
    refine ⟨0, ?_, ?_, ?_⟩
    · simp [solve1d]
    · simpa using h0
    · intro t' ht'
      have : (0 : Fin n → ℝ) + t' • s = 0 := rnorm_eq_zero.mp (le_antisymm ht' (rnorm_nonneg _))
      rw [this]; simp
  by_cases hs : s = 0
  · subst hs
    refine ⟨0, ?_, ?_, ?_⟩
    · simp [solve1d, hd0]
    · simpa using h0
    · intro t' _; simp
  have hnz : ¬ (∀ i, feq (ofV s i) (Fides.lit 0 : Num) = true) := by
    intro h; apply hs; funext i; simpa using h i
  have h00 : rdot s0 s0 ≤ delta * delta := (rnorm_le_iff hd).mp h0
  have hex' : rdot s0 s0 < delta * delta ∨ rdot s0 s ≠ 0 := by
    rcases hex with h | h | h | h
    · left
      rw [← rnorm_sq]; exact mul_self_lt_mul_self (rnorm_nonneg _) h
    · exact Or.inr h
    · exact absurd h hs
    · exact absurd h hd0
  obtain ⟨t1, t2, t, ht, hpoly, hsel, hq1, hq2⟩ := boundarySolution1d_fin (B := B) g s s0 delta hs h00 hex'
  have hA := rdot_self_pos hs
  have feas : ∀ t', rnorm (s0 + t' • s) ≤ delta ↔ (t' - t1) * (t' - t2) ≤ 0 := by
    intro t'
    rw [rnorm_le_iff hd, ← sub_nonpos, hpoly t']
    constructor
    · intro h; by_contra hc; push Not at hc; have := mul_pos hA hc; linarith
    · intro h; exact mul_nonpos_of_nonneg_of_nonpos hA.le h
  set a := rdot (rmv B s) s / 2 with ha
  set b := rdot s (rmv B s0 + g) with hb
  have hline : ∀ t', quad B g (s0 + t' • s) = quad B g s0 + t' * b + t' * t' * a := fun t' => quad_line hB g s s0 t'
  have hval : solve1d (ofM B) (ofV g) (ofV s) (fin delta) (ofV s0) =
      if 0 < a ∧ rnorm (s0 + (-b / (2 * a)) • s) ≤ delta then fin (-b / (2 * a)) else fin t := by
    rw [solve1d]
    simp only [ht, mulVec_ofM, vadd_ofV, dot_ofV, lit_def, fin_mul, fin_feq, Rat.cast_zero, hd0, decide_false,
      Bool.false_eq_true, if_false]
    rw [if_neg (by simpa using hnz)]
    have e1 : ((1 / 2 : ℚ) : ℝ) * rdot (rmv B s) s = a := by rw [ha]; push_cast; ring
    have e2 : ((2 : ℚ) : ℝ) = 2 := by norm_num
    rw [e1, e2, ← hb, Rat.cast_one]
    by_cases hap : 0 < a
    · rw [fin_neg, fin_div _ _ (by positivity), vsmul_ofV, vadd_ofV, norm_ofV, add_comm _ s0]
      simp only [fin_lt, fin_le, hap, decide_true, Bool.true_and, true_and, decide_eq_true_eq]
      by_cases hm : rnorm (s0 + (-b / (2 * a)) • s) ≤ delta
      · simp [hm]
      · simp [hm]
    · simp [hap]
  by_cases hc : 0 < a ∧ rnorm (s0 + (-b / (2 * a)) • s) ≤ delta
  · refine ⟨-b / (2 * a), by rw [hval, if_pos hc], hc.2, fun t' _ => ?_⟩
    rw [hline, hline]
    have ha0 := hc.1
    have : quad B g s0 + t' * b + t' * t' * a - (quad B g s0 + -b / (2 * a) * b + -b / (2 * a) * (-b / (2 * a)) * a) =
        a * ((t' + b / (2 * a)) * (t' + b / (2 * a))) := by field_simp; ring
    have h2 : 0 ≤ a * ((t' + b / (2 * a)) * (t' + b / (2 * a))) := mul_nonneg ha0.le (mul_self_nonneg _)
    linarith
  · refine ⟨t, by rw [hval, if_neg hc], ?_, fun t' ht' => ?_⟩
    · rw [feas]
      rcases hsel with rfl | rfl <;> simp
    · rw [feas] at ht'
      have hcase : a ≤ 0 ∨ (0 < a ∧ (-b / (2 * a) < min t1 t2 ∨ max t1 t2 < -b / (2 * a))) := by
        rcases le_or_gt a 0 with h | h
        · exact Or.inl h
        · right
          refine ⟨h, ?_⟩
          have hnot : ¬ (-b / (2 * a) - t1) * (-b / (2 * a) - t2) ≤ 0 := fun hh => hc ⟨h, (feas _).mpr hh⟩
          push Not at hnot
          rcases mul_pos_iff.mp hnot with ⟨p, q⟩ | ⟨p, q⟩
          · right; exact max_lt (by linarith) (by linarith)
          · left; exact lt_min (by linarith) (by linarith)
      have hlu : min t1 t2 ≤ t' ∧ t' ≤ max t1 t2 := by
        rcases mul_nonpos_iff.mp ht' with ⟨p, q⟩ | ⟨p, q⟩
        · exact ⟨(min_le_left _ _).trans (by linarith), le_trans (by linarith) (le_max_right _ _)⟩
        · exact ⟨(min_le_right _ _).trans (by linarith), le_trans (by linarith) (le_max_left _ _)⟩
      have hq : ∀ u, (u = min t1 t2 ∨ u = max t1 t2) → quad B g (s0 + t • s) ≤ quad B g (s0 + u • s) := by
        intro u hu
        rcases hu with rfl | rfl
        · rcases min_choice t1 t2 with h | h <;> rw [h] <;> assumption
        · rcases max_choice t1 t2 with h | h <;> rw [h] <;> assumption
      rcases parabola_endpoint a b _ _ t' hlu.1 hlu.2 hcase with h | h
      · refine (hq _ (Or.inl rfl)).trans ?_
        rw [hline, hline]; nlinarith
      · refine (hq _ (Or.inr rfl)).trans ?_
        rw [hline, hline]; nlinarith

/-- the hypotheses of `C20_solve1d` are met by an interior start with a nonzero direction, e.g. in the plane -/
example : ∃ (B : Fin 2 → Fin 2 → ℝ) (s s0 : Fin 2 → ℝ), Sym B ∧ rnorm s0 ≤ 2 ∧ rnorm s0 < 2 ∧ s ≠ 0 ∧ s0 ≠ 0 := by
  refine ⟨fun i j => if i = j then -1 else 3, ![1, 1], ![1, 0], ?_, ?_, ?_, ?_, ?_⟩
  · intro i j; fin_cases i <;> fin_cases j <;> simp
  · simp [rnorm, rdot, Fin.sum_univ_two]
  · simp [rnorm, rdot, Fin.sum_univ_two]
  · intro h; have := congrFun h 0; simp at this
  · intro h; have := congrFun h 0; simp at this

/-- C20, the excluded case: from a point on the sphere, along an orthogonal direction, the solver returns NaN. -/
theorem C20_nan : ∃ (B : Fin 2 → Fin 2 → ℝ) (g s s0 : Fin 2 → ℝ), Sym B ∧ s ≠ 0 ∧ rnorm s0 = 1 ∧
    solve1d (ofM B) (ofV g) (ofV s) (fin 1) (ofV s0) = nan := by
  refine ⟨0, ![0, 1], ![0, 1], ![1, 0], fun i j => rfl, ?_, ?_, ?_⟩
  · intro h; have := congrFun h 1; simp at this
  · simp [rnorm, rdot, Fin.sum_univ_two]
  · have hnz : ¬ (∀ i, feq (ofV ![(0 : ℝ), 1] i) (Fides.lit 0 : Num) = true) := by
      intro h; have := h 1; simp at this
    have e1 : rdot ![(0 : ℝ), 1] ![(0 : ℝ), 1] = 1 := by simp [rdot, Fin.sum_univ_two]
    have e2 : rdot ![(1 : ℝ), 0] ![(1 : ℝ), 0] = 1 := by simp [rdot, Fin.sum_univ_two]
    have e3 : rdot ![(1 : ℝ), 0] ![(0 : ℝ), 1] = 0 := by simp [rdot, Fin.sum_univ_two]
    have e4 : rmv (0 : Fin 2 → Fin 2 → ℝ) ![(0 : ℝ), 1] = 0 := by funext i; simp [rmv, rdot]
    have hb : boundarySolution1d (ofM 0) (ofV ![(0 : ℝ), 1]) (ofV ![(0 : ℝ), 1]) (ofV ![(1 : ℝ), 0]) (fin 1) = nan := by
      simp only [boundarySolution1d, dot_ofV, e1, e2, e3, lit_def, fin_mul, fin_sub]
      norm_num
      rw [fin_copysign]
      simp only [lt_irrefl, if_false, abs_zero, fin_add, add_zero, fin_neg, neg_zero]
      have z : (fin 0 / fin 0 : Num) = nan := by simp [fin_div_def]
      have z2 : (fin 0 / fin 2 : Num) = fin 0 := by simp
      rw [z, z2, argminGo]
      have k1 : quadraticForm (ofM 0) (ofV ![(0 : ℝ), 1]) (vadd (ofV ![(1 : ℝ), 0]) (vsmul (fin 0) (ofV ![(0 : ℝ), 1]))) =
          fin 0 := by
        rw [vsmul_ofV, vadd_ofV, quadraticForm_ofV]
        simp [quad, rmv, rdot, Fin.sum_univ_two]
      have k2 : isNaN (quadraticForm (ofM 0) (ofV ![(0 : ℝ), 1])
          (vadd (ofV ![(1 : ℝ), 0]) (vsmul nan (ofV ![(0 : ℝ), 1])))) = true := by
        have : vadd (ofV ![(1 : ℝ), 0]) (vsmul nan (ofV ![(0 : ℝ), 1])) = fun _ => nan := by
          funext i; simp [vadd, vsmul]
        rw [this]
        simp [quadraticForm, dot, List.ofFn_succ, sum_cons, vecMul]
      simp only [k1, k2, fin_isNaN, Bool.false_eq_true, if_false, Bool.true_or, if_true]
      rfl
    rw [solve1d, if_neg (by simp), if_neg (by simp)]
    simp only [hb, mulVec_ofM, e4, dot_ofV, zero_rdot]
    simp

/-! ## C21 -/

/-- C21 (posdef and indef): whatever the eigen- and root-finding routines return, a step labelled `posdef` or `indef`
has norm at most `delta + 2^-26`. -/
theorem C21_radius (O : SubOracles Num) (b : Mat Num n n) (g : Vec Num n) (delta : ℝ) (s : Vec Num n) (ty : SubType)
    (h : solveNd O b g (fin delta) = .ok (s, ty)) (hty : ty = .posdef ∨ ty = .indef) :
    le (norm s) (fin (delta + 1 / 67108864)) = true := by
  unfold solveNd at h
  split at h
  · cases h; rcases hty with h | h <;> cases h
  split at h
  · cases h
  split at h
  · cases h
  simp only [sqrt_spacing1, fin_add] at h
  split at h
  · cases h
    rename_i hle
    simp only [Bool.and_eq_true] at hle
    exact hle.2
  · split at h
    · cases h
    · rename_i s' hf
      cases h
      generalize (if lt (Fides.lit 0 : Num) _ = true then (Fides.lit 0 : Num) else _) = li at hf
      split at hf
      · obtain ⟨_, _, h, _⟩ := rootFind_some _ _ _ _ _ _ _ hf
        exact h
      · cases hf
    · cases h; rcases hty with h | h <;> cases h

/-- orthonormal columns, the hard-case step: its norm is the larger of the radius and the norm of its first part -/
theorem hardCase_fin (w vals : Fin n → ℝ) (U : Fin n → Fin n → ℝ) (j : Fin n) (delta : ℝ) (hU : OrthoCols U) :
    ∃ (c : Fin n → ℝ) (sg : ℝ), hardCase (ofV w) (ofV vals) (ofM U) j (fin delta) = ofV (rmv U c + sg • fun i => U i j) ∧
      c = slamC (-(vals j)) (fun i => if vals i = vals j then 0 else w i) vals ∧
      sg = Real.sqrt (max (delta * delta - rdot c c) 0) ∧
      rdot (rmv U c + sg • fun i => U i j) (rmv U c + sg • fun i => U i j) = max (delta * delta) (rdot c c) := by
  refine ⟨_, _, ?_, rfl, rfl, ?_⟩
  · have hw : (fun i => if feq (ofV vals i - ofV vals j) (Fides.lit 0 : Num) = true then (Fides.lit 0 : Num) else ofV w i) =
        ofV (fun i => if vals i = vals j then 0 else w i) := by
      funext i
      simp only [ofV_apply, fin_sub, lit_def, Rat.cast_zero, fin_feq, decide_eq_true_eq, sub_eq_zero]
      by_cases h : vals i = vals j <;> simp [h]
    simp only [hardCase, hw]
    simp only [ofV_apply, fin_neg, slam_fin, norm_ofV, fin_mul, fin_sub, rnorm_sq, ortho_rdot hU]
    have hm : pyMax (fin (delta * delta - rdot (slamC (-(vals j)) (fun i => if vals i = vals j then 0 else w i) vals)
        (slamC (-(vals j)) (fun i => if vals i = vals j then 0 else w i) vals))) (Fides.lit 0 : Num) =
        fin (max (delta * delta - rdot (slamC (-(vals j)) (fun i => if vals i = vals j then 0 else w i) vals)
        (slamC (-(vals j)) (fun i => if vals i = vals j then 0 else w i) vals)) 0) := by
      simp only [pyMax, lit_def, Rat.cast_zero, fin_lt, decide_eq_true_eq]
      split
      · rename_i h; rw [max_eq_right h.le]
      · rename_i h; rw [max_eq_left (not_lt.mp h)]
    rw [hm, fin_sqrt _ (le_max_right _ _)]
    rfl
  · set c := slamC (-(vals j)) (fun i => if vals i = vals j then 0 else w i) vals with hc
    set sg := Real.sqrt (max (delta * delta - rdot c c) 0) with hsg
    have h1 : rdot (fun i => U i j) (rmv U c) = 0 := by
      rw [ortho_coeff hU, hc]; simp [slamC]
    have h2 : rdot (fun i => U i j) (fun i => U i j) = 1 := by simpa using hU j j
    have h3 : sg * sg = max (delta * delta - rdot c c) 0 := Real.mul_self_sqrt (le_max_right _ _)
    rw [rnorm_line, h2, rdot_comm, h1, ortho_rdot hU, h3]
    rcases le_total (delta * delta) (rdot c c) with h | h
    · rw [max_eq_right h, max_eq_right (by linarith)]; ring
    · rw [max_eq_left h, max_eq_left (by linarith)]; ring

/-- dropping coefficients shortens -/
theorem slamC_drop_le (lam : ℝ) (w vals : Fin n → ℝ) (P : Fin n → Prop) [DecidablePred P] :
    rdot (slamC lam (fun i => if P i then 0 else w i) vals) (slamC lam (fun i => if P i then 0 else w i) vals) ≤
      rdot (slamC lam w vals) (slamC lam w vals) := by
  refine Finset.sum_le_sum fun i _ => ?_
  by_cases h : P i
  · simp only [slamC, h, if_true]
    by_cases h2 : vals i + lam = 0
    · simp only [h2, if_true]; simpa using mul_self_nonneg (w i)
    · simp only [h2, if_false]; simpa using mul_self_nonneg (w i / (vals i + lam))
  · simp [slamC, h]

/-- C21 (hard case): with an orthonormal eigenbasis, if the root search was not entered (the secular test at the starting
multiplier was not negative), the returned step has norm at most `delta`. -/
theorem C21_radius_hard (O : SubOracles Num) (b : Mat Num n n) (g : Fin n → ℝ) (delta : ℝ) (hd : 0 < delta)
    (vals : Fin n → ℝ) (U : Fin n → Fin n → ℝ) (he : O.eig b = .ok (ofV vals, ofM U)) (hU : OrthoCols U)
    (s : Vec Num n) (h : solveNd O b (ofV g) (fin delta) = .ok (s, .hard))
    (hsec : ∀ j, argminIdx (ofV vals) = some j → ¬ 0 < vals j ∧
      lt (secular (fin (-(vals j))) (fun i => -(dot (fun l => ofM U l i) (ofV g))) (ofV vals) (ofM U) (fin delta)) (fin 0) = false) :
    ∃ r : Fin n → ℝ, s = ofV r ∧ rnorm r = delta := by
  rcases Nat.eq_zero_or_pos n with rfl | hn
  · exfalso
    rw [solveNd, if_neg (by simpa using hd.ne'), he] at h
    simp [argminIdx] at h
  obtain ⟨j, hj, hmin⟩ := argminIdx_fin vals hn
  obtain ⟨hneg, hs⟩ := hsec j hj
  rcases solveNd_cases O b (ofV g) delta hd.ne' _ _ he j hj s .hard h with ⟨h, _⟩ | ⟨h, _⟩ | ⟨_, hS, _⟩
  · cases h
  · cases h
  have hw : (fun i => -(dot (fun l => ofM U l i) (ofV g))) = ofV (fun i => -rdot (fun l => U l i) g) := by
    funext i
    exact congrArg Neg.neg (dot_ofV (fun l => U l i) g)
  rw [hw] at hS hs
  obtain ⟨c, sg, e1, e2, e3, e4⟩ := hardCase_fin (fun i => -rdot (fun l => U l i) g) vals U j delta hU
  refine ⟨_, hS.trans e1, ?_⟩
  rw [rnorm, e4]
  have hle : rdot c c ≤ delta * delta := by
    rw [e2]
    refine (slamC_drop_le _ _ _ _).trans ?_
    rw [secular_fin _ _ _ _ _ j hmin hd.ne'] at hs
    simp only [lt_irrefl, if_false] at hs
    set v := rmv U (slamC (-(vals j)) (fun i => -rdot (fun l => U l i) g) vals) with hv
    rw [← ortho_rdot hU, ← hv]
    by_cases hpos : 0 < rnorm v
    · rw [if_pos hpos] at hs
      simp only [fin_lt, decide_eq_false_iff_not, not_lt] at hs
      have : rnorm v ≤ delta := by
        have h1 : 1 / delta ≤ 1 / rnorm v := by linarith
        exact (one_div_le_one_div hd hpos).mp h1
      exact (rnorm_le_iff hd.le).mp this
    · have : rnorm v = 0 := le_antisymm (not_lt.mp hpos) (rnorm_nonneg _)
      rw [← rnorm_sq, this]; nlinarith
  rw [max_eq_left hle, Real.sqrt_mul_self hd.le]

/-- an oracle for diagonal matrices (unit vectors as eigenvectors) with given root finders -/
noncomputable def diagOracle (nt : (Num → Num) → Num → (Num → Num) → Except PyErr Num)
    (br : (Num → Num) → Num → Num → Nat → Except PyErr Num) : SubOracles Num where
  eig := fun b => .ok (fun i => b i i, meye)
  newton := nt
  brentq := br

theorem diag_isEig (d : Fin n → ℝ) : IsEig (fun i j => if i = j then d i else 0) d idM := by
  constructor
  · intro a b
    simp only [rdot, idM]
    by_cases h : a = b
    · subst h; simp
    · rw [if_neg h]
      refine Finset.sum_eq_zero fun i _ => ?_
      by_cases ha : i = a
      · subst ha; simp [h]
      · simp [ha]
  · intro j
    funext i
    simp only [rmv, rdot, idM, Pi.smul_apply, smul_eq_mul]
    simp
    by_cases h : i = j <;> simp [h]

theorem diagOracle_eig (nt br) (d : Fin n → ℝ) :
    (diagOracle nt br).eig (ofM (fun i j => if i = j then d i else 0)) = .ok (ofV d, ofM idM) := by
  simp only [diagOracle]
  congr 2
  · funext i; simp
  · rw [meye_ofM]; rfl

/-- C21, the excluded case: if both root finders give up, the hard-case formula is used although the first part of the
step is longer than the radius; the returned step then violates the radius. -/
theorem C21_failed_search : ∃ (O : SubOracles Num) (B : Fin 2 → Fin 2 → ℝ) (g r : Fin 2 → ℝ) (vals : Fin 2 → ℝ)
    (U : Fin 2 → Fin 2 → ℝ), O.eig (ofM B) = .ok (ofV vals, ofM U) ∧ IsEig B vals U ∧
      solveNd O (ofM B) (ofV g) (fin 1) = .ok (ofV r, .hard) ∧ rnorm r = 100 := by
  refine ⟨diagOracle (fun _ _ _ => .error .runtimeError) (fun _ _ _ _ => .error .runtimeError), _, ![0, -100], ![0, 100],
    ![1, 2], idM, diagOracle_eig _ _ _, diag_isEig _, ?_, ?_⟩
  · obtain ⟨j, hj, hmin⟩ := argminIdx_fin ![(1 : ℝ), 2] (by norm_num)
    have hj0 : j = 0 := by
      fin_cases j
      · rfl
      · exfalso
        have := hmin 0
        norm_num at this
    subst hj0
    have hw : (fun i => -(dot (fun l => ofM (idM : Fin 2 → Fin 2 → ℝ) l i) (ofV ![(0 : ℝ), -100]))) = ofV ![0, 100] := by
      funext i
      refine (congrArg Neg.neg (dot_ofV (fun l => idM l i) _)).trans ?_
      simp only [fin_neg, ofV_apply, fin_inj, rdot, Fin.sum_univ_two, idM]
      fin_cases i <;> simp
    have hs0 : rmv (idM : Fin 2 → Fin 2 → ℝ) (slamC 0 ![(0 : ℝ), 100] ![1, 2]) = ![0, 50] := by
      rw [idM_rmv]; funext i; fin_cases i <;> simp [slamC]; norm_num
    have hn : rnorm ![(0 : ℝ), 50] = 50 := by
      simp only [rnorm, rdot, Fin.sum_univ_two]
      simp
    have hsec : secular (fin 0) (ofV ![(0 : ℝ), 100]) (ofV ![1, 2]) (ofM idM) (fin 1) = fin (1 / 50 - 1) := by
      rw [secular_fin _ _ _ _ _ 0 hmin one_ne_zero, hs0, hn]
      norm_num
    obtain ⟨c, sg, e1, e2, e3, -⟩ := hardCase_fin ![(0 : ℝ), 100] ![1, 2] idM 0 1 (diag_isEig ![(1 : ℝ), 2]).1
    have hc : c = ![0, 100] := by
      rw [e2]; funext i; fin_cases i <;> simp [slamC]; norm_num
    have hsg : sg = 0 := by
      rw [e3, hc]; simp [rdot, Fin.sum_univ_two]; norm_num
    have hr : rootFind (diagOracle (fun _ _ _ => .error .runtimeError) (fun _ _ _ _ => .error .runtimeError))
        (ofV ![(0 : ℝ), 100]) (ofV ![1, 2]) (ofM idM) (fin 1) (fin 0) = .ok none := by
      simp only [rootFind, diagOracle, brentAttempt]
      split <;> rfl
    rw [solveNd, if_neg (by simp), diagOracle_eig]
    simp only [hj, hw]
    simp only [lit_def, Rat.cast_zero, slam_fin, hs0, norm_ofV, hn, sqrt_spacing1, fin_add, ofV_apply, fin_lt, fin_le]
    norm_num
    rw [hsec, hr]
    simp only [fin_lt]
    norm_num
    rw [e1, hc, hsg, idM_rmv]
    simp
  · have : rdot ![(0 : ℝ), 100] ![(0 : ℝ), 100] = 100 * 100 := by simp [rdot, Fin.sum_univ_two]
    rw [rnorm, this, Real.sqrt_mul_self (by norm_num)]

/-! ## C22 -/

/-- Contract of exact root finders: whatever they return is a root to the right of their start (bracket). -/
structure ExactRoots (O : SubOracles Num) : Prop where
  newton : ∀ f x0 f' r, O.newton f (fin x0) f' = .ok r → ∃ q : ℝ, r = fin q ∧ x0 ≤ q ∧ f r = fin 0
  brentq : ∀ f a b m r, O.brentq f (fin a) b m = .ok r → ∃ q : ℝ, r = fin q ∧ a ≤ q ∧ f r = fin 0

theorem bracket_le (sec : Num → Num) (m : ℕ) (xa xb : ℝ) (h0 : 0 ≤ xa) (h1 : xa ≤ xb) :
    ∃ xa' xb' : ℝ, (bracket sec m (fin xa) (fin xb)).2 = (fin xa', fin xb') ∧ xa ≤ xa' := by
  induction m generalizing xa xb with
  | zero => exact ⟨xa, xb, rfl, le_rfl⟩
  | succ m ih =>
    rw [bracket]
    split
    · have : (fin xb * Fides.lit 10 : Num) = fin (xb * 10) := by simp
      rw [this]
      obtain ⟨xa', xb', e, h⟩ := ih xb (xb * 10) (h0.trans h1) (by linarith)
      exact ⟨xa', xb', e, h1.trans h⟩
    · exact ⟨xa, xb, rfl, le_rfl⟩

/-- The *genuine* hard case: the lowest eigenvalue `lam` is not positive, the gradient is orthogonal to its eigenspace,
and the remaining part of the step fits into the ball. -/
def GenuineHard (vals : Fin n → ℝ) (U : Fin n → Fin n → ℝ) (g : Fin n → ℝ) (delta : ℝ) : Prop :=
  ∃ k, (∀ i, vals k ≤ vals i) ∧ vals k ≤ 0 ∧ (∀ i, vals i = vals k → rdot (fun l => U l i) g = 0) ∧
    (∑ i, if vals i = vals k then 0 else (rdot (fun l => U l i) g / (vals i - vals k)) ^ 2) ≤ delta * delta

/-- C22: with an orthonormal eigendecomposition and exact root finders, a step labelled `posdef` or `indef`, and a
`hard` step in the genuine hard case, minimises the quadratic model over the trust region.  What is missing (and
false, see `C22_counterexample`): `hard` steps outside the genuine hard case. -/
theorem C22_exact_partial (O : SubOracles Num) {B : Fin n → Fin n → ℝ} (hB : Sym B) (g : Fin n → ℝ) (delta : ℝ)
    (hd : 0 < delta) (vals : Fin n → ℝ) (U : Fin n → Fin n → ℝ) (he : O.eig (ofM B) = .ok (ofV vals, ofM U))
    (hE : IsEig B vals U) (hR : ExactRoots O) (s : Vec Num n) (ty : SubType)
    (h : solveNd O (ofM B) (ofV g) (fin delta) = .ok (s, ty)) (hty : ty = .hard → GenuineHard vals U g delta) :
    ∃ r : Fin n → ℝ, s = ofV r ∧ MinOverBall B g delta r := by
  rcases Nat.eq_zero_or_pos n with rfl | hn
  · exfalso
    rw [solveNd, if_neg (by simpa using hd.ne'), he] at h
    simp [argminIdx] at h
  obtain ⟨j, hj, hmin⟩ := argminIdx_fin vals hn
  have hw : (fun i => -(dot (fun l => ofM U l i) (ofV g))) = ofV (fun i => -rdot (fun l => U l i) g) := by
    funext i
    exact congrArg Neg.neg (dot_ofV (fun l => U l i) g)
  have hcases := solveNd_cases O (ofM B) (ofV g) delta hd.ne' _ _ he j hj s ty h
  simp only [hw] at hcases
  rcases hcases with ⟨h1, h2, h3, h4⟩ | ⟨h1, h2, h3⟩ | ⟨h1, h2, h3⟩
  · -- positive definite
    simp only [ofV_apply, fin_lt, decide_eq_true_eq] at h2
    rw [slam_fin] at h4
    refine ⟨_, h4, ?_⟩
    refine more_sorensen hB g _ delta 0 hd.le (rmv_slamC_zero hE g 0 ?_) (eig_psd hE ?_) le_rfl (Or.inl rfl)
    · intro i hi; have := hmin i; linarith
    · intro i; have := hmin i; linarith
  · -- root of the secular equation
    obtain ⟨li, hli, hl0, hlm⟩ : ∃ li : ℝ, (if lt (fin 0) (ofV vals j) = true then fin 0 else -(ofV vals j)) = fin li ∧
        0 ≤ li ∧ -(vals j) ≤ li := by
      simp only [ofV_apply, fin_lt, decide_eq_true_eq, fin_neg]
      by_cases hp : 0 < vals j
      · exact ⟨0, by rw [if_pos hp], le_rfl, by linarith⟩
      · exact ⟨-(vals j), by rw [if_neg hp], by linarith, le_rfl⟩
    rw [hli] at h2 h3
    obtain ⟨r, hr1, hr2, hr3⟩ := rootFind_some _ _ _ _ _ _ _ h3
    obtain ⟨q, rfl, hq, hroot⟩ : ∃ q : ℝ, r = fin q ∧ li ≤ q ∧
        secular r (ofV fun i => -rdot (fun l => U l i) g) (ofV vals) (ofM U) (fin delta) = fin 0 := by
      rcases hr3 with hr3 | ⟨m, xa, xb, hbr, hr3⟩
      · exact hR.newton _ _ _ _ hr3
      · have : (fin li + fin (1 / 67108864)) * fin 10 = fin ((li + 1 / 67108864) * 10) := by simp
        rw [this] at hbr
        obtain ⟨xa', xb', e1, e2⟩ := bracket_le _ 100 li ((li + 1 / 67108864) * 10) hl0 (by linarith)
        rw [hbr] at e1
        cases e1
        obtain ⟨q, rfl, hq, hroot⟩ := hR.brentq _ _ _ _ _ hr3
        exact ⟨q, rfl, e2.trans hq, hroot⟩
    have hlt : li < q := by
      rcases lt_or_eq_of_le hq with h | h
      · exact h
      · subst h; rw [hroot] at h2; simp at h2
    have hpos : ∀ i, 0 < vals i + q := fun i => by have := hmin i; linarith
    rw [slam_fin] at hr1
    refine ⟨_, hr1, ?_⟩
    rw [secular_fin _ _ _ _ _ j hmin hd.ne', if_neg (by linarith [hlm])] at hroot
    have hnorm : rnorm (rmv U (slamC q (fun i => -rdot (fun l => U l i) g) vals)) = delta := by
      split at hroot
      · rename_i hp
        rw [fin_inj] at hroot
        have h1 : 1 / rnorm (rmv U (slamC q (fun i => -rdot (fun l => U l i) g) vals)) = 1 / delta := by linarith
        have := one_div_one_div (rnorm (rmv U (slamC q (fun i => -rdot (fun l => U l i) g) vals)))
        rw [← this, h1, one_div_one_div]
      · cases hroot
    refine more_sorensen hB g _ delta q hd.le (rmv_slamC_zero hE g q ?_) (eig_psd hE fun i => (hpos i).le)
      (hl0.trans hq) (Or.inr hnorm.ge)
    intro i hi; exact absurd hi (hpos i).ne'
  · -- genuine hard case
    obtain ⟨k, hk, hk0, hkz, hfit⟩ := hty h1
    have hjk : vals j = vals k := le_antisymm (hmin k) (hk j)
    obtain ⟨c, sg, e1, e2, e3, e4⟩ := hardCase_fin (fun i => -rdot (fun l => U l i) g) vals U j delta hE.1
    refine ⟨_, h2.trans e1, ?_⟩
    have hc : c = slamC (-(vals j)) (fun i => -rdot (fun l => U l i) g) vals := by
      rw [e2]; funext i
      by_cases hi : vals i = vals j
      · simp [slamC, hi, hkz i (hi.trans hjk)]
      · simp [slamC, hi]
    have hcc : rdot c c ≤ delta * delta := by
      refine le_trans (le_of_eq ?_) hfit
      refine Finset.sum_congr rfl fun i _ => ?_
      rw [e2]
      by_cases hi : vals i = vals k
      · simp [slamC, hi, hjk]
      · have hi' : vals i + -vals k ≠ 0 := by intro h; apply hi; linarith
        simp only [slamC, hjk, hi, if_false, if_neg hi']
        rw [sub_eq_add_neg]; field_simp
    refine more_sorensen hB g _ delta (-(vals j)) hd.le ?_ (eig_psd hE ?_) (by linarith) (Or.inr ?_)
    · rw [rmv_add, rmv_smul, hE.2 j, smul_add]
      have hz := rmv_slamC_zero hE g (-(vals j)) (fun i hi => hkz i (by linarith))
      rw [← hc] at hz
      rw [← hz]
      have : sg • vals j • (fun i => U i j) + (-(vals j)) • sg • (fun i => U i j) = (0 : Fin n → ℝ) := by
        rw [smul_smul, smul_smul, ← add_smul]
        have : sg * vals j + -(vals j) * sg = 0 := by ring
        rw [this, zero_smul]
      calc _ = rmv B (rmv U c) + (-(vals j)) • rmv U c + (sg • vals j • (fun i => U i j) + (-(vals j)) • sg • (fun i => U i j)) := by
            abel
        _ = _ := by rw [this, add_zero]
    · intro i; have := hmin i; linarith
    · rw [rnorm, e4, max_eq_left hcc, Real.sqrt_mul_self hd.le]


/-- Contract of a root finder that finds a root whenever there is one to the right of its start. -/
def FindsRoots (O : SubOracles Num) : Prop :=
  ∀ f x0 f', (∃ q : ℝ, x0 ≤ q ∧ f (fin q) = fin 0) →
    ∃ q : ℝ, O.newton f (fin x0) f' = .ok (fin q) ∧ x0 ≤ q ∧ f (fin q) = fin 0

/-- squared length of the step with multiplier `lam` -/
noncomputable def slamSq (w vals : Fin n → ℝ) (lam : ℝ) : ℝ := rdot (slamC lam w vals) (slamC lam w vals)

theorem slamSq_continuousOn (w vals : Fin n → ℝ) (a b : ℝ) (h : ∀ i, w i = 0 ∨ 0 < vals i + a) :
    ContinuousOn (slamSq w vals) (Set.Icc a b) := by
  unfold slamSq rdot
  refine continuousOn_finsetSum _ fun i _ => ?_
  rcases h i with h | h
  · have : (fun lam => slamC lam w vals i * slamC lam w vals i) = fun _ => (0 : ℝ) := by
      funext lam; simp [slamC, h]
    rw [this]; exact continuousOn_const
  · have : ContinuousOn (fun lam => (w i / (vals i + lam)) * (w i / (vals i + lam))) (Set.Icc a b) := by
      have h1 : ContinuousOn (fun lam => w i / (vals i + lam)) (Set.Icc a b) :=
        continuousOn_const.div (continuousOn_const.add continuousOn_id) (fun x hx => by
          have := hx.1; exact (show 0 < vals i + x by linarith).ne')
      exact h1.mul h1
    refine this.congr fun x hx => ?_
    have := hx.1
    have hne : vals i + x ≠ 0 := by linarith
    simp [slamC, hne]

/-- the secular equation has a root to the right of the starting multiplier -/
theorem secular_root (w vals : Fin n → ℝ) (U : Fin n → Fin n → ℝ) (hU : OrthoCols U) (j : Fin n) (hmin : ∀ k, vals j ≤ vals k)
    (delta li : ℝ) (hd : 0 < delta) (hli : -(vals j) ≤ li) (hw : ∀ i, w i = 0 ∨ 0 < vals i + li)
    (hlt : delta * delta < slamSq w vals li) :
    ∃ q, li ≤ q ∧ secular (fin q) (ofV w) (ofV vals) (ofM U) (fin delta) = fin 0 := by
  set M := li + rnorm w / delta with hM
  have hwn : 0 ≤ rnorm w / delta := div_nonneg (rnorm_nonneg _) hd.le
  have hend : slamSq w vals M ≤ delta * delta := by
    by_cases hw0 : rnorm w = 0
    · have : w = 0 := rnorm_eq_zero.mp hw0
      subst this
      have : slamSq (0 : Fin n → ℝ) vals M = 0 := by simp [slamSq, slamC, rdot]
      rw [this]; positivity
    · have hpos : 0 < rnorm w / delta := div_pos (lt_of_le_of_ne (rnorm_nonneg _) (Ne.symm hw0)) hd
      have hle : slamSq w vals M ≤ ∑ i, (w i * w i) / (rnorm w / delta * (rnorm w / delta)) := by
        rw [slamSq, rdot]
        refine Finset.sum_le_sum fun i _ => ?_
        have hge : rnorm w / delta ≤ vals i + M := by have := hmin i; rw [hM]; linarith
        have hne : vals i + M ≠ 0 := by linarith
        simp only [slamC, if_neg hne]
        rw [div_mul_div_comm]
        apply div_le_div_of_nonneg_left (mul_self_nonneg _) (mul_pos hpos hpos)
        exact mul_self_le_mul_self hpos.le hge
      rw [← Finset.sum_div] at hle
      refine hle.trans (le_of_eq ?_)
      have : ∑ i, w i * w i = rnorm w * rnorm w := (rnorm_sq w).symm
      rw [this]; field_simp
  have hcont := slamSq_continuousOn w vals li M hw
  have hmem : delta * delta ∈ Set.Icc (slamSq w vals M) (slamSq w vals li) := ⟨hend, hlt.le⟩
  obtain ⟨q, hq, hqe⟩ := intermediate_value_Icc' (by linarith : li ≤ M) hcont hmem
  refine ⟨q, hq.1, ?_⟩
  have hn : rnorm (rmv U (slamC q w vals)) = delta := by
    rw [rnorm, ortho_rdot hU]
    change Real.sqrt (slamSq w vals q) = delta
    rw [hqe, Real.sqrt_mul_self hd.le]
  rw [secular_fin _ _ _ _ _ j hmin hd.ne', if_neg (by have := hq.1; linarith), hn, if_pos hd, sub_self]

/-- C22, total form: for symmetric `B`, a positive radius, an orthonormal eigendecomposition and a root finder that finds
roots, the solver returns a minimiser of the model over the trust region, unless the lowest eigenvalue is `≤ 0` and
the gradient is not orthogonal to its eigenspace (the case of `C22_counterexample`). -/
theorem C22_total_partial (O : SubOracles Num) {B : Fin n → Fin n → ℝ} (hB : Sym B) (g : Fin n → ℝ) (delta : ℝ)
    (hn : 0 < n) (hd : 0 < delta) (vals : Fin n → ℝ) (U : Fin n → Fin n → ℝ)
    (he : O.eig (ofM B) = .ok (ofV vals, ofM U)) (hE : IsEig B vals U) (hR : ExactRoots O) (hF : FindsRoots O)
    (hpole : ∀ k, (∀ i, vals k ≤ vals i) → vals k ≤ 0 → rdot (fun l => U l k) g = 0) :
    ∃ (r : Fin n → ℝ) (ty : SubType), solveNd O (ofM B) (ofV g) (fin delta) = .ok (ofV r, ty) ∧ MinOverBall B g delta r := by
  obtain ⟨j, hj, hmin⟩ := argminIdx_fin vals hn
  have hw : (fun i => -(dot (fun l => ofM U l i) (ofV g))) = ofV (fun i => -rdot (fun l => U l i) g) := by
    funext i
    exact congrArg Neg.neg (dot_ofV (fun l => U l i) g)
  set w : Fin n → ℝ := fun i => -rdot (fun l => U l i) g with hwdef
  obtain ⟨li, hli, hlm, hpz⟩ : ∃ li : ℝ, (if lt (fin 0) (ofV vals j) = true then fin 0 else -(ofV vals j)) = fin li ∧
      -(vals j) ≤ li ∧ ∀ i, w i = 0 ∨ 0 < vals i + li := by
    simp only [ofV_apply, fin_lt, decide_eq_true_eq, fin_neg]
    by_cases hp : 0 < vals j
    · exact ⟨0, by rw [if_pos hp], by linarith, fun i => Or.inr (by have := hmin i; linarith)⟩
    · refine ⟨-(vals j), by rw [if_neg hp], le_rfl, fun i => ?_⟩
      rcases lt_or_eq_of_le (hmin i) with h | h
      · right; linarith
      · left
        have := hpole i (fun k => by rw [← h]; exact hmin k) (by rw [← h]; exact not_lt.mp hp)
        simp [hwdef, this]
  -- the root search succeeds when it is entered
  have hroot : lt (secular (fin li) (ofV w) (ofV vals) (ofM U) (fin delta)) (fin 0) = true →
      ∃ s, rootFind O (ofV w) (ofV vals) (ofM U) (fin delta) (fin li) = .ok (some s) := by
    intro hs
    have hs' := hs
    rw [secular_fin _ _ _ _ _ j hmin hd.ne', if_neg (not_lt.mpr hlm)] at hs'
    have hbig : delta * delta < slamSq w vals li := by
      split at hs'
      · rename_i hp
        simp only [fin_lt, decide_eq_true_eq] at hs'
        have h1 : 1 / rnorm (rmv U (slamC li w vals)) < 1 / delta := by linarith
        have h2 : delta < rnorm (rmv U (slamC li w vals)) := (one_div_lt_one_div hp hd).mp h1
        have h3 := mul_self_lt_mul_self hd.le h2
        rwa [rnorm_sq, ortho_rdot hE.1] at h3
      · simp at hs'
    obtain ⟨q, hq1, hq2⟩ := secular_root w vals U hE.1 j hmin delta li hd hlm hpz hbig
    obtain ⟨q', e1, e2, e3⟩ := hF (fun l => secular l (ofV w) (ofV vals) (ofM U) (fin delta)) li
      (fun l => dsecular l (ofV w) (ofV vals) (ofM U) (fin delta)) ⟨q, hq1, hq2⟩
    refine ⟨slam (fin q') (ofV w) (ofV vals) (ofM U), ?_⟩
    rw [rootFind]
    simp only [e1]
    rw [if_pos]
    rw [secular_fin _ _ _ _ _ j hmin hd.ne', if_neg (by linarith)] at e3
    split at e3
    · rename_i hp
      rw [fin_inj] at e3
      have h1 : 1 / rnorm (rmv U (slamC q' w vals)) = 1 / delta := by linarith
      have h2 : rnorm (rmv U (slamC q' w vals)) = delta := by
        have := one_div_one_div (rnorm (rmv U (slamC q' w vals)))
        rw [← this, h1, one_div_one_div]
      rw [slam_fin, norm_ofV, h2, lit_def, fin_add]
      simp
    · cases e3
  -- hence the solver returns
  have hret : ∃ s ty, solveNd O (ofM B) (ofV g) (fin delta) = .ok (s, ty) ∧
      (ty = .hard → lt (secular (fin li) (ofV w) (ofV vals) (ofM U) (fin delta)) (fin 0) = false ∧ ¬ 0 < vals j) := by
    rw [solveNd, if_neg (by simpa using hd.ne'), he]
    simp only [hj, hw, lit_def, Rat.cast_zero, sqrt_spacing1, fin_add]
    by_cases hpd : (lt (fin 0) (ofV vals j) && le (norm (slam (fin 0) (ofV w) (ofV vals) (ofM U))) (fin (delta + 1 / 67108864))) = true
    · rw [if_pos hpd]
      exact ⟨_, _, rfl, by intro h; cases h⟩
    · rw [if_neg hpd, hli]
      by_cases hs : lt (secular (fin li) (ofV w) (ofV vals) (ofM U) (fin delta)) (fin 0) = true
      · obtain ⟨s, e⟩ := hroot hs
        rw [if_pos hs, e]
        exact ⟨_, _, rfl, by intro h; cases h⟩
      · rw [if_neg hs]
        refine ⟨_, _, rfl, fun _ => ⟨by simpa using hs, ?_⟩⟩
        intro hp
        apply hs
        have hli0 : li = 0 := by
          rw [if_pos (by simpa using hp), fin_inj] at hli
          exact hli.symm
        subst hli0
        have hp' : lt (fin 0) (ofV vals j) = true := by simpa using hp
        rw [hp', Bool.true_and, slam_fin, norm_ofV] at hpd
        simp only [fin_le, decide_eq_true_eq, not_le] at hpd
        have hpos : 0 < rnorm (rmv U (slamC 0 w vals)) := by linarith
        rw [secular_fin _ _ _ _ _ j hmin hd.ne', if_neg (by linarith), if_pos hpos]
        simp only [fin_lt, decide_eq_true_eq]
        have : 1 / rnorm (rmv U (slamC 0 w vals)) < 1 / delta := one_div_lt_one_div_of_lt hd (by linarith)
        linarith
  obtain ⟨s, ty, hs, hty⟩ := hret
  obtain ⟨r, rfl, hr⟩ := C22_exact_partial O hB g delta hd vals U he hE hR s ty hs (by
    intro h
    obtain ⟨hsec, hp⟩ := hty h
    have hli0 : li = -(vals j) := by
      have hp' : ¬ lt (fin 0) (ofV vals j) = true := by simpa using hp
      rw [if_neg hp', ofV_apply, fin_neg, fin_inj] at hli
      exact hli.symm
    refine ⟨j, hmin, not_lt.mp hp, ?_, ?_⟩
    · intro i hi
      exact hpole i (fun k => by rw [hi]; exact hmin k) (by rw [hi]; exact not_lt.mp hp)
    · have hsum : (∑ i, if vals i = vals j then 0 else (rdot (fun l => U l i) g / (vals i - vals j)) ^ 2) = slamSq w vals li := by
        refine Finset.sum_congr rfl fun i _ => ?_
        rw [hli0]
        by_cases hi : vals i = vals j
        · have : rdot (fun l => U l i) g = 0 :=
            hpole i (fun k => by rw [hi]; exact hmin k) (by rw [hi]; exact not_lt.mp hp)
          simp [slamC, hi, hwdef, this]
        · have hi' : vals i + -vals j ≠ 0 := by intro h; apply hi; linarith
          simp only [slamC, hi, if_false, if_neg hi', hwdef]
          rw [sub_eq_add_neg]; field_simp
      rw [hsum]
      rw [secular_fin _ _ _ _ _ j hmin hd.ne', if_neg (not_lt.mpr hlm)] at hsec
      have hnn : rnorm (rmv U (slamC li w vals)) * rnorm (rmv U (slamC li w vals)) = slamSq w vals li := by
        rw [rnorm_sq, ortho_rdot hE.1]; rfl
      rw [← hnn]
      refine mul_self_le_mul_self (rnorm_nonneg _) ?_
      split at hsec
      · rename_i hpos
        simp only [fin_lt, decide_eq_false_iff_not, not_lt] at hsec
        have h1 : 1 / delta ≤ 1 / rnorm (rmv U (slamC li w vals)) := by linarith
        exact (one_div_le_one_div hd hpos).mp h1
      · rename_i hpos
        linarith [not_lt.mp hpos])
  exact ⟨r, ty, hs, hr⟩

open Classical in
/-- an exact root finder (non-constructive) -/
noncomputable def exactNewton (f : Num → Num) (x0 : Num) (_ : Num → Num) : Except PyErr Num :=
  match x0 with
  | .fin a => if h : ∃ q : ℝ, a ≤ q ∧ f (fin q) = fin 0 then .ok (fin h.choose) else .error .runtimeError
  | _ => .error .runtimeError

theorem exactOracle_ok : ExactRoots (diagOracle exactNewton (fun _ _ _ _ => .error .runtimeError)) ∧
    FindsRoots (diagOracle exactNewton (fun _ _ _ _ => .error .runtimeError)) := by
  refine ⟨⟨?_, ?_⟩, ?_⟩
  · intro f x0 f' r h
    simp only [diagOracle, exactNewton] at h
    split at h
    · rename_i hq
      cases h
      exact ⟨hq.choose, rfl, hq.choose_spec.1, hq.choose_spec.2⟩
    · cases h
  · intro f a b m r h
    simp [diagOracle] at h
  · intro f x0 f' hq
    refine ⟨hq.choose, ?_, hq.choose_spec.1, hq.choose_spec.2⟩
    simp only [diagOracle, exactNewton, dif_pos hq]

/-- the hypotheses of `C22_total_partial` (and of `C22_exact_partial`) are met by an indefinite problem whose gradient
has no component along the negative direction -/
example : ∃ (O : SubOracles Num) (B : Fin 2 → Fin 2 → ℝ) (g vals : Fin 2 → ℝ) (U : Fin 2 → Fin 2 → ℝ),
    Sym B ∧ O.eig (ofM B) = .ok (ofV vals, ofM U) ∧ IsEig B vals U ∧ ExactRoots O ∧ FindsRoots O ∧ vals 0 < 0 ∧ g ≠ 0 ∧
    (∀ k, (∀ i, vals k ≤ vals i) → vals k ≤ 0 → rdot (fun l => U l k) g = 0) := by
  refine ⟨diagOracle exactNewton (fun _ _ _ _ => .error .runtimeError), _, ![0, 3], ![-1, 2], idM, ?_, diagOracle_eig _ _ _,
    diag_isEig _, exactOracle_ok.1, exactOracle_ok.2, by norm_num, ?_, ?_⟩
  · intro i j
    by_cases h : i = j
    · subst h; rfl
    · simp [h, Ne.symm h]
  · intro h; have := congrFun h 1; norm_num at this
  · intro k hk hk0
    fin_cases k
    · simp [rdot, idM]
    · norm_num at hk0

/-- C22 is false in general: with an exact eigendecomposition and exact root finders, the solver returns a step of
*ascent* for `B = diag(-1/100, 1)`, `g = (1/10, 0)` and radius 1: the secular test is evaluated without the pole at
the lowest eigenvalue, so the hard-case branch is taken although the gradient has a component along the lowest
eigenvector. -/
theorem C22_counterexample : ∃ (O : SubOracles Num) (B : Fin 2 → Fin 2 → ℝ) (g r vals : Fin 2 → ℝ) (U : Fin 2 → Fin 2 → ℝ),
    Sym B ∧ O.eig (ofM B) = .ok (ofV vals, ofM U) ∧ IsEig B vals U ∧ ExactRoots O ∧ FindsRoots O ∧
    solveNd O (ofM B) (ofV g) (fin 1) = .ok (ofV r, .hard) ∧ quad B g 0 < quad B g r ∧ ¬ MinOverBall B g 1 r := by
  have hsym : Sym (fun i j : Fin 2 => if i = j then ![-(1 : ℝ) / 100, 1] i else 0) := by
    intro i j
    by_cases h : i = j
    · subst h; rfl
    · simp [h, Ne.symm h]
  have hq : quad (fun i j : Fin 2 => if i = j then ![-(1 : ℝ) / 100, 1] i else 0) ![1 / 10, 0] 0 <
      quad (fun i j : Fin 2 => if i = j then ![-(1 : ℝ) / 100, 1] i else 0) ![1 / 10, 0] ![1, 0] := by
    simp [quad, rmv, rdot, Fin.sum_univ_two]; norm_num
  refine ⟨diagOracle exactNewton (fun _ _ _ _ => .error .runtimeError), _, ![1 / 10, 0], ![1, 0], ![-1 / 100, 1], idM, hsym,
    diagOracle_eig _ _ _, diag_isEig _, exactOracle_ok.1, exactOracle_ok.2, ?_, hq, ?_⟩
  · obtain ⟨j, hj, hmin⟩ := argminIdx_fin ![-(1 : ℝ) / 100, 1] (by norm_num)
    have hj0 : j = 0 := by
      fin_cases j
      · rfl
      · exfalso
        have := hmin 0
        norm_num at this
    subst hj0
    have hw : (fun i => -(dot (fun l => ofM (idM : Fin 2 → Fin 2 → ℝ) l i) (ofV ![(1 : ℝ) / 10, 0]))) = ofV ![-1 / 10, 0] := by
      funext i
      refine (congrArg Neg.neg (dot_ofV (fun l => idM l i) _)).trans ?_
      simp only [fin_neg, ofV_apply, fin_inj, rdot, Fin.sum_univ_two, idM]
      fin_cases i <;> simp; norm_num
    have hs0 : rmv (idM : Fin 2 → Fin 2 → ℝ) (slamC (1 / 100) ![-(1 : ℝ) / 10, 0] ![-1 / 100, 1]) = ![-1 / 10, 0] := by
      rw [idM_rmv]; funext i; fin_cases i <;> simp [slamC]; norm_num
    have hn : rnorm ![-(1 : ℝ) / 10, 0] = 1 / 10 := by
      have : rdot ![-(1 : ℝ) / 10, 0] ![-(1 : ℝ) / 10, 0] = 1 / 10 * (1 / 10) := by
        simp [rdot, Fin.sum_univ_two]; norm_num
      rw [rnorm, this, Real.sqrt_mul_self (by norm_num)]
    have hsec : secular (fin (1 / 100)) (ofV ![-(1 : ℝ) / 10, 0]) (ofV ![-1 / 100, 1]) (ofM idM) (fin 1) = fin (10 - 1) := by
      rw [secular_fin _ _ _ _ _ 0 hmin one_ne_zero, hs0, hn]
      norm_num
    obtain ⟨c, sg, e1, e2, e3, -⟩ := hardCase_fin ![-(1 : ℝ) / 10, 0] ![-1 / 100, 1] idM 0 1 (diag_isEig ![-(1 : ℝ) / 100, 1]).1
    have hc : c = 0 := by
      rw [e2]; funext i; fin_cases i <;> simp [slamC]
    have hsg : sg = 1 := by
      rw [e3, hc]; simp [rdot]
    rw [solveNd, if_neg (by simp), diagOracle_eig]
    simp only [hj, hw]
    have hv0 : ofV ![-(1 : ℝ) / 100, 1] 0 = fin (-1 / 100) := rfl
    have hlt : lt (Fides.lit 0 : Num) (fin (-1 / 100)) = false := by norm_num
    have hneg : (-(fin (-1 / 100)) : Num) = fin (1 / 100) := by rw [fin_neg, fin_inj]; norm_num
    simp only [hv0, hlt, hneg, hsec, Bool.false_and, Bool.false_eq_true, if_false]
    have : lt (fin (10 - 1)) (Fides.lit 0 : Num) = false := by norm_num
    simp only [this, Bool.false_eq_true, if_false, e1, hc, hsg]
    congr 3
    rw [rmv_zero]
    funext i
    fin_cases i <;> simp [idM]
  · intro h
    have := h 0 (by simp [rnorm, rdot])
    linarith

end Fides
