import Verif.Lemmas.B64
import Verif.Lemmas.Demo

/-!
# A run in double precision, used as witness

One variable, upper bound 121/1024, default options, `x0 = 0`.  The gradient is so small that the step-back factor `theta`
rounds to 1, and the product `s * alpha` rounds to a number above the distance to the bound.
-/

open Classical

namespace Fides
open Num Spec

noncomputable section

variable (R : Rounding) (O : Oracles (Dbl R))

/-- the entries -/
def outG : Dbl R := lit (-2420 / 18446744073709551616)
def outH : Dbl R := lit (-9216 / 18446744073709551616)
def outU : Dbl R := lit (121 / 1024)

def outEnv : Env (Dbl R) 1 where
  lb _ := -FloatOps.inf
  ub _ := outU R
  opts := resolveOpts []
  nargout := 3
  resfun := false
  obj _ x := if lt (lit 0) (x 0) then .tuple [.scalar (lit (-1)), .arr [1] [lit 0], .arr [1, 1] [lit 0]]
    else .tuple [.scalar (lit 0), .arr [1] [outG R], .arr [1, 1] [outH R]]
  clock _ := lit 0
  tr _ I := trustRegion O 10 .two .reflect I
  evs _ := .ok (lit 0, lit 0)
  cond _ := .ok (lit 1)

/-- what the external routines must do: return -/
def Returning : Prop := (∀ (B : Mat (Dbl R) 1 1) g, ∃ v, O.lstsq B g = .ok v) ∧ ∀ B : Mat (Dbl R) 1 1, ∃ v, O.npEig B = .ok v

namespace OutDemo
variable {R} {O}
open Dbl

theorem vG : (outG R).val = .fin (-2420 / 18446744073709551616) := by
  have := v_lit (R := R) (-2420 / 18446744073709551616) ⟨-2420, -64, by norm_num, by norm_num, by norm_num, by norm_num⟩
  rw [outG, this]; norm_num
theorem vH : (outH R).val = .fin (-9216 / 18446744073709551616) := by
  have := v_lit (R := R) (-9216 / 18446744073709551616) ⟨-9216, -64, by norm_num, by norm_num, by norm_num, by norm_num⟩
  rw [outH, this]; norm_num
theorem vU : (outU R).val = .fin (121 / 1024) := by
  have := v_lit (R := R) (121 / 1024) ⟨121, -10, by norm_num, by norm_num, by norm_num, by norm_num⟩
  rw [outU, this]; norm_num
theorem v0 : (lit 0 : Dbl R).val = .fin 0 := val_lit_zero
theorem v1' : (lit 1 : Dbl R).val = .fin 1 := val_lit_one
theorem v2 : (lit 2 : Dbl R).val = .fin 2 := by
  have := v_lit (R := R) 2 ⟨2, 0, by norm_num, by norm_num, by norm_num, by norm_num⟩
  rw [this]; norm_num
theorem vhalf : (lit (1 / 2) : Dbl R).val = .fin (1 / 2) := by
  have := v_lit (R := R) (1 / 2) ⟨1, -1, by norm_num, by norm_num, by norm_num, by norm_num⟩
  rw [this]; norm_num

variable (R) in
/-- the input of the first call of `trust_region` -/
def outIn : TRIn (Dbl R) 1 :=
  { x := vzero, g := fun _ => outG R, hess := fun _ _ => outH R,
    scaling := fun i => FloatOps.sqrt (FloatOps.abs (affineV (outEnv R O).lb (outEnv R O).ub vzero (fun _ => outG R) i)),
    delta := lit 1, dv := affineDv (outEnv R O).lb (outEnv R O).ub (fun _ => outG R),
    theta := thetaOf (lit (19 / 20)) (affineV (outEnv R O).lb (outEnv R O).ub vzero (fun _ => outG R)) (fun _ => outG R),
    lb := (outEnv R O).lb, ub := (outEnv R O).ub }

theorem gneg : lt (outG R) (lit 0) = true := by rw [lt_iff vG v0]; norm_num

theorem vV (i : Fin 1) : (affineV (outEnv R O).lb (outEnv R O).ub vzero (fun _ => outG R) i).val = .fin (-121 / 1024) := by
  unfold affineV
  simp only [gneg, if_true]
  rw [show (outEnv R O).ub i = outU R from rfl, if_pos (ff vU)]
  rw [v_sub (show ((vzero : Vec (Dbl R) 1) i).val = _ from v0) vU ⟨-121, -10, by norm_num, by norm_num, by norm_num, by norm_num⟩]
  norm_num

theorem vDv (i : Fin 1) : (affineDv (outEnv R O).lb (outEnv R O).ub (fun _ => outG R) i).val = .fin 1 := by
  unfold affineDv
  simp only [gneg, if_true]
  rw [show (outEnv R O).ub i = outU R from rfl, if_pos (ff vU)]
  exact v1'

theorem sqrt_scal : Real.sqrt (121 / 1024) = 11 / 32 := by
  rw [show (121 / 1024 : ℝ) = (11 / 32) ^ 2 by norm_num, Real.sqrt_sq (by norm_num)]

theorem vScal (i : Fin 1) : ((outIn R (O := O)).scaling i).val = .fin (11 / 32) := by
  show (FloatOps.sqrt (FloatOps.abs (affineV (outEnv R O).lb (outEnv R O).ub vzero (fun _ => outG R) i))).val = _
  have h : (FloatOps.abs (affineV (outEnv R O).lb (outEnv R O).ub vzero (fun _ => outG R) i)).val = .fin (121 / 1024) := by
    rw [v_abs (vV i)]; norm_num
  rw [v_sqrt h (by norm_num) (by rw [sqrt_scal]; exact ⟨11, -5, by norm_num, by norm_num, by norm_num, by norm_num⟩), sqrt_scal]

/-- `theta` rounds to 1 -/
theorem vTheta : ((outIn R (O := O)).theta).val = .fin 1 := by
  show (thetaOf _ _ _ : Dbl R).val = _
  unfold thetaOf
  set v := affineV (outEnv R O).lb (outEnv R O).ub vzero (fun _ => outG R)
  have hp : (v 0 * outG R).val = .fin (121 / 1024 * (2420 / 18446744073709551616)) := by
    rw [v_mul (vV 0) vG ⟨292820, -74, by norm_num, by norm_num, by norm_num, by norm_num⟩]
    norm_num
  have hni : (normInf fun i => v i * outG R).val = .fin (121 / 1024 * (2420 / 18446744073709551616)) := by
    rw [normInf, List.ofFn_succ, List.ofFn_zero]
    show (npMax2 (lit 0) (FloatOps.abs (v 0 * outG R))).val = _
    have ha := v_abs hp
    unfold npMax2
    rw [if_neg (by rw [nn v0]; simp), if_neg (by rw [nn ha]; simp), lt_iff v0 ha, if_pos (by norm_num), ha]
    norm_num
  have h1 : (lit 1 - normInf fun i => v i * outG R : Dbl R).val = .fin 1 := by
    rw [val_sub, v1', hni, fin_sub]
    have hn : R.near (1 - 121 / 1024 * (2420 / 18446744073709551616)) = 1 := by
      have := R.near_eq (1 - 121 / 1024 * (2420 / 18446744073709551616)) (2 ^ 53) (-53) (by norm_num)
        ⟨1, 0, by norm_num, by norm_num, by norm_num, by norm_num⟩ (by rw [abs_of_nonpos] <;> norm_num)
      rw [this]; norm_num
    rw [v_rd (lt_trans (show |(1 : ℝ) - 121 / 1024 * (2420 / 18446744073709551616)| < 1 by rw [abs_of_pos] <;> norm_num) overflow_big), hn]
  unfold pyMax
  have ht : (lit (19 / 20) : Dbl R).val = .fin (R.near ((19 / 20 : ℚ) : ℝ)) := by
    rw [val_lit, v_rd (lt_trans (show |((19 / 20 : ℚ) : ℝ)| < 1 by rw [abs_of_pos] <;> norm_num) overflow_big)]
  have hle : R.near ((19 / 20 : ℚ) : ℝ) ≤ 1 := by
    have := R.near_mono (show ((19 / 20 : ℚ) : ℝ) ≤ 1 by norm_num)
    rwa [R.near_self (x := 1) ⟨1, 0, by norm_num, by norm_num, by norm_num, by norm_num⟩] at this
  rw [lt_iff ht h1]
  split
  · exact h1
  · rename_i hh
    rw [ht]
    have : ¬ R.near ((19 / 20 : ℚ) : ℝ) < 1 := by simpa using hh
    rw [le_antisymm hle (not_lt.mp this)]

theorem scal_ne (i : Fin 1) : feq ((outIn R (O := O)).scaling i) (lit 0) = false := by
  rw [feq_iff (vScal i) v0]; norm_num

theorem vSg (i : Fin 1) : ((outIn R (O := O)).prob.sg i).val = .fin (-26620 / 32 / 18446744073709551616) := by
  show (sdot _ _ i : Dbl R).val = _
  unfold sdot
  rw [scal_ne, if_neg (by simp), v_mul (vScal i) (show ((outIn R (O := O)).g i).val = _ from vG) ⟨-26620, -69, by norm_num, by norm_num, by norm_num, by norm_num⟩]
  norm_num

theorem vSh (i j : Fin 1) : ((outIn R (O := O)).prob.shess i j).val = .fin (1331 / 18446744073709551616) := by
  have hij : i = j := Subsingleton.elim _ _
  subst hij
  unfold Prob.shess
  simp only
  have h : ((outIn R (O := O)).prob.scaling i) = (outIn R (O := O)).scaling i := rfl
  rw [h, scal_ne]
  simp only [Bool.false_eq_true, if_false, if_true]
  have h1 : ((outIn R (O := O)).scaling i * (outIn R (O := O)).prob.hess i i).val = .fin (-3168 / 18446744073709551616) := by
    rw [v_mul (vScal i) (show ((outIn R (O := O)).prob.hess i i).val = _ from vH) ⟨-3168, -64, by norm_num, by norm_num, by norm_num, by norm_num⟩]
    norm_num
  have h2 : ((outIn R (O := O)).scaling i * (outIn R (O := O)).prob.hess i i * (outIn R (O := O)).scaling i).val = .fin (-1089 / 18446744073709551616) := by
    rw [v_mul h1 (vScal i) ⟨-1089, -64, by norm_num, by norm_num, by norm_num, by norm_num⟩]
    norm_num
  have h3 : ((outIn R (O := O)).prob.gDscaling i).val = .fin (2420 / 18446744073709551616) := by
    show (FloatOps.abs (outG R) * affineDv (outEnv R O).lb (outEnv R O).ub (fun _ => outG R) i).val = _
    have ha : (FloatOps.abs (outG R)).val = .fin (2420 / 18446744073709551616) := by rw [v_abs vG]; norm_num
    rw [v_mul ha (vDv i) ⟨2420, -64, by norm_num, by norm_num, by norm_num, by norm_num⟩]
    norm_num
  rw [v_add h2 h3 ⟨1331, -64, by norm_num, by norm_num, by norm_num, by norm_num⟩]
  norm_num

variable (R O) in
/-- the column of the subspace -/
def outCol : Vec (Dbl R) 1 := fun i => -(outIn R (O := O)).prob.sg i / (outIn R (O := O)).prob.shess i i

theorem vCol (i : Fin 1) : (outCol R O i).val = .fin (5 / 8) := by
  unfold outCol
  rw [v_div (v_neg (vSg i)) (vSh i i) (by norm_num) ⟨5, -3, by norm_num, by norm_num, by norm_num, by norm_num⟩]
  norm_num

theorem vSol : (solve1d (outIn R (O := O)).prob.shess (outIn R (O := O)).prob.sg (outCol R O) (outIn R (O := O)).prob.delta vzero).val = .fin 1 := by
  have hz : ∀ i : Fin 1, ((vzero : Vec (Dbl R) 1) i).val = .fin 0 := fun _ => v0
  have hd : ((outIn R (O := O)).prob.delta).val = .fin 1 := v1'
  unfold solve1d
  rw [feq_iff hd v0, if_neg (by norm_num)]
  rw [if_neg (by
    simp only [decide_eq_true_eq, not_forall]
    exact ⟨0, by rw [feq_iff (vCol 0) v0]; norm_num⟩)]
  simp only [dot_one, mulVec_one, norm_one, vadd, vsmul]
  have h1 : ((outIn R (O := O)).prob.shess 0 0 * outCol R O 0).val = .fin (6655 / 8 / 18446744073709551616) := by
    rw [v_mul (vSh 0 0) (vCol 0) ⟨6655, -67, by norm_num, by norm_num, by norm_num, by norm_num⟩]; norm_num
  have h2 : ((outIn R (O := O)).prob.shess 0 0 * outCol R O 0 * outCol R O 0).val = .fin (33275 / 64 / 18446744073709551616) := by
    rw [v_mul h1 (vCol 0) ⟨33275, -70, by norm_num, by norm_num, by norm_num, by norm_num⟩]; norm_num
  have h3 : ((lit (1 / 2) : Dbl R) * ((outIn R (O := O)).prob.shess 0 0 * outCol R O 0 * outCol R O 0)).val = .fin (33275 / 128 / 18446744073709551616) := by
    rw [v_mul vhalf h2 ⟨33275, -71, by norm_num, by norm_num, by norm_num, by norm_num⟩]; norm_num
  have h4 : ((outIn R (O := O)).prob.shess 0 0 * (vzero : Vec (Dbl R) 1) 0).val = .fin 0 := by
    rw [v_mul (vSh 0 0) (hz 0) (by rw [mul_zero]; exact isB64_zero), mul_zero]
  have h5 : ((outIn R (O := O)).prob.shess 0 0 * (vzero : Vec (Dbl R) 1) 0 + (outIn R (O := O)).prob.sg 0).val = .fin (-26620 / 32 / 18446744073709551616) := by
    rw [v_add h4 (vSg 0) ⟨-26620, -69, by norm_num, by norm_num, by norm_num, by norm_num⟩, zero_add]
  have h6 : (outCol R O 0 * ((outIn R (O := O)).prob.shess 0 0 * (vzero : Vec (Dbl R) 1) 0 + (outIn R (O := O)).prob.sg 0)).val = .fin (-33275 / 64 / 18446744073709551616) := by
    rw [v_mul (vCol 0) h5 ⟨-33275, -70, by norm_num, by norm_num, by norm_num, by norm_num⟩]; norm_num
  have h7 : ((lit 2 : Dbl R) * ((lit (1 / 2) : Dbl R) * ((outIn R (O := O)).prob.shess 0 0 * outCol R O 0 * outCol R O 0))).val = .fin (33275 / 64 / 18446744073709551616) := by
    rw [v_mul v2 h3 ⟨33275, -70, by norm_num, by norm_num, by norm_num, by norm_num⟩]; norm_num
  have h8 : (-(outCol R O 0 * ((outIn R (O := O)).prob.shess 0 0 * (vzero : Vec (Dbl R) 1) 0 + (outIn R (O := O)).prob.sg 0)) /
      ((lit 2 : Dbl R) * ((lit (1 / 2) : Dbl R) * ((outIn R (O := O)).prob.shess 0 0 * outCol R O 0 * outCol R O 0)))).val = .fin 1 := by
    rw [v_div (v_neg h6) h7 (by norm_num) ⟨1, 0, by norm_num, by norm_num, by norm_num, by norm_num⟩]; norm_num
  generalize hq : (-(outCol R O 0 * ((outIn R (O := O)).prob.shess 0 0 * (vzero : Vec (Dbl R) 1) 0 + (outIn R (O := O)).prob.sg 0)) /
      ((lit 2 : Dbl R) * ((lit (1 / 2) : Dbl R) * ((outIn R (O := O)).prob.shess 0 0 * outCol R O 0 * outCol R O 0)))) = q at h8 ⊢
  have h9 : (q * outCol R O 0 + (vzero : Vec (Dbl R) 1) 0).val = .fin (5 / 8) := by
    have : (q * outCol R O 0).val = .fin (5 / 8) := by
      rw [v_mul h8 (vCol 0) ⟨5, -3, by norm_num, by norm_num, by norm_num, by norm_num⟩]; norm_num
    rw [v_add this (hz 0) ⟨5, -3, by norm_num, by norm_num, by norm_num, by norm_num⟩, add_zero]
  have h10 : ((q * outCol R O 0 + (vzero : Vec (Dbl R) 1) 0) * (q * outCol R O 0 + (vzero : Vec (Dbl R) 1) 0)).val = .fin (25 / 64) := by
    rw [v_mul h9 h9 ⟨25, -6, by norm_num, by norm_num, by norm_num, by norm_num⟩]; norm_num
  have hs : Real.sqrt (25 / 64) = 5 / 8 := by
    rw [show (25 / 64 : ℝ) = (5 / 8) ^ 2 by norm_num, Real.sqrt_sq (by norm_num)]
  have h11 : (FloatOps.sqrt ((q * outCol R O 0 + (vzero : Vec (Dbl R) 1) 0) * (q * outCol R O 0 + (vzero : Vec (Dbl R) 1) 0))).val = .fin (5 / 8) := by
    rw [v_sqrt h10 (by norm_num) (by rw [hs]; exact ⟨5, -3, by norm_num, by norm_num, by norm_num, by norm_num⟩), hs]
  rw [lt_iff v0 h3, le_iff h11 hd, if_pos (by norm_num)]
  rw [v_mul h8 v1' (by rw [mul_one]; exact ⟨1, 0, by norm_num, by norm_num, by norm_num, by norm_num⟩), mul_one]


/-- the coefficient rounded: 0.55 becomes 4953959590107546 / 2^53 -/
theorem near_alpha : R.near (121 / 1024 / (55 / 256)) = 4953959590107546 / 9007199254740992 := by
  have := R.near_eq (121 / 1024 / (55 / 256)) 4953959590107546 (-53) (by norm_num)
    ⟨4953959590107546, -53, by norm_num, by norm_num, by norm_num, rfl⟩ (by rw [abs_of_nonpos] <;> norm_num)
  rw [this]; norm_num

/-- the step rounded: above 121/1024 -/
theorem near_step : R.near (55 / 256 * (4953959590107546 / 9007199254740992)) = 121 / 1024 + 1 / 72057594037927936 := by
  have := R.near_eq (55 / 256 * (4953959590107546 / 9007199254740992)) 8514618045497345 (-56) (by norm_num)
    ⟨8514618045497345, -56, by norm_num, by norm_num, by norm_num, rfl⟩ (by rw [abs_of_nonpos] <;> norm_num)
  rw [this]; norm_num

theorem isB64_step : IsB64 (121 / 1024 + 1 / 72057594037927936) :=
  ⟨8514618045497345, -56, by norm_num, by norm_num, by norm_num, by norm_num⟩

theorem rd_frac (r : ℝ) (h : |r| ≤ 1) : rd R (.fin r) = .fin (R.near r) := v_rd (lt_of_le_of_lt h overflow_big)

/-- the proposal -/
theorem out_tr (hO : Returning R O) : ∃ step, trustRegion O 10 .two .reflect (outIn R (O := O)) = .ok step ∧
    (∀ i, (step.s i).val = .fin (121 / 1024 + 1 / 72057594037927936)) ∧ (∀ i, (step.s0 i).val = .fin 0) ∧
    (∀ i, (step.ss0 i).val = .fin 0) ∧ (∃ r : ℝ, (∀ i, (step.ss i).val = .fin r)) ∧
    ∃ q : ℝ, step.qpval.val = .fin q ∧ -1 ≤ q ∧ q < 0 := by
  obtain ⟨hO1, hO2⟩ := hO
  obtain ⟨newt, hn⟩ := hO1 (outIn R (O := O)).prob.shess (outIn R (O := O)).prob.sg
  obtain ⟨⟨re, ab, vv⟩, he⟩ := hO2 (outIn R (O := O)).prob.shess
  obtain ⟨pd, hsub⟩ : ∃ pd, subspace2d O (outIn R (O := O)).prob = .ok ([outCol R O], pd, none) := by
    simp only [subspace2d, hn, he, if_true]
    exact ⟨_, rfl⟩
  set sol := solve1d (outIn R (O := O)).prob.shess (outIn R (O := O)).prob.sg (outCol R O) (outIn R (O := O)).prob.delta vzero with hsol
  have vsol : sol.val = .fin 1 := vSol
  have hss : ∀ i, (subDot [outCol R O] [sol] i).val = .fin (5 / 8) := by
    intro i
    show (FloatOps.sum [outCol R O i * sol] : Dbl R).val = _
    rw [sum_one, v_mul (vCol i) vsol ⟨5, -3, by norm_num, by norm_num, by norm_num, by norm_num⟩]; norm_num
  have hs : ∀ i, (sdot (outIn R (O := O)).prob.scaling (subDot [outCol R O] [sol]) i).val = .fin (55 / 256) := by
    intro i
    show (sdot (outIn R (O := O)).scaling (subDot [outCol R O] [sol]) i).val = _
    unfold sdot
    rw [scal_ne, if_neg (by simp), v_mul (vScal i) (hss i) ⟨55, -8, by norm_num, by norm_num, by norm_num, by norm_num⟩]
    norm_num
  set ss := subDot [outCol R O] [sol] with hssdef
  set s := sdot (outIn R (O := O)).prob.scaling ss with hsdef
  set br : Vec (Dbl R) 1 := fun i => if lt (lit 0) (FloatOps.abs (s i)) then
      npMax2 (((outIn R (O := O)).prob.ub i - (outIn R (O := O)).prob.x i) / s i) (((outIn R (O := O)).prob.lb i - (outIn R (O := O)).prob.x i) / s i)
      else FloatOps.inf with hbr
  have vbr : ∀ i, (br i).val = .fin (4953959590107546 / 9007199254740992) := by
    intro i
    have hu : (((outIn R (O := O)).prob.ub i - (outIn R (O := O)).prob.x i) / s i).val = .fin (4953959590107546 / 9007199254740992) := by
      have h1 : ((outIn R (O := O)).prob.ub i - (outIn R (O := O)).prob.x i).val = .fin (121 / 1024) := by
        rw [v_sub (show ((outIn R (O := O)).prob.ub i).val = _ from vU) (show ((outIn R (O := O)).prob.x i).val = _ from v0)
          ⟨121, -10, by norm_num, by norm_num, by norm_num, by norm_num⟩, sub_zero]
      rw [val_div _ _ (by rw [hs i]; norm_num), h1, hs i, fin_div _ _ (by norm_num), rd_frac _ (by rw [abs_of_pos] <;> norm_num), near_alpha]
    have hl : (((outIn R (O := O)).prob.lb i - (outIn R (O := O)).prob.x i) / s i).val = .ninf := by
      have h1 : ((outIn R (O := O)).prob.lb i - (outIn R (O := O)).prob.x i).val = .ninf := by
        rw [val_sub, show ((outIn R (O := O)).prob.x i).val = .fin 0 from v0]
        rfl
      rw [val_div _ _ (by rw [hs i]; norm_num), h1, hs i, ninf_div_fin]
      norm_num
      rfl
    show (if lt (lit 0) (FloatOps.abs (s i)) then npMax2 _ _ else FloatOps.inf : Dbl R).val = _
    rw [lt_iff v0 (v_abs (hs i)), if_pos (by norm_num)]
    unfold npMax2
    rw [if_neg (by rw [nn hu]; simp), if_neg (by rw [isNaN_def, hl]; simp [isNaN]), if_neg (by rw [lt_def, hu, hl]; simp), hu]
  have vmb : (vmin br).val = .fin (4953959590107546 / 9007199254740992) := by
    rw [vmin_one _ (nn (vbr 0)) (by rw [vbr 0]; simp), vbr 0]
  have vth : ((outIn R (O := O)).prob.theta).val = .fin 1 := vTheta
  have vtm : ((outIn R (O := O)).prob.theta * vmin br).val = .fin (4953959590107546 / 9007199254740992) := by
    rw [v_mul vth vmb (by rw [one_mul]; exact ⟨4953959590107546, -53, by norm_num, by norm_num, by norm_num, by norm_num⟩), one_mul]
  have val' : (npMin2 (lit 1) ((outIn R (O := O)).prob.theta * vmin br)).val = .fin (4953959590107546 / 9007199254740992) := by
    unfold npMin2
    rw [if_neg (by rw [nn v1']; simp), if_neg (by rw [nn vtm]; simp), lt_iff vtm v1', if_pos (by norm_num), vtm]
  set alpha := npMin2 (lit 1) ((outIn R (O := O)).prob.theta * vmin br) with halpha
  have vs : ∀ i, (s i * alpha).val = .fin (121 / 1024 + 1 / 72057594037927936) := by
    intro i
    rw [val_mul, hs i, val', fin_mul, rd_frac _ (by rw [abs_of_pos] <;> norm_num), near_step]
  -- the scaled step lies in [1/4, 1/2]
  obtain ⟨r, hr, hr1, hr2⟩ : ∃ r : ℝ, (∀ i, (ss i * alpha).val = .fin r) ∧ 1 / 4 ≤ r ∧ r ≤ 1 / 2 := by
    refine ⟨R.near (5 / 8 * (4953959590107546 / 9007199254740992)), fun i => ?_, ?_, ?_⟩
    · rw [val_mul, hss i, val', fin_mul, rd_frac _ (by rw [abs_of_pos] <;> norm_num)]
    · have := R.near_mono (show (1 / 4 : ℝ) ≤ 5 / 8 * (4953959590107546 / 9007199254740992) by norm_num)
      rwa [R.near_self (x := 1 / 4) ⟨1, -2, by norm_num, by norm_num, by norm_num, by norm_num⟩] at this
    · have := R.near_mono (show 5 / 8 * (4953959590107546 / 9007199254740992) ≤ (1 / 2 : ℝ) by norm_num)
      rwa [R.near_self (x := 1 / 2) ⟨1, -1, by norm_num, by norm_num, by norm_num, by norm_num⟩] at this
  have hrb : IsB64 r := (val_mem _ _ (hr 0)).1
  have hz : ∀ i : Fin 1, ((vzero : Vec (Dbl R) 1) i).val = .fin 0 := fun _ => v0
  have hx : ∀ i, (vadd (fun i => ss i * alpha) vzero i).val = .fin r := by
    intro i
    show (ss i * alpha + (vzero : Vec (Dbl R) 1) i).val = _
    rw [v_add (hr i) (hz i) (by rwa [add_zero]), add_zero]
  have hq : ∃ q : ℝ, (quadraticForm (outIn R (O := O)).prob.shess (outIn R (O := O)).prob.sg (vadd (fun i => ss i * alpha) vzero)).val = .fin q ∧ -1 ≤ q ∧ q < 0 := by
    unfold quadraticForm
    rw [dot_one, dot_one, vecMul_one]
    generalize vadd (fun i => ss i * alpha) vzero = w at hx
    have e1 : ∃ a : ℝ, (w 0 * (outIn R (O := O)).prob.shess 0 0).val = .fin a ∧ 0 ≤ a ∧ a ≤ 1331 / 2 / 18446744073709551616 := by
      refine ⟨R.near (r * (1331 / 18446744073709551616)), ?_, ?_, ?_⟩
      · rw [val_mul, hx 0, vSh 0 0, fin_mul, rd_frac _ (by rw [abs_of_nonneg] <;> nlinarith)]
      · have := R.near_mono (show (0 : ℝ) ≤ r * (1331 / 18446744073709551616) by nlinarith)
        rwa [R.near_zero] at this
      · have := R.near_mono (show r * (1331 / 18446744073709551616) ≤ (1331 / 2 / 18446744073709551616 : ℝ) by nlinarith)
        rwa [R.near_self (x := 1331 / 2 / 18446744073709551616) ⟨1331, -65, by norm_num, by norm_num, by norm_num, by norm_num⟩] at this
    obtain ⟨a, ha, ha1, ha2⟩ := e1
    have e2 : ∃ b : ℝ, (w 0 * (outIn R (O := O)).prob.shess 0 0 * w 0).val = .fin b ∧ 0 ≤ b ∧ b ≤ 1331 / 4 / 18446744073709551616 := by
      refine ⟨R.near (a * r), ?_, ?_, ?_⟩
      · rw [val_mul, ha, hx 0, fin_mul, rd_frac _ (by rw [abs_of_nonneg] <;> nlinarith)]
      · have := R.near_mono (show (0 : ℝ) ≤ a * r by nlinarith)
        rwa [R.near_zero] at this
      · have := R.near_mono (show a * r ≤ (1331 / 4 / 18446744073709551616 : ℝ) by nlinarith)
        rwa [R.near_self (x := 1331 / 4 / 18446744073709551616) ⟨1331, -66, by norm_num, by norm_num, by norm_num, by norm_num⟩] at this
    obtain ⟨b, hb, hb1, hb2⟩ := e2
    have e3 : ∃ c : ℝ, ((lit (1 / 2) : Dbl R) * (w 0 * (outIn R (O := O)).prob.shess 0 0 * w 0)).val = .fin c ∧ 0 ≤ c ∧ c ≤ 1331 / 8 / 18446744073709551616 := by
      refine ⟨R.near (1 / 2 * b), ?_, ?_, ?_⟩
      · rw [val_mul, vhalf, hb, fin_mul, rd_frac _ (by rw [abs_of_nonneg] <;> nlinarith)]
      · have := R.near_mono (show (0 : ℝ) ≤ 1 / 2 * b by nlinarith)
        rwa [R.near_zero] at this
      · have := R.near_mono (show 1 / 2 * b ≤ (1331 / 8 / 18446744073709551616 : ℝ) by nlinarith)
        rwa [R.near_self (x := 1331 / 8 / 18446744073709551616) ⟨1331, -67, by norm_num, by norm_num, by norm_num, by norm_num⟩] at this
    obtain ⟨c, hc, hc1, hc2⟩ := e3
    have e4 : ∃ d : ℝ, ((outIn R (O := O)).prob.sg 0 * w 0).val = .fin d ∧ d ≤ -26620 / 128 / 18446744073709551616 ∧ -1 / 2 ≤ d := by
      refine ⟨R.near (-26620 / 32 / 18446744073709551616 * r), ?_, ?_, ?_⟩
      · rw [val_mul, vSg 0, hx 0, fin_mul, rd_frac _ (by rw [abs_of_nonpos] <;> nlinarith)]
      · have := R.near_mono (show -26620 / 32 / 18446744073709551616 * r ≤ (-26620 / 128 / 18446744073709551616 : ℝ) by nlinarith)
        rwa [R.near_self (x := -26620 / 128 / 18446744073709551616) ⟨-26620, -71, by norm_num, by norm_num, by norm_num, by norm_num⟩] at this
      · have := R.near_mono (show (-1 / 2 : ℝ) ≤ -26620 / 32 / 18446744073709551616 * r by nlinarith)
        rwa [R.near_self (x := -1 / 2) ⟨-1, -1, by norm_num, by norm_num, by norm_num, by norm_num⟩] at this
    obtain ⟨d, hd, hd1, hd2⟩ := e4
    refine ⟨R.near (c + d), ?_, ?_, ?_⟩
    · rw [val_add, hc, hd, fin_add, rd_frac _ (by rw [abs_le]; constructor <;> linarith)]
    · have := R.near_mono (show (-1 : ℝ) ≤ c + d by linarith)
      rwa [R.near_self (x := -1) ⟨-1, 0, by norm_num, by norm_num, by norm_num, by norm_num⟩] at this
    · have := R.near_mono (show c + d ≤ (-1 / 18446744073709551616 : ℝ) by linarith)
      rw [R.near_self (x := -1 / 18446744073709551616) ⟨-1, -64, by norm_num, by norm_num, by norm_num, by norm_num⟩] at this
      linarith
  have hst : ∃ step, step2d O (outIn R (O := O)).prob = .ok step ∧ step.s = (fun i => s i * alpha) ∧ step.s0 = vzero ∧ step.ss0 = vzero ∧
      step.ss = (fun i => ss i * alpha) ∧
      step.qpval = quadraticForm (outIn R (O := O)).prob.shess (outIn R (O := O)).prob.sg (vadd (fun i => ss i * alpha) vzero) := by
    simp only [step2d, hsub, Step.calculate, Step.computeStep, Step.init, Step.stepBack]
    exact ⟨_, rfl, rfl, rfl, rfl, rfl, rfl⟩
  obtain ⟨step, h1, h2, h3, h4, h5, h6⟩ := hst
  refine ⟨step, ?_, ?_, ?_, ?_, ⟨r, ?_⟩, ?_⟩
  · simp [trustRegion, candidates, trStep, h1, argminGo]
  · rw [h2]; exact vs
  · rw [h3]; exact hz
  · rw [h4]; exact hz
  · rw [h5]; exact hr
  · rw [h6]; exact hq

/-! ### the run -/

theorem typed_d (f g h : Dbl R) (x : Vec (Dbl R) 1) (k : ℕ) :
    (RawOut.typed { fval := .scalar f, grad := .arr [1] [g], hess := .arr [1, 1] [h], res := .none, sres := .none } x k) =
      some { x := x, xId := k, fval := f, grad := fun _ => g, hess := some fun _ _ => h, res := none } := by
  simp only [RawOut.typed, PyVal.toVec?, PyVal.toMat?, RawOut.resData, if_true, and_self]
  congr 2
  · funext i; simp
  · congr 1; funext i j; simp

theorem vDeg : (degEps : Dbl R).val = .fin (100 / 4503599627370496) := by
  have h1 : (lit 100 : Dbl R).val = .fin 100 := by
    have := v_lit (R := R) 100 ⟨100, 0, by norm_num, by norm_num, by norm_num, by norm_num⟩
    rw [this]; norm_num
  have h2 : (spacing1 : Dbl R).val = .fin (1 / 4503599627370496) := by
    have := v_lit (R := R) (1 / 4503599627370496) ⟨1, -52, by norm_num, by norm_num, by norm_num, by norm_num⟩
    rw [spacing1, this]; norm_num
  rw [degEps, v_mul h1 h2 ⟨100, -52, by norm_num, by norm_num, by norm_num, by norm_num⟩]
  norm_num

theorem out_nudge : nudge (outEnv R O).lb (outEnv R O).ub vzero = vzero := by
  have h1 : (FloatOps.abs ((outEnv R O).ub 0 - (vzero : Vec (Dbl R) 1) 0)).val = .fin (121 / 1024) := by
    have := v_sub (show ((outEnv R O).ub 0).val = _ from vU) (show ((vzero : Vec (Dbl R) 1) 0).val = _ from v0)
          ⟨121, -10, by norm_num, by norm_num, by norm_num, by norm_num⟩
    rw [v_abs this]; norm_num
  have h2 : (FloatOps.abs ((vzero : Vec (Dbl R) 1) 0 - (outEnv R O).lb 0)).val = .pinf := by
    rw [val_abs, val_sub, show ((vzero : Vec (Dbl R) 1) 0).val = .fin 0 from v0]
    rfl
  have hm2 : (vmin fun i => FloatOps.abs ((vzero : Vec (Dbl R) 1) i - (outEnv R O).lb i)).val = .pinf := by
    rw [vmin, List.ofFn_succ, List.ofFn_zero]
    show (npMin2 FloatOps.inf (FloatOps.abs ((vzero : Vec (Dbl R) 1) 0 - (outEnv R O).lb 0))).val = _
    unfold npMin2
    split
    · rfl
    · split
      · exact h2
      · split
        · exact h2
        · rfl
  unfold nudge
  rw [if_neg]
  simp only [Bool.or_eq_true, not_or, Bool.not_eq_true]
  constructor
  · rw [vmin_one _ (nn h1) (by rw [h1]; simp), lt_iff h1 vDeg]; norm_num
  · rw [lt_def, hm2, vDeg]; rfl

theorem out_opts : (resolveOpts [] : Opts (Dbl R)) =
    { maxiter := 1000, maxtime := FloatOps.inf, fatol := lit (1 / 100000000), frtol := lit (1 / 100000000), xtol := lit 0,
      gatol := lit (1 / 1000000), grtol := lit 0, subspaceDim := .two, stepbackStrat := .reflect,
      thetaMax := lit (19 / 20), deltaInit := lit 1, mu := lit (1 / 4), eta := lit (3 / 4), gamma1 := lit (1 / 4),
      gamma2 := lit 2, history := false } := by
  simp [resolveOpts, getOption, defaultOption, RawVal.toF, RawVal.toInt, RawVal.toSubspace, RawVal.toStepback, RawVal.truthy]

variable (R) in
/-- the evaluation at 0 -/
def outFirst (k : ℕ) : Funout (Dbl R) 1 :=
  { x := vzero, xId := k, fval := lit 0, grad := fun _ => outG R, hess := some fun _ _ => outH R, res := none }
variable (R) in
/-- the evaluation of a point above 0 -/
def outTrial (x : Vec (Dbl R) 1) (k : ℕ) : Funout (Dbl R) 1 :=
  { x := x, xId := k, fval := lit (-1), grad := fun _ => lit 0, hess := some fun _ _ => lit 0, res := none }

variable (R O) in
def outStart (st0 : St (Dbl R) 1) : St (Dbl R) 1 := startState (outEnv R O) vzero "run" st0
variable (R O) in
def outHead (st0 : St (Dbl R) 1) : St (Dbl R) 1 :=
  { setupState (outStart R O st0) (outFirst R (outStart R O st0).xId) none with converged := false }

theorem out_inBounds : inBounds (outEnv R O).lb (outEnv R O).ub vzero = true := by
  have hz : ∀ i : Fin 1, ((vzero : Vec (Dbl R) 1) i).val = .fin 0 := fun _ => v0
  unfold inBounds
  simp only [Bool.and_eq_true, decide_eq_true_eq]
  constructor
  · intro i
    have h1 : ((outEnv R O).ub i - (vzero : Vec (Dbl R) 1) i).val = .fin (121 / 1024) := by
      have := v_sub (show ((outEnv R O).ub i).val = _ from vU) (hz i) ⟨121, -10, by norm_num, by norm_num, by norm_num, by norm_num⟩
      rw [this]; norm_num
    have h2 := v_mul (R := R) val_lit_neg_one h1 ⟨-121, -10, by norm_num, by norm_num, by norm_num, by norm_num⟩
    rw [le_iff h2 v0]; norm_num
  · intro i
    have h1 : ((outEnv R O).lb i - (vzero : Vec (Dbl R) 1) i).val = .ninf := by
      rw [val_sub, hz i]; rfl
    rw [le_def, val_mul, h1, val_lit_one, v0]
    have : (Num.fin 1 * Num.ninf : Num) = .ninf := by rw [fin_mul_ninf, infSign_pos one_pos]; rfl
    rw [this]; rfl

theorem out_start (st0 : St (Dbl R) 1) (hh : st0.happ = none) :
    LoopHead (outEnv R O) vzero "run" .hessStr st0 0 (outHead R O st0) (outFirst R (outStart R O st0).xId) := by
  have hx : (outStart R O st0).x = vzero := out_nudge
  refine LoopHead.start (outStart R O st0) _ _ ?_ ?_
  · show checkInBounds _ (outStart R O st0).x _ = _
    rw [hx, checkInBounds, if_pos out_inBounds]; rfl
  · refine setup_forward _ _ _ { fval := .scalar (lit 0), grad := .arr [1] [outG R], hess := .arr [1, 1] [outH R], res := .none, sres := .none } _ _ ?_ ?_ ?_ ?_ ?_
    · have : lt (lit 0 : Dbl R) ((vzero : Vec (Dbl R) 1) 0) = false := by
        rw [lt_iff v0 (show ((vzero : Vec (Dbl R) 1) 0).val = _ from v0)]; norm_num
      rw [hx]; simp [outEnv, funEval, this]
    · have : (outStart R O st0).happ = none := hh
      rw [this]; rfl
    · rfl
    · rw [hx, typed_d]; rfl
    · simp only [outFirst, allFinite, vfinite, mfinite, ff (R := R) v0, ff (R := R) vG, ff (R := R) vH]
      simp

theorem outHead_eq (st0 : St (Dbl R) 1) : ∃ a b c d, outHead R O st0 =
    { outStart R O st0 with
      fval := lit 0, grad := fun _ => outG R, happ := none, hess := fun _ _ => outH R, xMin := a, xMinId := b, fvalMin := c, gradMin := d,
      converged := false, evals := { arg := vzero, out := .ok (outFirst R (outStart R O st0).xId) } :: st0.evals } := by
  obtain ⟨a, b, c, d, h⟩ := setupState_frame (outStart R O st0) (outFirst R (outStart R O st0).xId) none
  refine ⟨a, b, c, d, ?_⟩
  unfold outHead
  rw [h]
  have hx : (outStart R O st0).x = vzero := out_nudge
  simp only [logStart, hx]
  rfl

variable (R O) in
def outPre (st0 : St (Dbl R) 1) : St (Dbl R) 1 := { outHead R O st0 with ticks := (outHead R O st0).ticks + 1 }

theorem out_frame (st0 : St (Dbl R) 1) : (outPre R O st0).fval = lit 0 ∧ (outPre R O st0).delta = lit 1 ∧ (outPre R O st0).x = vzero ∧
    (outPre R O st0).grad = (fun _ => outG R) ∧ (outPre R O st0).hess = (fun _ _ => outH R) ∧ (outPre R O st0).happ = none ∧
    (outPre R O st0).evals.length = st0.evals.length + 1 := by
  obtain ⟨a, b, c, d, h⟩ := outHead_eq (O := O) st0
  unfold outPre
  refine ⟨by rw [h], ?_, ?_, by rw [h], by rw [h], by rw [h], by rw [h]; rfl⟩
  · rw [h]; show (resolveOpts [] : Opts (Dbl R)).deltaInit = _; rw [out_opts]
  · rw [h]; exact out_nudge

theorem out_continue (st0 : St (Dbl R) 1) : checkContinue (outEnv R O) (outHead R O st0) = (true, outPre R O st0) := by
  obtain ⟨a, b, c, d, h⟩ := outHead_eq (O := O) st0
  have h1 : (outHead R O st0).converged = false := by rw [h]
  have h2 : (outHead R O st0).iteration = 0 := by rw [h]; rfl
  have h3 : (outHead R O st0).delta = lit 1 := (out_frame st0).2.1
  have h4 : (outHead R O st0).starttime = lit 0 := by rw [h]; rfl
  have hm : (outEnv R O).opts.maxtime = FloatOps.inf := by show (resolveOpts [] : Opts (Dbl R)).maxtime = _; rw [out_opts]
  have hi : (outEnv R O).opts.maxiter = 1000 := by show (resolveOpts [] : Opts (Dbl R)).maxiter = _; rw [out_opts]
  have hck : ∀ k, (outEnv R O).clock k = lit 0 := fun _ => rfl
  have e1 : ((lit 0 : Dbl R) - lit 0).val = .fin 0 := by
    rw [v_sub v0 v0 (by rw [sub_zero]; exact isB64_zero), sub_zero]
  have e2 : (((lit 0 : Dbl R) - lit 0) / lit 1).val = .fin 0 := by
    rw [v_div e1 v1' one_ne_zero (by rw [zero_div]; exact isB64_zero), zero_div]
  have e3 : ((FloatOps.inf : Dbl R) - (lit 0 - lit 0)).val = .pinf := by
    rw [val_sub, e1]; rfl
  have e4 : (spacing1 : Dbl R).val = .fin (1 / 4503599627370496) := by
    have := v_lit (R := R) (1 / 4503599627370496) ⟨1, -52, by norm_num, by norm_num, by norm_num, by norm_num⟩
    rw [spacing1, this]; norm_num
  unfold checkContinue
  simp only [h1, h2, h3, h4, hm, hi, hck, Bool.false_eq_true, if_false, if_true, Nat.cast_one]
  rw [if_neg (by norm_num), if_neg (by rw [lt_def, e3, e2]; simp), if_neg (by rw [lt_iff v1' e4]; norm_num)]
  simp only [outPre, h1, h2, h3, h4]

theorem out_proposal (st0 : St (Dbl R) 1) : trInput (outEnv R O) (preIter (outPre R O st0)) = outIn R (O := O) := by
  obtain ⟨_, h2, h3, h4, h5, _⟩ := out_frame (O := O) st0
  have ht : (outEnv R O).opts.thetaMax = lit (19 / 20) := by show (resolveOpts [] : Opts (Dbl R)).thetaMax = _; rw [out_opts]
  unfold trInput outIn
  simp only [preIter, h2, h3, h4, h5, ht]

theorem rd_pos_of_ge {r : ℝ} (h : 1 ≤ r) : lt (.fin 0) (rd R (.fin r)) = true := by
  have h1 := rd_mono (R := R) (.fin 1) (.fin r) (by simpa using h)
  rw [rd_one] at h1
  cases hv : rd R (.fin r) with
  | fin q =>
    rw [hv] at h1
    simp only [fin_le, decide_eq_true_eq] at h1
    simp only [fin_lt, decide_eq_true_eq]
    linarith
  | pinf => rfl
  | ninf => rw [hv] at h1; cases h1
  | nan => rw [hv] at h1; cases h1

/-- the run ends with the error of the bounds check, after an evaluation outside the bounds -/
theorem out_run (hO : Returning R O) (st0 : St (Dbl R) 1) (hh : st0.happ = none) (fuel : ℕ) :
    ∃ st' q first, minimize (outEnv R O) (fuel + 1) vzero "run" .hessStr st0 = .error (.runtimeError, st') ∧
      st'.exitflag = .exceededBoundary ∧ st'.evals = q :: first :: st0.evals ∧
      (q.arg 0).val = .fin (121 / 1024 + 1 / 72057594037927936) := by
  obtain ⟨step, htr, hs, hs0, hss0, ⟨r, hss⟩, q, hq, hq1, hq2⟩ := out_tr hO
  obtain ⟨hf, hd, hx, hg, hhs, hhap, _⟩ := out_frame (O := O) st0
  have harg : ∀ i, (trialPoint (outPre R O st0) step i).val = .fin (121 / 1024 + 1 / 72057594037927936) := by
    intro i
    show ((outPre R O st0).x i + step.s i + step.s0 i).val = _
    rw [hx]
    have h1 : ((vzero : Vec (Dbl R) 1) i + step.s i).val = .fin (121 / 1024 + 1 / 72057594037927936) := by
      rw [v_add (show ((vzero : Vec (Dbl R) 1) i).val = _ from v0) (hs i) (by rw [zero_add]; exact isB64_step), zero_add]
    rw [v_add h1 (hs0 i) (by rw [add_zero]; exact isB64_step), add_zero]
  have hout : trialOut (outEnv R O) (outPre R O st0) step = .ok (outTrial R (trialPoint (outPre R O st0) step) (outPre R O st0).nextId) := by
    refine trialOut_forward _ _ _ { fval := .scalar (lit (-1)), grad := .arr [1] [lit 0], hess := .arr [1, 1] [lit 0], res := .none, sres := .none } _ ?_ ?_
    · have : lt (lit 0 : Dbl R) (trialPoint (outPre R O st0) step 0) = true := by
        rw [lt_iff v0 (harg 0)]; norm_num
      simp [outEnv, funEval, this]
    · rw [typed_d]; rfl
  have hfin : allFinite (outPre R O st0).fval (outPre R O st0).grad (some (outPre R O st0).hess) = true := by
    rw [hf, hg, hhs]
    simp only [allFinite, vfinite, mfinite, ff (R := R) v0, ff (R := R) vG, ff (R := R) vH]
    simp
  set new := outTrial R (trialPoint (outPre R O st0) step) (outPre R O st0).nextId with hnew
  have hfn : allFinite new.fval new.grad new.hess = true := by
    simp only [hnew, outTrial, allFinite, vfinite, mfinite, ff (R := R) v0, ff (R := R) val_lit_neg_one]
    simp
  have hdv : (trInput (outEnv R O) (preIter (outPre R O st0))).dv = affineDv (outEnv R O).lb (outEnv R O).ub (fun _ => outG R) := by
    rw [out_proposal]; rfl
  have hacc : (radiusStep (outEnv R O) (outPre R O st0) step new).1 = true := by
    unfold radiusStep updateTrRadius
    have hnf : isFinite new.fval = true := ff (R := R) val_lit_neg_one
    simp only [hnf, Bool.not_true, Bool.false_eq_true, if_false]
    have hrb : IsB64 r := (val_mem _ _ (hss 0)).1
    have e1 : (vadd step.ss step.ss0 0).val = .fin r := by
      show (step.ss 0 + step.ss0 0).val = _
      rw [v_add (hss 0) (hss0 0) (by rwa [add_zero]), add_zero]
    generalize vadd step.ss step.ss0 = w at e1 ⊢
    have e2 : ((lit (1 / 2) : Dbl R) * dot w (fun i => (trInput (outEnv R O) (preIter (outPre R O st0))).dv i * FloatOps.abs (new.grad i) * w i)).val = .fin 0 := by
      rw [dot_one, hdv]
      have a1 : (FloatOps.abs (new.grad 0)).val = .fin 0 := by
        rw [v_abs (show (new.grad 0).val = _ from v0), abs_zero]
      have a2 : (affineDv (outEnv R O).lb (outEnv R O).ub (fun _ => outG R) 0 * FloatOps.abs (new.grad 0)).val = .fin 0 := by
        rw [v_mul (vDv 0) a1 (by rw [mul_zero]; exact isB64_zero), mul_zero]
      have a3 : (affineDv (outEnv R O).lb (outEnv R O).ub (fun _ => outG R) 0 * FloatOps.abs (new.grad 0) * w 0).val = .fin 0 := by
        rw [v_mul a2 e1 (by rw [zero_mul]; exact isB64_zero), zero_mul]
      have a4 : (w 0 * (affineDv (outEnv R O).lb (outEnv R O).ub (fun _ => outG R) 0 * FloatOps.abs (new.grad 0) * w 0)).val = .fin 0 := by
        rw [v_mul e1 a3 (by rw [mul_zero]; exact isB64_zero), mul_zero]
      rw [v_mul vhalf a4 (by rw [mul_zero]; exact isB64_zero), mul_zero]
    have e3 : ((afterEval (outPre R O st0) step (.ok new)).fval - new.fval).val = .fin 1 := by
      rw [show (afterEval (outPre R O st0) step (.ok new)).fval = lit 0 from hf, show new.fval = lit (-1) from rfl]
      rw [v_sub v0 val_lit_neg_one (by norm_num; exact ⟨1, 0, by norm_num, by norm_num, by norm_num, by norm_num⟩)]
      norm_num
    have e4 := v_sub e3 e2 (by rw [sub_zero]; exact ⟨1, 0, by norm_num, by norm_num, by norm_num, by norm_num⟩)
    rw [le_iff (v_neg hq) v0, if_neg (by simpa using hq2)]
    rw [lt_def, v0, val_div _ _ (by rw [v_neg hq]; simpa using hq2.ne), e4, v_neg hq, fin_div _ _ (by simpa using hq2.ne)]
    apply rd_pos_of_ge
    rw [sub_zero, le_div_iff₀ (by linarith)]
    linarith
  have hib : inBounds (outEnv R O).lb (outEnv R O).ub new.x = false := by
    have hu : le (lit (-1) * ((outEnv R O).ub 0 - new.x 0)) (lit 0) = false := by
      have h1 : ((outEnv R O).ub 0 - new.x 0).val = .fin (-(1 / 72057594037927936)) := by
        have := v_sub (show ((outEnv R O).ub 0).val = _ from vU) (show (new.x 0).val = _ from harg 0)
          ⟨-1, -56, by norm_num, by norm_num, by norm_num, by norm_num⟩
        rw [this]; norm_num
      have h2 := v_mul (R := R) val_lit_neg_one h1 ⟨1, -56, by norm_num, by norm_num, by norm_num, by norm_num⟩
      rw [le_iff h2 v0]; norm_num
    unfold inBounds
    rw [Bool.and_eq_false_iff]
    left
    simp only [decide_eq_false_iff_not, not_forall]
    exact ⟨0, by rw [hu]; simp⟩
  obtain ⟨r', d', i', m', ef, c, mx, mxi, mf, mg, hpf⟩ := postCheck_frame (outEnv R O) (outPre R O st0) step new
  have hu : update (outEnv R O) step new (outFirst R (outStart R O st0).xId) (postCheck (outEnv R O) (outPre R O st0) step new) =
      .error (.runtimeError, { postCheck (outEnv R O) (outPre R O st0) step new with hess := fun _ _ => lit 0, exitflag := .exceededBoundary }) := by
    have hn : (postCheck (outEnv R O) (outPre R O st0) step new).happ = none := by rw [hpf]; exact hhap
    have hnh : new.hess = some fun _ _ => lit 0 := rfl
    unfold update
    simp only [hn, hnh, checkInBounds, hib, Bool.false_eq_true, if_false]
  have hit := iterate_accept_error (outEnv R O) (outPre R O st0) _ (outFirst R (outStart R O st0).xId) step new hfin
    (by rw [out_proposal]; exact htr) hout hfn hacc hu
  have hl := loop_raise (outEnv R O) fuel _ _ _ _ (out_continue st0) hit
  refine ⟨_, { arg := trialPoint (outPre R O st0) step, out := .ok new }, { arg := vzero, out := .ok (outFirst R (outStart R O st0).xId) },
    minimize_of_head' _ _ _ _ _ _ _ _ _ (by decide) (out_start st0 hh) _ hl, rfl, ?_, harg 0⟩
  · show (postCheck (outEnv R O) (outPre R O st0) step new).evals = _
    rw [hpf]
    show { arg := trialPoint (outPre R O st0) step, out := _ } :: (outPre R O st0).evals = _
    obtain ⟨a, b, c, d, h⟩ := outHead_eq (O := O) st0
    have : (outPre R O st0).evals = { arg := vzero, out := .ok (outFirst R (outStart R O st0).xId) } :: st0.evals := by unfold outPre; rw [h]
    rw [this]

end OutDemo
end
end Fides
