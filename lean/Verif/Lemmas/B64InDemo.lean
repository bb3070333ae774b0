import Verif.Lemmas.B64Demo

/-!
# A pass in double precision that starts within the bounds, used as witness

One variable, upper bound 1/4, default options, `x0 = 0`, gradient -1 and Hessian 0 there; the value at the trial point is NaN.
-/

open Classical

namespace Fides
open Num Spec

noncomputable section

variable (R : Rounding) (O : Oracles (Dbl R))

def innEnv : Env (Dbl R) 1 where
  lb _ := -FloatOps.inf
  ub _ := lit (1 / 4)
  opts := resolveOpts []
  nargout := 3
  resfun := false
  obj _ x := if lt (lit 0) (x 0) then .tuple [.scalar FloatOps.nan, .arr [1] [lit 0], .arr [1, 1] [lit 0]]
    else .tuple [.scalar (lit 0), .arr [1] [lit (-1)], .arr [1, 1] [lit 0]]
  clock _ := lit 0
  tr _ I := trustRegion O 10 .two .reflect I
  evs _ := .ok (lit 0, lit 0)
  cond _ := .ok (lit 1)

namespace InnDemo
variable {R} {O}
open Dbl OutDemo

theorem b1 : IsB64 1 := ⟨1, 0, by norm_num, by norm_num, by norm_num, by norm_num⟩
theorem bh : IsB64 (1 / 2) := ⟨1, -1, by norm_num, by norm_num, by norm_num, by norm_num⟩
theorem bq : IsB64 (1 / 4) := ⟨1, -2, by norm_num, by norm_num, by norm_num, by norm_num⟩
theorem bo : IsB64 (1 / 8) := ⟨1, -3, by norm_num, by norm_num, by norm_num, by norm_num⟩
theorem b32 : IsB64 (1 / 32) := ⟨1, -5, by norm_num, by norm_num, by norm_num, by norm_num⟩

theorem cong {a : Num} {r r' : ℝ} (h : a = .fin r) (e : r = r') : a = .fin r' := by rw [h, e]

theorem bn {r : ℝ} (h : IsB64 r) : IsB64 (-r) := by
  obtain ⟨m, e, h1, h2, h3, h4⟩ := h
  exact ⟨-m, e, by rwa [abs_neg], h2, h3, by rw [h4]; push_cast; ring⟩

theorem vU4 : (lit (1 / 4) : Dbl R).val = .fin (1 / 4) := by
  have := v_lit (R := R) (1 / 4) ⟨1, -2, by norm_num, by norm_num, by norm_num, by norm_num⟩
  rw [this]; norm_num

theorem vm1 : (lit (-1) : Dbl R).val = .fin (-1) := val_lit_neg_one

variable (R O) in
/-- the input of the first call of `trust_region` -/
def innIn : TRIn (Dbl R) 1 :=
  { x := vzero, g := fun _ => lit (-1), hess := fun _ _ => lit 0,
    scaling := fun i => FloatOps.sqrt (FloatOps.abs (affineV (innEnv R O).lb (innEnv R O).ub vzero (fun _ => lit (-1)) i)),
    delta := lit 1, dv := affineDv (innEnv R O).lb (innEnv R O).ub (fun _ => lit (-1)),
    theta := thetaOf (lit (19 / 20)) (affineV (innEnv R O).lb (innEnv R O).ub vzero (fun _ => lit (-1))) (fun _ => lit (-1)),
    lb := (innEnv R O).lb, ub := (innEnv R O).ub }

theorem gneg1 : lt (lit (-1) : Dbl R) (lit 0) = true := by rw [lt_iff vm1 v0]; norm_num

theorem vV (i : Fin 1) : (affineV (innEnv R O).lb (innEnv R O).ub vzero (fun _ => lit (-1)) i).val = .fin (-(1 / 4)) := by
  unfold affineV
  simp only [gneg1, if_true]
  rw [show (innEnv R O).ub i = lit (1 / 4) from rfl, if_pos (ff vU4)]
  exact cong (v_sub (show ((vzero : Vec (Dbl R) 1) i).val = _ from v0) vU4 (by rw [zero_sub]; exact bn bq)) (by ring)

theorem vDv (i : Fin 1) : (affineDv (innEnv R O).lb (innEnv R O).ub (fun _ => lit (-1)) i).val = .fin 1 := by
  unfold affineDv
  simp only [gneg1, if_true]
  rw [show (innEnv R O).ub i = lit (1 / 4) from rfl, if_pos (ff vU4)]
  exact v1'

theorem sqrt_q : Real.sqrt (1 / 4) = 1 / 2 := by
  rw [show (1 / 4 : ℝ) = (1 / 2) ^ 2 by norm_num, Real.sqrt_sq (by norm_num)]

theorem vScal (i : Fin 1) : ((innIn R O).scaling i).val = .fin (1 / 2) := by
  show (FloatOps.sqrt (FloatOps.abs (affineV (innEnv R O).lb (innEnv R O).ub vzero (fun _ => lit (-1)) i))).val = _
  have h : (FloatOps.abs (affineV (innEnv R O).lb (innEnv R O).ub vzero (fun _ => lit (-1)) i)).val = .fin (1 / 4) := by
    rw [v_abs (vV i)]; norm_num
  rw [v_sqrt h (by norm_num) (by rw [sqrt_q]; exact bh), sqrt_q]

variable (R) in
/-- 0.95 rounded -/
def th95 : ℝ := R.near ((19 / 20 : ℚ) : ℝ)

theorem th_lo : 3 / 4 ≤ th95 R := by
  have := R.near_mono (show (3 / 4 : ℝ) ≤ ((19 / 20 : ℚ) : ℝ) by norm_num)
  rwa [R.near_self (x := 3 / 4) ⟨3, -2, by norm_num, by norm_num, by norm_num, by norm_num⟩] at this
theorem th_hi : th95 R ≤ 31 / 32 := by
  have := R.near_mono (show ((19 / 20 : ℚ) : ℝ) ≤ (31 / 32 : ℝ) by norm_num)
  rwa [R.near_self (x := 31 / 32) ⟨31, -5, by norm_num, by norm_num, by norm_num, by norm_num⟩] at this

theorem vth : (lit (19 / 20) : Dbl R).val = .fin (th95 R) := by
  rw [val_lit, v_rd (lt_trans (show |((19 / 20 : ℚ) : ℝ)| < 1 by rw [abs_of_pos] <;> norm_num) overflow_big)]; rfl

theorem vTheta : ((innIn R O).theta).val = .fin (th95 R) := by
  show (thetaOf _ _ _ : Dbl R).val = _
  unfold thetaOf
  set v := affineV (innEnv R O).lb (innEnv R O).ub vzero (fun _ => lit (-1))
  have hp : (v 0 * lit (-1)).val = .fin (1 / 4) :=
    cong (v_mul (vV 0) vm1 (by norm_num; simpa using bq)) (by ring)
  have hni : (normInf fun i => v i * lit (-1)).val = .fin (1 / 4) := by
    rw [normInf, List.ofFn_succ, List.ofFn_zero]
    show (npMax2 (lit 0) (FloatOps.abs (v 0 * lit (-1)))).val = _
    have ha := v_abs hp
    unfold npMax2
    rw [if_neg (by rw [nn v0]; simp), if_neg (by rw [nn ha]; simp), lt_iff v0 ha, if_pos (by norm_num), ha]
    norm_num
  have h1 : (lit 1 - normInf fun i => v i * lit (-1) : Dbl R).val = .fin (3 / 4) :=
    cong (v_sub v1' hni ⟨3, -2, by norm_num, by norm_num, by norm_num, by norm_num⟩) (by norm_num)
  unfold pyMax
  rw [lt_iff vth h1, if_neg (by simpa using th_lo), vth]

theorem scal_ne (i : Fin 1) : feq ((innIn R O).scaling i) (lit 0) = false := by
  rw [feq_iff (vScal i) v0]; norm_num

theorem vSg (i : Fin 1) : ((innIn R O).prob.sg i).val = .fin (-(1 / 2)) := by
  show (sdot _ _ i : Dbl R).val = _
  unfold sdot
  rw [scal_ne, if_neg (by simp)]
  exact cong (v_mul (vScal i) (show ((innIn R O).g i).val = _ from vm1) (by rw [mul_neg, mul_one]; exact bn bh)) (by ring)

theorem vSh (i j : Fin 1) : ((innIn R O).prob.shess i j).val = .fin 1 := by
  have hij : i = j := Subsingleton.elim _ _
  subst hij
  unfold Prob.shess
  simp only
  have h : ((innIn R O).prob.scaling i) = (innIn R O).scaling i := rfl
  rw [h, scal_ne]
  simp only [Bool.false_eq_true, if_false, if_true]
  have h1 : ((innIn R O).scaling i * (innIn R O).prob.hess i i).val = .fin 0 :=
    cong (v_mul (vScal i) (show ((innIn R O).prob.hess i i).val = _ from v0) (by rw [mul_zero]; exact isB64_zero)) (by ring)
  have h2 : ((innIn R O).scaling i * (innIn R O).prob.hess i i * (innIn R O).scaling i).val = .fin 0 :=
    cong (v_mul h1 (vScal i) (by rw [zero_mul]; exact isB64_zero)) (by ring)
  have h3 : ((innIn R O).prob.gDscaling i).val = .fin 1 := by
    show (FloatOps.abs (lit (-1)) * affineDv (innEnv R O).lb (innEnv R O).ub (fun _ => lit (-1)) i).val = _
    have ha : (FloatOps.abs (lit (-1) : Dbl R)).val = .fin 1 := by rw [v_abs vm1]; norm_num
    exact cong (v_mul ha (vDv i) (by rw [mul_one]; exact b1)) (by ring)
  exact cong (v_add h2 h3 (by rw [zero_add]; exact b1)) (by ring)

variable (R O) in
def innCol : Vec (Dbl R) 1 := fun i => -(innIn R O).prob.sg i / (innIn R O).prob.shess i i

theorem vCol (i : Fin 1) : (innCol R O i).val = .fin (1 / 2) := by
  unfold innCol
  exact cong (v_div (v_neg (vSg i)) (vSh i i) (by norm_num) (by norm_num; simpa using bh)) (by norm_num)

theorem vSol : (solve1d (innIn R O).prob.shess (innIn R O).prob.sg (innCol R O) (innIn R O).prob.delta vzero).val = .fin 1 := by
  have hz : ∀ i : Fin 1, ((vzero : Vec (Dbl R) 1) i).val = .fin 0 := fun _ => v0
  have hd : ((innIn R O).prob.delta).val = .fin 1 := v1'
  unfold solve1d
  rw [feq_iff hd v0, if_neg (by norm_num)]
  rw [if_neg (by
    simp only [decide_eq_true_eq, not_forall]
    exact ⟨0, by rw [feq_iff (vCol 0) v0]; norm_num⟩)]
  simp only [dot_one, mulVec_one, norm_one, vadd, vsmul]
  have h1 : ((innIn R O).prob.shess 0 0 * innCol R O 0).val = .fin (1 / 2) :=
    cong (v_mul (vSh 0 0) (vCol 0) (by rw [one_mul]; exact bh)) (by ring)
  have h2 : ((innIn R O).prob.shess 0 0 * innCol R O 0 * innCol R O 0).val = .fin (1 / 4) :=
    cong (v_mul h1 (vCol 0) (by norm_num; simpa using bq)) (by ring)
  have h3 : ((lit (1 / 2) : Dbl R) * ((innIn R O).prob.shess 0 0 * innCol R O 0 * innCol R O 0)).val = .fin (1 / 8) :=
    cong (v_mul vhalf h2 (by norm_num; simpa using bo)) (by ring)
  have h4 : ((innIn R O).prob.shess 0 0 * (vzero : Vec (Dbl R) 1) 0).val = .fin 0 :=
    cong (v_mul (vSh 0 0) (hz 0) (by rw [mul_zero]; exact isB64_zero)) (by ring)
  have h5 : ((innIn R O).prob.shess 0 0 * (vzero : Vec (Dbl R) 1) 0 + (innIn R O).prob.sg 0).val = .fin (-(1 / 2)) :=
    cong (v_add h4 (vSg 0) (by rw [zero_add]; exact bn bh)) (by ring)
  have h6 : (innCol R O 0 * ((innIn R O).prob.shess 0 0 * (vzero : Vec (Dbl R) 1) 0 + (innIn R O).prob.sg 0)).val = .fin (-(1 / 4)) :=
    cong (v_mul (vCol 0) h5 (by rw [show (1 / 2 * -(1 / 2) : ℝ) = -(1 / 4) by norm_num]; exact bn bq)) (by ring)
  have h7 : ((lit 2 : Dbl R) * ((lit (1 / 2) : Dbl R) * ((innIn R O).prob.shess 0 0 * innCol R O 0 * innCol R O 0))).val = .fin (1 / 4) :=
    cong (v_mul v2 h3 (by norm_num; simpa using bq)) (by ring)
  have h8 : (-(innCol R O 0 * ((innIn R O).prob.shess 0 0 * (vzero : Vec (Dbl R) 1) 0 + (innIn R O).prob.sg 0)) /
      ((lit 2 : Dbl R) * ((lit (1 / 2) : Dbl R) * ((innIn R O).prob.shess 0 0 * innCol R O 0 * innCol R O 0)))).val = .fin 1 :=
    cong (v_div (v_neg h6) h7 (by norm_num) (by norm_num; simpa using b1)) (by norm_num)
  generalize hq : (-(innCol R O 0 * ((innIn R O).prob.shess 0 0 * (vzero : Vec (Dbl R) 1) 0 + (innIn R O).prob.sg 0)) /
      ((lit 2 : Dbl R) * ((lit (1 / 2) : Dbl R) * ((innIn R O).prob.shess 0 0 * innCol R O 0 * innCol R O 0)))) = q at h8 ⊢
  have h9 : (q * innCol R O 0 + (vzero : Vec (Dbl R) 1) 0).val = .fin (1 / 2) := by
    have : (q * innCol R O 0).val = .fin (1 / 2) := cong (v_mul h8 (vCol 0) (by rw [one_mul]; exact bh)) (by ring)
    exact cong (v_add this (hz 0) (by rw [add_zero]; exact bh)) (by ring)
  have h10 : ((q * innCol R O 0 + (vzero : Vec (Dbl R) 1) 0) * (q * innCol R O 0 + (vzero : Vec (Dbl R) 1) 0)).val = .fin (1 / 4) :=
    cong (v_mul h9 h9 (by norm_num; simpa using bq)) (by norm_num)
  have h11 : (FloatOps.sqrt ((q * innCol R O 0 + (vzero : Vec (Dbl R) 1) 0) * (q * innCol R O 0 + (vzero : Vec (Dbl R) 1) 0))).val = .fin (1 / 2) := by
    rw [v_sqrt h10 (by norm_num) (by rw [sqrt_q]; exact bh), sqrt_q]
  rw [lt_iff v0 h3, le_iff h11 hd, if_pos (by norm_num)]
  exact cong (v_mul h8 v1' (by rw [mul_one]; exact b1)) (by ring)


/-- the proposal -/
theorem inn_tr (hO : Returning R O) : ∃ step, trustRegion O 10 .two .reflect (innIn R O) = .ok step ∧
    (∀ i, ∃ r : ℝ, (step.s i).val = .fin r ∧ 1 / 8 ≤ r ∧ r ≤ 1) ∧ (∀ i, (step.s0 i).val = .fin 0) ∧
    (∀ i, (step.ogS i).val = .fin (1 / 4)) ∧ step.alpha.val = .fin (th95 R) := by
  obtain ⟨hO1, hO2⟩ := hO
  obtain ⟨newt, hn⟩ := hO1 (innIn R O).prob.shess (innIn R O).prob.sg
  obtain ⟨⟨re, ab, vv⟩, he⟩ := hO2 (innIn R O).prob.shess
  obtain ⟨pd, hsub⟩ : ∃ pd, subspace2d O (innIn R O).prob = .ok ([innCol R O], pd, none) := by
    simp only [subspace2d, hn, he, if_true]
    exact ⟨_, rfl⟩
  set sol := solve1d (innIn R O).prob.shess (innIn R O).prob.sg (innCol R O) (innIn R O).prob.delta vzero with hsol
  have vsol : sol.val = .fin 1 := vSol
  have hss : ∀ i, (subDot [innCol R O] [sol] i).val = .fin (1 / 2) := by
    intro i
    show (FloatOps.sum [innCol R O i * sol] : Dbl R).val = _
    rw [sum_one]
    exact cong (v_mul (vCol i) vsol (by rw [mul_one]; exact bh)) (by ring)
  have hs : ∀ i, (sdot (innIn R O).prob.scaling (subDot [innCol R O] [sol]) i).val = .fin (1 / 4) := by
    intro i
    show (sdot (innIn R O).scaling (subDot [innCol R O] [sol]) i).val = _
    unfold sdot
    rw [scal_ne, if_neg (by simp)]
    exact cong (v_mul (vScal i) (hss i) (by norm_num; simpa using bq)) (by norm_num)
  set ss := subDot [innCol R O] [sol] with hssdef
  set s := sdot (innIn R O).prob.scaling ss with hsdef
  set br : Vec (Dbl R) 1 := fun i => if lt (lit 0) (FloatOps.abs (s i)) then
      npMax2 (((innIn R O).prob.ub i - (innIn R O).prob.x i) / s i) (((innIn R O).prob.lb i - (innIn R O).prob.x i) / s i)
      else FloatOps.inf with hbr
  have vbr : ∀ i, (br i).val = .fin 1 := by
    intro i
    have hu : (((innIn R O).prob.ub i - (innIn R O).prob.x i) / s i).val = .fin 1 := by
      have h1 : ((innIn R O).prob.ub i - (innIn R O).prob.x i).val = .fin (1 / 4) :=
        cong (v_sub (show ((innIn R O).prob.ub i).val = _ from vU4) (show ((innIn R O).prob.x i).val = _ from v0) (by rw [sub_zero]; exact bq)) (by ring)
      exact cong (v_div h1 (hs i) (by norm_num) (by norm_num; simpa using b1)) (by norm_num)
    have hl : (((innIn R O).prob.lb i - (innIn R O).prob.x i) / s i).val = .ninf := by
      have h1 : ((innIn R O).prob.lb i - (innIn R O).prob.x i).val = .ninf := by
        rw [val_sub, show ((innIn R O).prob.x i).val = .fin 0 from v0]
        rfl
      rw [val_div _ _ (by rw [hs i]; norm_num), h1, hs i, ninf_div_fin]
      norm_num
      rfl
    show (if lt (lit 0) (FloatOps.abs (s i)) then npMax2 _ _ else FloatOps.inf : Dbl R).val = _
    rw [lt_iff v0 (v_abs (hs i)), if_pos (by norm_num)]
    unfold npMax2
    rw [if_neg (by rw [nn hu]; simp), if_neg (by rw [isNaN_def, hl]; simp [isNaN]), if_neg (by rw [lt_def, hu, hl]; simp), hu]
  have vmb : (vmin br).val = .fin 1 := by
    rw [vmin_one _ (nn (vbr 0)) (by rw [vbr 0]; simp), vbr 0]
  have hb := (val_mem _ _ (vTheta (R := R) (O := O))).1
  have vtm : ((innIn R O).prob.theta * vmin br).val = .fin (th95 R) :=
    cong (v_mul (vTheta (R := R) (O := O)) vmb (by rw [mul_one]; exact hb)) (by ring)
  have val' : (npMin2 (lit 1) ((innIn R O).prob.theta * vmin br)).val = .fin (th95 R) := by
    unfold npMin2
    have := th_hi (R := R)
    rw [if_neg (by rw [nn v1']; simp), if_neg (by rw [nn vtm]; simp), lt_iff vtm v1', if_pos (by simp; linarith), vtm]
  set alpha := npMin2 (lit 1) ((innIn R O).prob.theta * vmin br) with halpha
  have vs : ∀ i, ∃ r : ℝ, (s i * alpha).val = .fin r ∧ 1 / 8 ≤ r ∧ r ≤ 1 := by
    intro i
    have h1 := th_hi (R := R)
    have h2 := th_lo (R := R)
    refine ⟨R.near (1 / 4 * th95 R), ?_, ?_, ?_⟩
    · rw [val_mul, hs i, val', fin_mul, rd_frac _ (by rw [abs_of_nonneg] <;> linarith)]
    · have := R.near_mono (show (1 / 8 : ℝ) ≤ 1 / 4 * th95 R by linarith)
      rwa [R.near_self bo] at this
    · have := R.near_mono (show 1 / 4 * th95 R ≤ (1 : ℝ) by linarith)
      rwa [R.near_self b1] at this
  have hst : ∃ step, step2d O (innIn R O).prob = .ok step ∧ step.s = (fun i => s i * alpha) ∧ step.s0 = vzero ∧ step.ogS = s ∧ step.alpha = alpha := by
    simp only [step2d, hsub, Step.calculate, Step.computeStep, Step.init, Step.stepBack]
    exact ⟨_, rfl, rfl, rfl, rfl, rfl⟩
  obtain ⟨step, h1, h2, h3, h4, h5⟩ := hst
  refine ⟨step, ?_, ?_, ?_, ?_, ?_⟩
  · simp [trustRegion, candidates, trStep, h1, argminGo]
  · rw [h2]; exact vs
  · rw [h3]; exact fun _ => v0
  · rw [h4]; exact hs
  · rw [h5]; exact val'

variable (R) in
def innFirst (k : ℕ) : Funout (Dbl R) 1 :=
  { x := vzero, xId := k, fval := lit 0, grad := fun _ => lit (-1), hess := some fun _ _ => lit 0, res := none }
variable (R) in
def innTrial (x : Vec (Dbl R) 1) (k : ℕ) : Funout (Dbl R) 1 :=
  { x := x, xId := k, fval := FloatOps.nan, grad := fun _ => lit 0, hess := some fun _ _ => lit 0, res := none }

variable (R O) in
def innStart (st0 : St (Dbl R) 1) : St (Dbl R) 1 := startState (innEnv R O) vzero "run" st0
variable (R O) in
def innHead (st0 : St (Dbl R) 1) : St (Dbl R) 1 :=
  { setupState (innStart R O st0) (innFirst R (innStart R O st0).xId) none with converged := false }

theorem inn_nudge : nudge (innEnv R O).lb (innEnv R O).ub vzero = vzero := by
  have h1 : (FloatOps.abs ((innEnv R O).ub 0 - (vzero : Vec (Dbl R) 1) 0)).val = .fin (1 / 4) := by
    have := v_sub (show ((innEnv R O).ub 0).val = _ from vU4) (show ((vzero : Vec (Dbl R) 1) 0).val = _ from v0) (by rw [sub_zero]; exact bq)
    rw [v_abs this]; norm_num
  have h2 : (FloatOps.abs ((vzero : Vec (Dbl R) 1) 0 - (innEnv R O).lb 0)).val = .pinf := by
    rw [val_abs, val_sub, show ((vzero : Vec (Dbl R) 1) 0).val = .fin 0 from v0]
    rfl
  have hm2 : (vmin fun i => FloatOps.abs ((vzero : Vec (Dbl R) 1) i - (innEnv R O).lb i)).val = .pinf := by
    rw [vmin, List.ofFn_succ, List.ofFn_zero]
    show (npMin2 FloatOps.inf (FloatOps.abs ((vzero : Vec (Dbl R) 1) 0 - (innEnv R O).lb 0))).val = _
    unfold npMin2
    split
    · rfl
    · split
      · exact h2
      · split
        · exact h2
        · rfl
  unfold nudge
  rw [if_neg]
  simp only [Bool.or_eq_true, not_or, Bool.not_eq_true]
  constructor
  · rw [vmin_one _ (nn h1) (by rw [h1]; simp), lt_iff h1 vDeg]; norm_num
  · rw [lt_def, hm2, vDeg]; rfl

theorem inn_inBounds : inBounds (innEnv R O).lb (innEnv R O).ub vzero = true := by
  have hz : ∀ i : Fin 1, ((vzero : Vec (Dbl R) 1) i).val = .fin 0 := fun _ => v0
  unfold inBounds
  simp only [Bool.and_eq_true, decide_eq_true_eq]
  constructor
  · intro i
    have h1 : ((innEnv R O).ub i - (vzero : Vec (Dbl R) 1) i).val = .fin (1 / 4) :=
      cong (v_sub (show ((innEnv R O).ub i).val = _ from vU4) (hz i) (by rw [sub_zero]; exact bq)) (by ring)
    have h2 := v_mul (R := R) val_lit_neg_one h1 (by rw [neg_one_mul]; exact bn bq)
    rw [le_iff h2 v0]; norm_num
  · intro i
    have h1 : ((innEnv R O).lb i - (vzero : Vec (Dbl R) 1) i).val = .ninf := by
      rw [val_sub, hz i]; rfl
    rw [le_def, val_mul, h1, val_lit_one, v0]
    have : (Num.fin 1 * Num.ninf : Num) = .ninf := by rw [fin_mul_ninf, infSign_pos one_pos]; rfl
    rw [this]; rfl

theorem inn_start (st0 : St (Dbl R) 1) (hh : st0.happ = none) :
    LoopHead (innEnv R O) vzero "run" .hessStr st0 0 (innHead R O st0) (innFirst R (innStart R O st0).xId) := by
  have hx : (innStart R O st0).x = vzero := inn_nudge
  refine LoopHead.start (innStart R O st0) _ _ ?_ ?_
  · show checkInBounds _ (innStart R O st0).x _ = _
    rw [hx, checkInBounds, if_pos inn_inBounds]; rfl
  · refine setup_forward _ _ _ { fval := .scalar (lit 0), grad := .arr [1] [lit (-1)], hess := .arr [1, 1] [lit 0], res := .none, sres := .none } _ _ ?_ ?_ ?_ ?_ ?_
    · have : lt (lit 0 : Dbl R) ((vzero : Vec (Dbl R) 1) 0) = false := by
        rw [lt_iff v0 (show ((vzero : Vec (Dbl R) 1) 0).val = _ from v0)]; norm_num
      rw [hx]; simp [innEnv, funEval, this]
    · have : (innStart R O st0).happ = none := hh
      rw [this]; rfl
    · rfl
    · rw [hx, typed_d]; rfl
    · simp only [innFirst, allFinite, vfinite, mfinite, ff (R := R) v0, ff (R := R) vm1]
      simp

theorem innHead_eq (st0 : St (Dbl R) 1) : ∃ a b c d, innHead R O st0 =
    { innStart R O st0 with
      fval := lit 0, grad := fun _ => lit (-1), happ := none, hess := fun _ _ => lit 0, xMin := a, xMinId := b, fvalMin := c, gradMin := d,
      converged := false, evals := { arg := vzero, out := .ok (innFirst R (innStart R O st0).xId) } :: st0.evals } := by
  obtain ⟨a, b, c, d, h⟩ := setupState_frame (innStart R O st0) (innFirst R (innStart R O st0).xId) none
  refine ⟨a, b, c, d, ?_⟩
  unfold innHead
  rw [h]
  have hx : (innStart R O st0).x = vzero := inn_nudge
  simp only [logStart, hx]
  rfl

variable (R O) in
def innPre (st0 : St (Dbl R) 1) : St (Dbl R) 1 := { innHead R O st0 with ticks := (innHead R O st0).ticks + 1 }

theorem inn_frame (st0 : St (Dbl R) 1) : (innPre R O st0).fval = lit 0 ∧ (innPre R O st0).delta = lit 1 ∧ (innPre R O st0).x = vzero ∧
    (innPre R O st0).grad = (fun _ => lit (-1)) ∧ (innPre R O st0).hess = (fun _ _ => lit 0) := by
  obtain ⟨a, b, c, d, h⟩ := innHead_eq (O := O) st0
  unfold innPre
  refine ⟨by rw [h], ?_, ?_, by rw [h], by rw [h]⟩
  · rw [h]; show (resolveOpts [] : Opts (Dbl R)).deltaInit = _; rw [out_opts]
  · rw [h]; exact inn_nudge

theorem inn_continue (st0 : St (Dbl R) 1) : checkContinue (innEnv R O) (innHead R O st0) = (true, innPre R O st0) := by
  obtain ⟨a, b, c, d, h⟩ := innHead_eq (O := O) st0
  have h1 : (innHead R O st0).converged = false := by rw [h]
  have h2 : (innHead R O st0).iteration = 0 := by rw [h]; rfl
  have h3 : (innHead R O st0).delta = lit 1 := (inn_frame st0).2.1
  have h4 : (innHead R O st0).starttime = lit 0 := by rw [h]; rfl
  have hm : (innEnv R O).opts.maxtime = FloatOps.inf := by show (resolveOpts [] : Opts (Dbl R)).maxtime = _; rw [out_opts]
  have hi : (innEnv R O).opts.maxiter = 1000 := by show (resolveOpts [] : Opts (Dbl R)).maxiter = _; rw [out_opts]
  have hck : ∀ k, (innEnv R O).clock k = lit 0 := fun _ => rfl
  have e1 : ((lit 0 : Dbl R) - lit 0).val = .fin 0 := by
    rw [v_sub v0 v0 (by rw [sub_zero]; exact isB64_zero), sub_zero]
  have e2 : (((lit 0 : Dbl R) - lit 0) / lit 1).val = .fin 0 := by
    rw [v_div e1 v1' one_ne_zero (by rw [zero_div]; exact isB64_zero), zero_div]
  have e3 : ((FloatOps.inf : Dbl R) - (lit 0 - lit 0)).val = .pinf := by
    rw [val_sub, e1]; rfl
  have e4 : (spacing1 : Dbl R).val = .fin (1 / 4503599627370496) := by
    have := v_lit (R := R) (1 / 4503599627370496) ⟨1, -52, by norm_num, by norm_num, by norm_num, by norm_num⟩
    rw [spacing1, this]; norm_num
  unfold checkContinue
  simp only [h1, h2, h3, h4, hm, hi, hck, Bool.false_eq_true, if_false, if_true, Nat.cast_one]
  rw [if_neg (by norm_num), if_neg (by rw [lt_def, e3, e2]; simp), if_neg (by rw [lt_iff v1' e4]; norm_num)]
  simp only [innPre, h1, h2, h3, h4]

theorem inn_proposal (st0 : St (Dbl R) 1) : trInput (innEnv R O) (preIter (innPre R O st0)) = innIn R O := by
  obtain ⟨_, h2, h3, h4, h5⟩ := inn_frame (O := O) st0
  have ht : (innEnv R O).opts.thetaMax = lit (19 / 20) := by show (resolveOpts [] : Opts (Dbl R)).thetaMax = _; rw [out_opts]
  unfold trInput innIn
  simp only [preIter, h2, h3, h4, h5, ht]

/-- a pass within the bounds, with the trial point -/
theorem inn_pass_full (hO : Returning R O) (st0 : St (Dbl R) 1) (hh : st0.happ = none) : ∃ prev cur step new next cur',
    (LoopHead (innEnv R O) vzero "run" .hessStr st0 0 prev cur ∧ Pass (innEnv R O) prev cur step new next cur' ∧ prev.x = vzero ∧
      (thetaOf (innEnv R O).opts.thetaMax (affineV (innEnv R O).lb (innEnv R O).ub prev.x prev.grad) prev.grad).val = .fin (th95 R) ∧
      (∀ i, (step.ogS i).val = .fin (1 / 4)) ∧ step.alpha.val = .fin (th95 R) ∧ prev.grad = (fun _ => lit (-1))) ∧
      new.fval = FloatOps.nan ∧ new.grad = (fun _ => lit 0) ∧ prev.fval = lit 0 := by
  obtain ⟨step, htr, hs, hs0, hog, hal⟩ := inn_tr hO
  obtain ⟨hf, hd, hx, hg, hhs⟩ := inn_frame (O := O) st0
  have hpos : lt (lit 0 : Dbl R) (trialPoint (innPre R O st0) step 0) = true := by
    obtain ⟨r, hr, hr1, hr2⟩ := hs 0
    have hrb := (val_mem _ _ hr).1
    have : (trialPoint (innPre R O st0) step 0).val = .fin r := by
      show ((innPre R O st0).x 0 + step.s 0 + step.s0 0).val = _
      rw [hx]
      have h1 : ((vzero : Vec (Dbl R) 1) 0 + step.s 0).val = .fin r := by
        rw [v_add (show ((vzero : Vec (Dbl R) 1) 0).val = _ from v0) hr (by rw [zero_add]; exact hrb), zero_add]
      rw [v_add h1 (hs0 0) (by rw [add_zero]; exact hrb), add_zero]
    rw [lt_iff v0 this, decide_eq_true_eq]; linarith
  have hout : trialOut (innEnv R O) (innPre R O st0) step = .ok (innTrial R (trialPoint (innPre R O st0) step) (innPre R O st0).nextId) := by
    refine trialOut_forward _ _ _ { fval := .scalar FloatOps.nan, grad := .arr [1] [lit 0], hess := .arr [1, 1] [lit 0], res := .none, sres := .none } _ ?_ ?_
    · simp [innEnv, funEval, hpos]
    · rw [typed_d]; rfl
  have hfin : allFinite (innPre R O st0).fval (innPre R O st0).grad (some (innPre R O st0).hess) = true := by
    rw [hf, hg, hhs]
    simp only [allFinite, vfinite, mfinite, ff (R := R) v0, ff (R := R) vm1]
    simp
  have hnf : isFinite (FloatOps.nan : Dbl R) = false := rfl
  set new := innTrial R (trialPoint (innPre R O st0) step) (innPre R O st0).nextId with hnew
  have hit := iterate_reject (innEnv R O) (innPre R O st0) (innFirst R (innStart R O st0).xId) step new
    (by show (resolveOpts [] : Opts (Dbl R)).history = _; rw [out_opts]) hfin (by rw [inn_proposal]; exact htr) hout
    (fun h => by rw [show new.fval = FloatOps.nan from rfl, hnf] at h; cases h)
    (by unfold radiusStep updateTrRadius; simp [show new.fval = FloatOps.nan from rfl, hnf])
  obtain ⟨r', d', i', m', ef, c, mx, mxi, mf, mg, hpf⟩ := postCheck_frame (innEnv R O) (innPre R O st0) step new
  refine ⟨innHead R O st0, _, step, new, _, _, ⟨inn_start st0 hh, ⟨inn_continue st0, hit, ?_, ?_, rfl⟩, hx, ?_, hog, hal, hg⟩, rfl, rfl, hf⟩
  · have := inn_proposal (O := O) st0
    show trustRegion O 10 .two .reflect (trInput (innEnv R O) (preIter (innPre R O st0))) = _
    rw [this]; exact htr
  · rw [hpf]; rfl
  · have h1 : (innHead R O st0).x = vzero := hx
    have h2 : (innHead R O st0).grad = fun _ => lit (-1) := hg
    have ht : (innEnv R O).opts.thetaMax = lit (19 / 20) := by show (resolveOpts [] : Opts (Dbl R)).thetaMax = _; rw [out_opts]
    rw [h1, h2, ht]
    exact vTheta (O := O)

/-- a pass within the bounds -/
theorem inn_pass (hO : Returning R O) (st0 : St (Dbl R) 1) (hh : st0.happ = none) : ∃ prev cur step new next cur',
    LoopHead (innEnv R O) vzero "run" .hessStr st0 0 prev cur ∧ Pass (innEnv R O) prev cur step new next cur' ∧ prev.x = vzero ∧
      (thetaOf (innEnv R O).opts.thetaMax (affineV (innEnv R O).lb (innEnv R O).ub prev.x prev.grad) prev.grad).val = .fin (th95 R) ∧
      (∀ i, (step.ogS i).val = .fin (1 / 4)) ∧ step.alpha.val = .fin (th95 R) ∧ prev.grad = (fun _ => lit (-1)) := by
  obtain ⟨prev, cur, step, new, next, cur', h, -⟩ := inn_pass_full hO st0 hh
  exact ⟨prev, cur, step, new, next, cur', h⟩

end InnDemo
end
end Fides
