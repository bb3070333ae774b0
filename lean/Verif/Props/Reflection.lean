import Verif.Lemmas.Blocked
import Verif.Lemmas.Line
import Verif.Props.Loops
import Verif.Props.StepBack

/-!
# C55: reflected and truncated candidates

When a candidate is cut back because its full step leaves the box, the reflected candidate starts at the point where that full step
first meets a bound and moves along the same direction with the sign reversed in exactly the coordinates that met their bound; the
truncated candidate fixes exactly those coordinates at the fraction `theta` of their way to the bound.
-/

namespace Fides
open Fides Fides.Num Fides.Spec
variable {n : ℕ}

/-- a step with one direction is a multiple of it -/
theorem calculate_line (O : SubOracles Num) (P : Prob Num n) (st st' : Step Num n) (c : Vec Num n) (hsub : st.subspace = [c])
    (v : Fin n → ℝ) (hc : c = ofV v) (h : st.calculate O P = .ok st') (w : Fin n → ℝ) (hw : st'.ss = ofV w) :
    ∃ t : ℝ, w = t • v := by
  rcases Nat.eq_zero_or_pos n with hn | hn
  · subst hn; exact ⟨0, funext fun i => i.elim0⟩
  unfold Step.calculate at h
  split at h
  · cases h
  rename_i st1 hcomp
  cases h
  unfold Step.computeStep at hcomp
  rw [hsub] at hcomp
  simp only at hcomp
  cases hcomp
  simp only at hw
  have hrow : ∀ i, subDot [c] [solve1d P.shess P.sg c P.delta st.ss0] i = c i * solve1d P.shess P.sg c P.delta st.ss0 := by
    intro i
    simp only [subDot, List.zipWith_cons_cons, List.zipWith_nil_left, sum_cons, sum_nil, add_zero_num]
  have hi : ∀ i, c i * solve1d P.shess P.sg c P.delta st.ss0 *
      (Step.stepBack P { st with sc := [solve1d P.shess P.sg c P.delta st.ss0], ss := subDot [c] [solve1d P.shess P.sg c P.delta st.ss0], s := sdot P.scaling (subDot [c] [solve1d P.shess P.sg c P.delta st.ss0]) }).alpha = fin (w i) := by
    intro i
    rw [← hrow i]
    exact congrFun hw i
  generalize (Step.stepBack P { st with sc := [solve1d P.shess P.sg c P.delta st.ss0], ss := subDot [c] [solve1d P.shess P.sg c P.delta st.ss0], s := sdot P.scaling (subDot [c] [solve1d P.shess P.sg c P.delta st.ss0]) }).alpha = al at hi
  generalize solve1d P.shess P.sg c P.delta st.ss0 = tau at hi
  obtain ⟨p, q, h1, h2, _⟩ := mul_fin_iff _ _ _ (hi ⟨0, hn⟩)
  obtain ⟨p', q', _, h4, _⟩ := mul_fin_iff _ _ _ h1
  refine ⟨q' * q, funext fun i => ?_⟩
  have := hi i
  rw [h2, h4, hc, ofV_apply, fin_mul, fin_mul, fin_inj] at this
  rw [← this]; simp; ring

/-- C55, reflection: for every candidate that was cut back. -/
theorem C55_reflected (O : Oracles Num) (fuel : ℕ) (P : Prob Num n) (dim : SubSpaceDim) (prev r : Step Num n) (xr d x s ss w : Fin n → ℝ) (theta : ℝ)
    (hx : P.x = ofV xr) (hbox : InBox P.lb P.ub xr) (hd : P.scaling = ofV d) (ht : P.theta = fin theta) (h0 : 0 < theta) (h1 : theta ≤ 1)
    (hdim : dim ≠ .steihaug) (hprev : Cand O fuel P dim prev) (hcut : feq prev.alpha (Fides.lit 1) = false)
    (hpx : prev.x = ofV x) (hog : prev.ogS = ofV s) (hogs : prev.ogSs = ofV ss)
    (hr : stepReflected O P prev = .ok r) (hw : r.ss = ofV w) :
    ∃ T t : ℝ, Leaves P.lb P.ub x s T ∧ theta * T < 1 ∧ (∃ i, Blocked P.lb P.ub x s T i) ∧
      r.x = ofV (x + min T 1 • s) ∧ r.s = ofV (t • reversed P.lb P.ub x s T s) ∧ w = t • reversed P.lb P.ub x s T ss ∧
      (∀ i, r.reflIdx i = true ↔ Blocked P.lb P.ub x s T i) := by
  classical
  have hfeas := cand_feas hx ht h0 h1 hbox O fuel dim prev hprev
  have hrel := cand_rel d hd O fuel dim hdim prev hprev
  obtain ⟨st1, q, hst1⟩ := cand_stepBack O fuel dim prev hprev
  have hb : InBox P.lb P.ub x := by
    intro i
    rcases hfeas.base i with h | ⟨a, h, hin⟩
    · rw [hpx] at h; cases h
    · rw [hpx, ofV_apply, fin_inj] at h; rw [h]; exact hin
  obtain ⟨T, hT, hmin, hidx, _, hex, _, hlt⟩ := stepBack_blocked P st1 x s theta (by rw [hst1] at hpx; exact hpx) (by rw [hst1] at hog; exact hog) ht h0 hb
    (by rw [hst1] at hcut; exact hcut)
  have hmin' : prev.minbr = fin T := by rw [hst1]; exact hmin
  have hidx' : ∀ i, prev.iminbr i = true ↔ Blocked P.lb P.ub x s T i := by rw [hst1]; exact hidx
  have hfl : ∀ v : Fin n → ℝ, (fun i => if prev.iminbr i = true then ofV v i * Fides.lit (-1) else ofV v i) = ofV (reversed P.lb P.ub x s T v) := by
    intro v
    funext i
    simp only [reversed, ofV_apply, lit_def]
    by_cases hbk : Blocked P.lb P.ub x s T i
    · rw [if_pos ((hidx' i).mpr hbk), if_pos hbk]; simp
    · rw [if_neg (fun hc => hbk ((hidx' i).mp hc)), if_neg hbk]
  -- the direction
  obtain ⟨u, hu, hsc⟩ : ∃ u : Fin n → ℝ, normalize (ofV (reversed P.lb P.ub x s T ss)) = ofV u ∧ ∃ c : ℝ, u = c • reversed P.lb P.ub x s T ss := by
    unfold normalize
    simp only
    split
    · refine ⟨(1 / Num.rnorm (reversed P.lb P.ub x s T ss)) • reversed P.lb P.ub x s T ss, ?_, _, rfl⟩
      rename_i hpos
      funext i
      simp only [norm_ofV, lit_def, fin_lt, decide_eq_true_eq, Rat.cast_zero] at hpos
      simp [norm_ofV, hpos.ne', fin_div, div_eq_inv_mul]
    · exact ⟨_, rfl, 1, by simp⟩
  obtain ⟨c, hc⟩ := hsc
  have hsub : (reflectInit P prev).subspace = [ofV u] := by
    rw [← hu, ← hfl ss, ← hogs]; rfl
  have hr' : (reflectInit P prev).calculate O.sub P = .ok r := hr
  obtain ⟨t, hwt⟩ := calculate_line O.sub P _ r _ hsub u rfl hr' w hw
  have hwflip : w = (t * c) • reversed P.lb P.ub x s T ss := by rw [hwt, hc, smul_smul]
  have hrelr := calculate_rel O.sub P d hd _ r (reflectInit_rel P d prev hrel) hr'
  have hds : ∀ i, s i = d i * ss i := by
    intro i
    have := hrel.og i (ss i) (by rw [hogs]; rfl)
    rw [hog, ofV_apply, fin_inj] at this; exact this
  refine ⟨T, t * c, hT, hlt, hex, ?_, ?_, hwflip, ?_⟩
  · have hrx : r.x = (reflectInit P prev).x ∧ r.reflIdx = (reflectInit P prev).reflIdx := by
      unfold Step.calculate at hr'
      split at hr'
      · cases hr'
      · rename_i st2 h2
        cases hr'
        unfold Step.computeStep at h2
        rw [hsub] at h2
        cases h2
        exact ⟨rfl, rfl⟩
    rw [hrx.1]
    funext i
    show P.x i + (pyMin prev.minbr (Fides.lit 1) * prev.ogS i + prev.s0 i) = _
    have hbase := congrFun hfeas.x i
    rw [hpx, hx] at hbase
    simp only [ofV_apply, vadd] at hbase
    obtain ⟨a, b, ha, hb', hsum⟩ := add_fin_iff _ _ _ hbase.symm
    have hpm : (pyMin prev.minbr (Fides.lit 1) : Num) = fin (min T 1) := by
      rw [hmin', lit_def]
      simp only [pyMin, fin_lt, decide_eq_true_eq, Rat.cast_one]
      split
      · rename_i hh; rw [min_eq_right hh.le]
      · rename_i hh; rw [min_eq_left (not_lt.mp hh)]
    rw [hx, hog, hb', hpm, ofV_apply, ofV_apply, ofV_apply, fin_mul, fin_add, fin_add, fin_inj]
    simp only [Pi.add_apply, Pi.smul_apply, smul_eq_mul]
    rw [hsum]
    cases ha
    ring
  · funext i
    rw [hrelr.s i (w i) (by rw [hw]; rfl), ofV_apply, fin_inj, hwflip]
    simp only [Pi.smul_apply, smul_eq_mul, reversed, hds i]
    split <;> ring
  · intro i
    have hri : r.reflIdx = prev.iminbr := by
      unfold Step.calculate at hr'
      split at hr'
      · cases hr'
      · rename_i st2 h2
        cases hr'
        unfold Step.computeStep at h2
        rw [hsub] at h2
        cases h2
        rfl
    rw [hri]; exact hidx' i

/-- C55, truncation: for every candidate that was cut back. -/
theorem C55_truncated (O : Oracles Num) (fuel : ℕ) (P : Prob Num n) (dim : SubSpaceDim) (prev r : Step Num n) (xr x s w : Fin n → ℝ) (theta : ℝ)
    (hx : P.x = ofV xr) (hbox : InBox P.lb P.ub xr) (ht : P.theta = fin theta) (h0 : 0 < theta) (h1 : theta ≤ 1)
    (hprev : Cand O fuel P dim prev) (hcut : feq prev.alpha (Fides.lit 1) = false)
    (hpx : prev.x = ofV x) (hog : prev.ogS = ofV s)
    (hr : stepTruncated O P prev = .ok r) (hw : r.s = ofV w) :
    ∃ (T : ℝ) (x' : Fin n → ℝ), Leaves P.lb P.ub x s T ∧ theta * T < 1 ∧ (∃ i, Blocked P.lb P.ub x s T i) ∧ r.x = ofV x' ∧
      (∀ i, Blocked P.lb P.ub x s T i → x' i = x i + theta * ((x i + T * s i) - x i) ∧ w i = 0) ∧
      (∀ i, ¬ Blocked P.lb P.ub x s T i → x' i = x i) ∧
      (∀ i, r.truncIdx i = true ↔ Blocked P.lb P.ub x s T i) := by
  have hfeas := cand_feas hx ht h0 h1 hbox O fuel dim prev hprev
  obtain ⟨st1, q, hst1⟩ := cand_stepBack O fuel dim prev hprev
  have hb : InBox P.lb P.ub x := by
    intro i
    rcases hfeas.base i with h | ⟨a, h, hin⟩
    · rw [hpx] at h; cases h
    · rw [hpx, ofV_apply, fin_inj] at h; rw [h]; exact hin
  obtain ⟨T, hT, _, hidx, hbr, hex, _, hlt⟩ := stepBack_blocked P st1 x s theta (by rw [hst1] at hpx; exact hpx) (by rw [hst1] at hog; exact hog) ht h0 hb
    (by rw [hst1] at hcut; exact hcut)
  have hbr' : ∀ i, Blocked P.lb P.ub x s T i → prev.br i = fin T := by rw [hst1]; exact hbr
  have hidx' : ∀ i, prev.iminbr i = true ↔ Blocked P.lb P.ub x s T i := by rw [hst1]; exact hidx
  have hr' : (truncateInit P prev).calculate O.sub P = .ok r := hr
  have hframe : r.x = (truncateInit P prev).x ∧ r.truncIdx = prev.iminbr := by
    unfold Step.calculate at hr'
    split at hr'
    · cases hr'
    · rename_i st2 h2
      cases hr'
      unfold Step.computeStep at h2
      split at h2
      · cases h2; exact ⟨rfl, rfl⟩
      · cases h2; exact ⟨rfl, rfl⟩
      · simp only at h2
        split at h2
        · cases h2
        · cases h2; exact ⟨rfl, rfl⟩
  have hdead : ∀ i, Blocked P.lb P.ub x s T i → r.s i = fin 0 ∨ r.s i = nan := by
    intro i hi
    have hd : DeadRow (truncateInit P prev).subspace i := reduce_dead _ _ i (Or.inl ((hidx' i).mpr hi))
    have hal : ∀ (a b : Num), (a = fin 0 ∨ a = nan) → a * b = fin 0 ∨ a * b = nan := by
      rintro a b (rfl | rfl)
      · cases b with
        | fin r => left; simp
        | pinf => right; rw [fin_mul_pinf]; simp
        | ninf => right; rw [fin_mul_ninf]; simp
        | nan => right; simp
      · right; simp
    unfold Step.calculate at hr'
    split at hr'
    · cases hr'
    · rename_i st2 h2
      cases hr'
      refine hal (st2.s i) _ ?_
      unfold Step.computeStep at h2
      split at h2
      · cases h2; left; simp
      · rename_i c hsub
        cases h2
        exact sdot_zero_or_nan _ _ _ (subDot_dead _ _ _ (by rw [hsub] at hd; exact hd))
      · simp only at h2
        split at h2
        · cases h2
        · cases h2
          exact sdot_zero_or_nan _ _ _ (subDot_dead _ _ _ hd)
  classical
  have hxi : ∀ i, r.x i = fin (if Blocked P.lb P.ub x s T i then x i + theta * (T * s i) else x i) := by
    intro i
    rw [hframe.1]
    show P.x i + (if prev.iminbr i = true then prev.s0 i + P.theta * prev.br i * prev.ogS i else prev.s0 i) = _
    have hbase := congrFun hfeas.x i
    rw [hpx, hx] at hbase
    simp only [ofV_apply, vadd] at hbase
    obtain ⟨a, b, ha, hb', hsum⟩ := add_fin_iff _ _ _ hbase.symm
    cases ha
    by_cases hbk : Blocked P.lb P.ub x s T i
    · rw [if_pos ((hidx' i).mpr hbk), if_pos hbk, hbr' i hbk, hog, hb', ht, hx]
      simp only [ofV_apply, fin_mul, fin_add, fin_inj]
      rw [hsum]; ring
    · rw [if_neg (fun hc => hbk ((hidx' i).mp hc)), if_neg hbk, hb', hx]
      simp only [ofV_apply, fin_add, fin_inj]
      exact hsum.symm
  refine ⟨T, fun i => if Blocked P.lb P.ub x s T i then x i + theta * (T * s i) else x i, hT, hlt, hex, funext hxi, ?_, ?_, ?_⟩
  · intro i hi
    constructor
    · simp only [if_pos hi]; ring
    · have := hdead i hi
      rw [hw, ofV_apply, fin_inj] at this
      rcases this with h | h
      · exact h
      · cases h
  · intro i hi
    simp only [if_neg hi]
  · intro i
    rw [hframe.2]; exact hidx' i

/-! ## a concrete case: two variables, the gradient step runs into a lower bound -/

/-- quadratic with gradient `(3, 4)` and identity Hessian at the origin, first variable bounded below by `-1` -/
noncomputable def bounceP : Prob Num 2 :=
  { x := ofV 0, sg := ofV ![3, 4], hess := ofM ![![1, 0], ![0, 1]], scaling := ofV ![1, 1], gDscaling := ofV 0,
    delta := fin 10, theta := fin (19 / 20), ub := ![pinf, pinf], lb := ![fin (-1), ninf] }

theorem bounce_shess : bounceP.shess = ofM ![![1, 0], ![0, 1]] := by
  funext i j
  fin_cases i <;> fin_cases j <;> simp [Prob.shess, bounceP]

/-- a step along one direction that stays in the trust region -/
theorem bounce_line (O : SubOracles Num) (st : Step Num 2) (u s0 x0 : Fin 2 → ℝ) (hsub : st.subspace = [normalize (ofV u)]) (hss0 : st.ss0 = ofV s0)
    (hx : st.x = ofV x0) (hb : InBox bounceP.lb bounceP.ub x0) (hu : u ≠ 0) (k : ℝ) (hk : k = -(rdot u (s0 + ![3, 4])) / rdot u u)
    (hn : rnorm (k • u + s0) ≤ 10) :
    ∃ st' a, st.calculate O bounceP = .ok st' ∧ st'.x = ofV x0 ∧ st'.ogS = ofV (k • u) ∧ st'.ogSs = ofV (k • u) ∧ st'.alpha = fin a ∧
      st'.ss = ofV (a • k • u) ∧ st'.s = ofV (a • k • u) ∧
      st'.subspace = st.subspace ∧ ((a = 1 ∧ ∀ t : ℝ, 0 ≤ t → InBox bounceP.lb bounceP.ub (x0 + t • k • u)) ∨
        ∃ T, 0 ≤ T ∧ a = min 1 (19 / 20 * T) ∧ ∀ t : ℝ, 0 ≤ t → (InBox bounceP.lb bounceP.ub (x0 + t • k • u) ↔ t ≤ T)) := by
  have hI : ∀ v : Fin 2 → ℝ, rmv ![![1, 0], ![0, 1]] v = v := by
    intro v; funext i; fin_cases i <;> simp [rmv, rdot]
  have huu : 0 < rdot u u := by
    have := rnorm_pos hu
    rw [rnorm] at this
    exact Real.sqrt_pos.mp this
  obtain ⟨t, ht1, ht2⟩ := solve1d_normalized (n := 2) ![![1, 0], ![0, 1]] ![3, 4] u s0 10 (by norm_num) hu (by rw [hI]; exact huu)
    (by rw [hI, hI, ← hk]; exact hn)
  rw [hI, hI, ← hk] at ht2
  have hsc : sdot bounceP.scaling (subDot [normalize (ofV u)] [fin t]) = ofV (k • u) := by
    rw [ht2]
    show sdot (ofV ![1, 1]) (ofV (k • u)) = _
    rw [sdot_finite]; congr 1; funext i; fin_cases i <;> simp
  have hcomp : st.computeStep O bounceP = .ok { st with sc := [fin t], ss := ofV (k • u), s := ofV (k • u) } := by
    unfold Step.computeStep
    rw [hsub]
    simp only [bounce_shess, hss0]
    rw [show bounceP.sg = ofV ![3, 4] from rfl, show bounceP.delta = fin 10 from rfl, ht1, hsc, ht2]
  obtain ⟨a, h1, _, _, h2, h3, _, h4, h5⟩ := C23_factor bounceP { st with sc := [fin t], ss := ofV (k • u), s := ofV (k • u) } x0 (k • u) (19 / 20)
    hx rfl rfl (by norm_num) hb
  obtain ⟨q, hq⟩ : ∃ q, st.calculate O bounceP =
      .ok { Step.stepBack bounceP { st with sc := [fin t], ss := ofV (k • u), s := ofV (k • u) } with qpval := q } :=
    ⟨_, by unfold Step.calculate; rw [hcomp]⟩
  refine ⟨_, a, hq, hx, h4, rfl, h1, ?_, h2, rfl, h5⟩
  rw [show ({ Step.stepBack bounceP { st with sc := [fin t], ss := ofV (k • u), s := ofV (k • u) } with qpval := q } : Step Num 2).ss =
    (Step.stepBack bounceP { st with sc := [fin t], ss := ofV (k • u), s := ofV (k • u) }).ss from rfl, h3]
  funext i
  simp; ring

theorem bounce_inBox (x : Fin 2 → ℝ) : InBox bounceP.lb bounceP.ub x ↔ -1 ≤ x 0 := by
  constructor
  · intro h; have := (h 0).1; simpa [bounceP] using this
  · intro h i; fin_cases i <;> simp [bounceP, InBox1, h]

/-- the gradient step of the concrete case is cut back; its reflection and its truncation are finite -/
example : ∃ (prev r r' : Step Num 2) (w w' : Fin 2 → ℝ), InBox bounceP.lb bounceP.ub 0 ∧ Cand zeroOracles 1 bounceP .two prev ∧
    feq prev.alpha (Fides.lit 1) = false ∧ prev.x = ofV 0 ∧ prev.ogS = ofV ![-3, -4] ∧ prev.ogSs = ofV ![-3, -4] ∧
    stepReflected zeroOracles bounceP prev = .ok r ∧ r.ss = ofV w ∧
    stepTruncated zeroOracles bounceP prev = .ok r' ∧ r'.s = ofV w' := by
  have hin : InBox bounceP.lb bounceP.ub 0 := (bounce_inBox _).mpr (by simp)
  have hu : (![3, 4] : Fin 2 → ℝ) ≠ 0 := fun h => by have := congrFun h 0; simp at this
  obtain ⟨prev, a, h1, h2, h3, h4, h5, _, _, h6, h7⟩ := bounce_line zeroOracles.sub (Step.init bounceP .g [normalize bounceP.sg]) ![3, 4] 0 0 rfl
    (by funext i; simp [Step.init]) rfl hin hu (-1) (by simp [rdot]; norm_num)
    (by rw [rnorm, Real.sqrt_le_iff]; simp [rdot]; norm_num)
  have hc : Cand zeroOracles 1 bounceP .two prev := .grad _ h1
  have hk : ((-1 : ℝ) • ![3, 4] : Fin 2 → ℝ) = ![-3, -4] := by funext i; fin_cases i <;> simp
  rw [hk] at h3 h4 h7
  have hcut : feq prev.alpha (Fides.lit 1) = false := by
    rw [h5]
    rcases h7 with ⟨_, h⟩ | ⟨T, _, rfl, h⟩
    · have := (bounce_inBox _).mp (h 1 zero_le_one); norm_num at this
    · have hT : T < 1 := by
        by_contra hT
        have := (bounce_inBox _).mp ((h 1 zero_le_one).mpr (not_lt.mp hT)); norm_num at this
      rw [min_eq_right (by linarith), lit_def]
      simp only [fin_feq, decide_eq_false_iff_not, Rat.cast_one]; linarith
  obtain ⟨st1, q, hst1⟩ := cand_stepBack zeroOracles 1 .two prev hc
  have g1 : st1.x = ofV 0 := by rw [hst1] at h2; exact h2
  have g2 : st1.s = ofV ![-3, -4] := by rw [hst1] at h3; exact h3
  obtain ⟨T, hT, hmin, hidx, hbr, ⟨i0, hi0⟩, _, hlt⟩ := stepBack_blocked bounceP st1 0 ![-3, -4] (19 / 20) g1 g2 rfl (by norm_num) hin
    (by rw [hst1] at hcut; exact hcut)
  have hb0 : ¬ Blocked bounceP.lb bounceP.ub 0 ![-3, -4] T 1 := by
    simp [Blocked, bounceP]
  have hT3 : T = 1 / 3 := by
    have : Blocked bounceP.lb bounceP.ub 0 ![-3, -4] T 0 := by
      fin_cases i0
      · exact hi0
      · exact absurd hi0 hb0
    simp [Blocked, bounceP] at this
    linarith
  subst hT3
  have hb1 : Blocked bounceP.lb bounceP.ub 0 ![-3, -4] (1 / 3) 0 := by
    simp [Blocked, bounceP]
  have e0 : prev.iminbr 0 = true := by rw [hst1]; exact (hidx 0).mpr hb1
  have e1 : prev.iminbr 1 = false := by
    rw [Bool.eq_false_iff]; intro h; apply hb0; rw [hst1] at h; exact (hidx 1).mp h
  have em : prev.minbr = fin (1 / 3) := by rw [hst1]; exact hmin
  have eb : prev.br 0 = fin (1 / 3) := by rw [hst1]; exact hbr 0 hb1
  have f0 : prev.s0 = ofV 0 ∧ prev.ss0 = ofV 0 := by
    have hz : ∀ (a b : Step Num 2), a.calculate zeroOracles.sub bounceP = .ok b → b.s0 = a.s0 ∧ b.ss0 = a.ss0 := by
      intro a b hab
      unfold Step.calculate at hab
      split at hab
      · cases hab
      · rename_i c hc
        obtain ⟨_, c2, c3, _⟩ := computeStep_frame _ _ _ _ hc
        cases hab; exact ⟨c2, c3⟩
    obtain ⟨z1, z2⟩ := hz _ _ h1
    rw [z1, z2]
    constructor <;> funext i <;> simp [Step.init]
  have pm : (pyMin (fin (1 / 3)) (Fides.lit 1) : Num) = fin (1 / 3) := by
    simp [pyMin]; norm_num
  have hu1 : (![3, -4] : Fin 2 → ℝ) ≠ 0 := fun h => by have := congrFun h 0; simp at this
  obtain ⟨r, b, r1, _, _, _, _, r2, _⟩ := bounce_line zeroOracles.sub (reflectInit bounceP prev) ![3, -4] ![-1, -4 / 3] ![-1, -4 / 3]
    (by
      show [normalize (fun i => if prev.iminbr i then prev.ogSs i * Fides.lit (-1) else prev.ogSs i)] = _
      congr 2
      rw [h4]
      funext i; fin_cases i <;> simp [e0, e1])
    (by
      show vadd (vsmul (pyMin prev.minbr (Fides.lit 1)) prev.ogSs) prev.ss0 = _
      rw [em, pm, h4, f0.2]
      funext i; fin_cases i <;> simp [vadd, vsmul]; norm_num)
    (by
      show vadd bounceP.x (vadd (vsmul (pyMin prev.minbr (Fides.lit 1)) prev.ogS) prev.s0) = _
      rw [em, pm, h3, f0.1]
      funext i; fin_cases i <;> simp [vadd, vsmul, bounceP]; norm_num)
    ((bounce_inBox _).mpr (by simp)) hu1 (14 / 75) (by simp [rdot]; norm_num)
    (by rw [rnorm, Real.sqrt_le_iff]; simp [rdot]; norm_num)
  have hc0 : 0 < (rnorm (![3, 4] : Fin 2 → ℝ))⁻¹ := inv_pos.mpr (rnorm_pos hu)
  generalize hcdef : (rnorm (![3, 4] : Fin 2 → ℝ))⁻¹ = c at hc0
  have hsubp : prev.subspace = [ofV (c • ![3, 4])] := by
    rw [h6, ← hcdef, ← normalize_ofV]; rfl
  have hu2 : (![0, c * 4] : Fin 2 → ℝ) ≠ 0 := fun h => by have := congrFun h 1; simp at this; linarith
  obtain ⟨r', b', t1, _, _, _, _, _, t2, _⟩ := bounce_line zeroOracles.sub (truncateInit bounceP prev) ![0, c * 4] ![-19 / 20, 0] ![-19 / 20, 0]
    (by
      show reduceSubspace prev.iminbr prev.subspace = _
      rw [hsubp]
      have hcol : (fun i : Fin 2 => if prev.iminbr i then (Fides.lit 0 : Num) else ofV (c • ![3, 4]) i) = ofV ![0, c * 4] := by
        funext i; fin_cases i <;> simp [e0, e1]
      simp only [reduceSubspace, List.map_cons, List.map_nil, hcol]
      rw [List.filter_cons_of_pos]
      · rfl
      · rw [decide_eq_true_eq]
        exact ⟨1, by simp [hc0.ne']⟩)
    (by
      show (fun i => if prev.iminbr i then prev.ss0 i + bounceP.theta * prev.br i * prev.ogSs i else prev.ss0 i) = _
      rw [h4, f0.2]
      funext i; fin_cases i <;> simp [e0, e1, eb, bounceP]; norm_num)
    (by
      show vadd bounceP.x (fun i => if prev.iminbr i then prev.s0 i + bounceP.theta * prev.br i * prev.ogS i else prev.s0 i) = _
      rw [h3, f0.1]
      funext i; fin_cases i <;> simp [vadd, e0, e1, eb, bounceP]; norm_num)
    ((bounce_inBox _).mpr (by norm_num)) hu2 (-1 / c) (by simp [rdot]; field_simp)
    (by
      have : (-1 / c) • ![0, c * 4] + ![-19 / 20, 0] = (![-19 / 20, -4] : Fin 2 → ℝ) := by
        funext i; fin_cases i <;> simp; field_simp
      rw [this, rnorm, Real.sqrt_le_iff]; simp [rdot]; norm_num)
  exact ⟨prev, r, r', _, _, hin, hc, hcut, h2, h3, h4, r1, r2, t1, t2⟩

end Fides
