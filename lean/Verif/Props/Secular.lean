import Verif.Lemmas.Secular
import Verif.Props.Subproblem
import Mathlib.Analysis.Calculus.Deriv.Prod

/-!
# C81: the root search of the n-dimensional subproblem solver
-/

namespace Fides
open Num Spec Filter Topology
variable {n : ℕ}

/-- C81: `dslam` is the derivative of `slam`, wherever `B + lam I` is regular. -/
theorem C81_dslam (w vals : Fin n → ℝ) (U : Fin n → Fin n → ℝ) (l : ℝ) (h : ∀ i, vals i + l ≠ 0) :
    ∃ (S : ℝ → Fin n → ℝ) (S' : Fin n → ℝ), (∀ m, slam (fin m) (ofV w) (ofV vals) (ofM U) = ofV (S m)) ∧
      dslam (fin l) (ofV w) (ofV vals) (ofM U) = ofV S' ∧ HasDerivAt S S' l := by
  refine ⟨fun m => rmv U (slamC m w vals), rmv U (secDA w vals l), fun m => slam_fin m w vals U, dslam_fin w vals U l h, ?_⟩
  rw [hasDerivAt_pi]
  intro i
  have h1 : HasDerivAt (fun m => ∑ j, U i j * secA w vals m j) (∑ j, U i j * secDA w vals l j) l :=
    HasDerivAt.fun_sum fun j _ => (secA_hasDeriv w vals l h j).const_mul (U i j)
  refine h1.congr_of_eventuallyEq ?_
  have hev : ∀ᶠ m in 𝓝 l, ∀ j, vals j + m ≠ 0 := by
    rw [eventually_all]
    intro j
    have : ContinuousAt (fun m : ℝ => vals j + m) l := by fun_prop
    exact this.eventually_ne (h j)
  filter_upwards [hev] with m hm
  rw [slamC_secA w vals m hm]
  rfl

/-- C81: `dsecular` is the derivative of `secular` wherever `B + lam I` is positive definite. -/
theorem C81_dsecular {U : Fin n → Fin n → ℝ} (hU : OrthoCols U) (w vals : Fin n → ℝ) (delta : ℝ) (hd : delta ≠ 0) (hw : w ≠ 0) :
    ∃ phi phi' : ℝ → ℝ, ∀ l, (∀ i, 0 < vals i + l) →
      secular (fin l) (ofV w) (ofV vals) (ofM U) (fin delta) = fin (phi l) ∧
      dsecular (fin l) (ofV w) (ofV vals) (ofM U) (fin delta) = fin (phi' l) ∧ HasDerivAt phi (phi' l) l :=
  ⟨secPhi w vals delta, secD w vals, fun l h => ⟨secular_real hU w vals delta l hd h hw,
    dsecular_real hU w vals delta l (fun i => (h i).ne') hw, secPhi_hasDeriv w vals delta l (fun i => (h i).ne') hw⟩⟩

/-- C81: where `B + lam I` is positive definite the secular function is strictly increasing and concave. -/
theorem C81_shape {U : Fin n → Fin n → ℝ} (hU : OrthoCols U) (w vals : Fin n → ℝ) (delta : ℝ) (hd : delta ≠ 0) (hw : w ≠ 0) :
    ∃ phi : ℝ → ℝ, (∀ l, (∀ i, 0 < vals i + l) → secular (fin l) (ofV w) (ofV vals) (ofM U) (fin delta) = fin (phi l)) ∧
      StrictMonoOn phi {l | ∀ i, 0 < vals i + l} ∧ ConcaveOn ℝ {l | ∀ i, 0 < vals i + l} phi := by
  refine ⟨secPhi w vals delta, fun l h => secular_real hU w vals delta l hd h hw, fun l hl m _ hlm => secPhi_lt w vals delta l m hl hlm hw, ?_, ?_⟩
  · intro x hx y hy a b ha hb hab i
    have e : vals i + (a • x + b • y) = a * (vals i + x) + b * (vals i + y) := by
      simp only [smul_eq_mul]
      have : vals i = (a + b) * vals i := by rw [hab, one_mul]
      linear_combination this
    rw [e]
    have := hx i; have := hy i
    rcases ha.eq_or_lt with rfl | ha'
    · have : b = 1 := by linarith
      subst this; simpa using hy i
    · exact add_pos_of_pos_of_nonneg (mul_pos ha' (hx i)) (mul_nonneg hb (hy i).le)
  · intro x hx y hy a b ha hb hab
    have hz : ∀ i, 0 < vals i + (a • x + b • y) := by
      intro i
      have e : vals i + (a • x + b • y) = a * (vals i + x) + b * (vals i + y) := by
        simp only [smul_eq_mul]
        have : vals i = (a + b) * vals i := by rw [hab, one_mul]
        linear_combination this
      rw [e]
      rcases ha.eq_or_lt with rfl | ha'
      · have : b = 1 := by linarith
        subst this; simpa using hy i
      · exact add_pos_of_pos_of_nonneg (mul_pos ha' (hx i)) (mul_nonneg hb (hy i).le)
    have t1 := secPhi_tangent w vals delta _ x hz hx hw
    have t2 := secPhi_tangent w vals delta _ y hz hy hw
    set z := a • x + b • y with hzd
    have hzz : a * (x - z) + b * (y - z) = 0 := by
      have : z = a * x + b * y := by rw [hzd]; rfl
      have h1 : a * (x - z) + b * (y - z) = a * x + b * y - (a + b) * z := by ring
      rw [h1, hab, this]; ring
    have m1 := mul_le_mul_of_nonneg_left t1 ha
    have m2 := mul_le_mul_of_nonneg_left t2 hb
    simp only [smul_eq_mul]
    have h2 : a * (secPhi w vals delta z + secD w vals z * (x - z)) + b * (secPhi w vals delta z + secD w vals z * (y - z)) =
        (a + b) * secPhi w vals delta z + secD w vals z * (a * (x - z) + b * (y - z)) := by ring
    rw [hab, hzz] at h2
    linarith

/-- the coefficients of `-g` in the eigenbasis -/
theorem coeff_rnorm {U : Fin n → Fin n → ℝ} (hU : OrthoCols U) (g : Fin n → ℝ) : rnorm (fun i => -rdot (fun l => U l i) g) = rnorm g := by
  have h := ortho_complete hU g
  have : (fun i => -rdot (fun l => U l i) g) = (-1 : ℝ) • fun i => rdot (fun l => U l i) g := by
    funext i; simp
  rw [this, rnorm_smul, abs_neg, abs_one, one_mul, ← rnorm_ortho hU, h]

/-- a root of the secular function is the solution -/
theorem root_solution {B : Fin n → Fin n → ℝ} (hB : Sym B) (g : Fin n → ℝ) (delta q : ℝ) (hd : 0 < delta)
    (vals : Fin n → ℝ) (U : Fin n → Fin n → ℝ) (hE : IsEig B vals U) (hq : ∀ i, 0 < vals i + q) (hq0 : 0 ≤ q)
    (hr : secPhi (fun i => -rdot (fun l => U l i) g) vals delta q = 0) :
    ∃ s : Fin n → ℝ, slam (fin q) (ofV fun i => -rdot (fun l => U l i) g) (ofV vals) (ofM U) = ofV s ∧
      rmv B s + q • s = -g ∧ rnorm s = delta ∧ MinOverBall B g delta s := by
  have hne : ∀ i, vals i + q ≠ 0 := fun i => (hq i).ne'
  refine ⟨rmv U (slamC q (fun i => -rdot (fun l => U l i) g) vals), slam_fin _ _ _ _, ?_⟩
  have hstat := rmv_slamC_zero hE g q (fun i hi => absurd hi (hne i))
  have hnorm : rnorm (rmv U (slamC q (fun i => -rdot (fun l => U l i) g) vals)) = delta := by
    rw [rnorm_ortho hE.1, slamC_secA _ _ _ hne]
    rw [secPhi, sub_eq_zero] at hr
    rw [← one_div_one_div (rnorm _), hr, one_div_one_div]
  exact ⟨hstat, hnorm, more_sorensen hB g _ delta q hd.le hstat (eig_psd hE fun i => (hq i).le) hq0 (Or.inr hnorm.ge)⟩

/-- sign of the secular function in terms of the shifted system -/
theorem secPhi_neg_of {B : Fin n → Fin n → ℝ} (g : Fin n → ℝ) (delta l : ℝ) (hd : 0 < delta)
    (vals : Fin n → ℝ) (U : Fin n → Fin n → ℝ) (hE : IsEig B vals U) (hl : ∀ i, 0 < vals i + l) (s : Fin n → ℝ)
    (hs : rmv B s + l • s = -g) (hsd : delta < rnorm s) :
    (fun i => -rdot (fun l => U l i) g) ≠ 0 ∧ secPhi (fun i => -rdot (fun l => U l i) g) vals delta l < 0 := by
  have hc : s = rmv U fun j => rdot (fun i => U i j) s := (ortho_complete hE.1 s).symm
  have hcoef : secA (fun i => -rdot (fun l => U l i) g) vals l = fun j => rdot (fun i => U i j) s := by
    funext j
    have h1 : rdot (fun i => U i j) (rmv B s + l • s) = (vals j + l) * rdot (fun i => U i j) s := by
      conv_lhs => rw [hc]
      rw [eig_apply hE, ← rmv_smul, ← rmv_add, ortho_coeff hE.1]
      simp only [Pi.add_apply, Pi.smul_apply, smul_eq_mul]; ring
    rw [hs, rdot_neg] at h1
    simp only [secA]
    rw [h1]
    have := (hl j).ne'
    field_simp
  have hn : rnorm (secA (fun i => -rdot (fun l => U l i) g) vals l) = rnorm s := by
    rw [hcoef, ← rnorm_ortho hE.1, ← hc]
  have hpos : 0 < rnorm s := hd.trans hsd
  constructor
  · intro h0
    rw [h0] at hn
    have : secA (0 : Fin n → ℝ) vals l = 0 := by funext i; simp [secA]
    rw [this, rnorm_eq_zero.mpr rfl] at hn
    linarith
  · rw [secPhi, hn, sub_neg]
    exact one_div_lt_one_div_of_lt hd hsd

/-- C81: Newton's method on the functions the code hands to `scipy.optimize.newton`, started where `B + lam0 I` is positive definite and the
shifted Newton step is too long, increases monotonically to the multiplier of the exact solution, with at least linear rate.  For
positive definite `B` and `lam0 = 0` this is the call made by the solver. -/
theorem C81_newton {B : Fin n → Fin n → ℝ} (hB : Sym B) (g : Fin n → ℝ) (delta lam0 : ℝ) (hd : 0 < delta) (h0 : 0 ≤ lam0)
    (vals : Fin n → ℝ) (U : Fin n → Fin n → ℝ) (hE : IsEig B vals U) (hl : ∀ i, 0 < vals i + lam0) (s0 : Fin n → ℝ)
    (hs0 : rmv B s0 + lam0 • s0 = -g) (hlong : delta < rnorm s0) :
    let w : Fin n → ℝ := fun i => -rdot (fun l => U l i) g
    let sec := fun l => secular l (ofV w) (ofV vals) (ofM U) (fin delta)
    let dsec := fun l => dsecular l (ofV w) (ofV vals) (ofM U) (fin delta)
    ∃ (r : ℝ) (s : Fin n → ℝ) (x : ℕ → ℝ) (c : ℝ), (rmv B s + r • s = -g ∧ rnorm s = delta ∧ MinOverBall B g delta s) ∧
      slam (fin r) (ofV w) (ofV vals) (ofM U) = ofV s ∧ (∀ k, newtonSeq sec dsec (fin lam0) k = fin (x k)) ∧ Monotone x ∧
      0 ≤ c ∧ c < 1 ∧ ∀ k, lam0 ≤ x k ∧ x k ≤ r ∧ r - x k ≤ c ^ k * (r - lam0) := by
  intro w sec dsec
  obtain ⟨hw, hneg⟩ := secPhi_neg_of g delta lam0 hd vals U hE hl s0 hs0 hlong
  have hfar := secPhi_nonneg w vals delta lam0 (lam0 + rnorm w / delta) hd (fun i => (hl i).le) (by linarith) hw
  obtain ⟨r, hr1, -, hr⟩ := secPhi_root w vals delta lam0 (lam0 + rnorm w / delta) hl
    (le_add_of_nonneg_right (div_nonneg (rnorm_nonneg _) hd.le)) hw hneg hfar
  have hrp : ∀ i, 0 < vals i + r := fun i => by have := hl i; linarith
  obtain ⟨s, e1, e2, e3, e4⟩ := root_solution hB g delta r hd vals U hE hrp (h0.trans hr1.le) hr
  have hD0 := secD_pos w vals lam0 hl hw
  have hDr := secD_pos w vals r hrp hw
  have hA := secD_anti w vals lam0 r hl hr1.le hw
  have hspec := secNewton_spec w vals delta lam0 r hl hw hr1.le hr
  refine ⟨r, s, secNewton w vals delta lam0, 1 - secD w vals r / secD w vals lam0, ⟨e2, e3, e4⟩, e1,
    newtonSeq_real hE.1 w vals delta lam0 r hd.ne' hl hw hr1.le hr, monotone_nat_of_le_succ fun k => (hspec k).2.1, ?_, ?_,
    fun k => ⟨(hspec k).1, (hspec k).2.2.1, (hspec k).2.2.2⟩⟩
  · rw [sub_nonneg, div_le_one hD0]; exact hA
  · have := div_pos hDr hD0; linarith

/-- what the bracketing loop ends with -/
theorem bracket_found (sec : Num → Num) (m : ℕ) (xa xb : ℝ) (hab : xa < xb) (hb : 0 < xb)
    (hex : ∃ k < m, lt (sec (fin (xb * 10 ^ k))) (fin 0) = false) :
    ∃ m' xa' xb', bracket sec m (fin xa) (fin xb) = (m', fin xa', fin xb') ∧ 0 < m' ∧
      (xa' = xa ∨ (xa < xa' ∧ lt (sec (fin xa')) (fin 0) = true)) ∧ xa' < xb' ∧ lt (sec (fin xb')) (fin 0) = false := by
  induction m generalizing xa xb with
  | zero => obtain ⟨k, hk, -⟩ := hex; exact absurd hk (Nat.not_lt_zero k)
  | succ m ih =>
    have e : (fin xb * Fides.lit 10 : Num) = fin (xb * 10) := by rw [lit_def, fin_mul]; norm_num
    have e0 : (Fides.lit 0 : Num) = fin 0 := by simp
    rw [bracket, e, e0]
    by_cases h : lt (sec (fin xb)) (fin 0) = true
    · rw [if_pos h]
      obtain ⟨k, hk, hk'⟩ := hex
      have hk0 : k ≠ 0 := by
        rintro rfl
        rw [pow_zero, mul_one, h] at hk'
        cases hk'
      obtain ⟨k, rfl⟩ := Nat.exists_eq_succ_of_ne_zero hk0
      obtain ⟨m', xa', xb', h1, h2, h3, h4, h5⟩ := ih xb (xb * 10) (by linarith) (by linarith)
        ⟨k, by omega, by rw [mul_assoc, ← pow_succ']; exact hk'⟩
      refine ⟨m', xa', xb', h1, h2, ?_, h4, h5⟩
      rcases h3 with rfl | ⟨h3, h3'⟩
      · exact Or.inr ⟨hab, h⟩
      · exact Or.inr ⟨hab.trans h3, h3'⟩
    · rw [if_neg h]
      exact ⟨m + 1, xa, xb, rfl, Nat.succ_pos m, Or.inl rfl, hab, by simpa using h⟩

/-- the root search succeeds -/
theorem rootFind_found (O : SubOracles Num) (hR : RootFinders O) {B : Fin n → Fin n → ℝ} (hB : Sym B) (g : Fin n → ℝ) (delta li l : ℝ)
    (hd : 0 < delta) (vals : Fin n → ℝ) (U : Fin n → Fin n → ℝ) (hE : IsEig B vals U) (hg : rnorm g ≤ 10 ^ 92 * delta) (h0 : 0 ≤ li)
    (hli : ∀ i, 0 ≤ vals i + li) (hw : (fun i => -rdot (fun l => U l i) g) ≠ 0)
    (hsec : lt (secular (fin li) (ofV fun i => -rdot (fun l => U l i) g) (ofV vals) (ofM U) (fin delta)) (fin 0) = true)
    (hll : li ≤ l) (hl : ∀ i, 0 < vals i + l) (hneg : secPhi (fun i => -rdot (fun l => U l i) g) vals delta l < 0) :
    ∃ s : Fin n → ℝ, rootFind O (ofV fun i => -rdot (fun l => U l i) g) (ofV vals) (ofM U) (fin delta) (fin li) = .ok (some (ofV s)) ∧
      MinOverBall B g delta s := by
  set w : Fin n → ℝ := fun i => -rdot (fun l => U l i) g with hwd
  have hwg : rnorm w = rnorm g := coeff_rnorm hE.1 g
  have hbound : rnorm w / delta ≤ 10 ^ 92 := by rw [hwg, div_le_iff₀ hd]; exact hg
  set m := li + rnorm w / delta with hmd
  have hfar : ∀ m', m ≤ m' → 0 ≤ secPhi w vals delta m' := fun m' hm' =>
    secPhi_nonneg w vals delta li m' hd hli (by linarith) hw
  have hpos_of : ∀ x, li < x → ∀ i, 0 < vals i + x := fun x hx i => by have := hli i; linarith
  have hlm : l < m := by
    by_contra hc
    push Not at hc
    have := hfar l hc
    linarith
  obtain ⟨r, hr1, hr2, hr⟩ := secPhi_root w vals delta l m hl hlm.le hw hneg (hfar m le_rfl)
  have hlir : li < r := lt_of_le_of_lt hll hr1
  have hS : ∀ x, li < x → secular (fin x) (ofV w) (ofV vals) (ofM U) (fin delta) = fin (secPhi w vals delta x) :=
    fun x hx => secular_real hE.1 w vals delta x hd.ne' (hpos_of x hx) hw
  have hroot : ∀ q, li ≤ q → secular (fin q) (ofV w) (ofV vals) (ofM U) (fin delta) = fin 0 → ∃ s : Fin n → ℝ,
      slam (fin q) (ofV w) (ofV vals) (ofM U) = ofV s ∧ rnorm s = delta ∧ MinOverBall B g delta s := by
    intro q hq h
    have hlt : li < q := by
      rcases hq.eq_or_lt with rfl | h'
      · rw [h] at hsec; simp at hsec
      · exact h'
    rw [hS q hlt, fin_inj] at h
    obtain ⟨s, e1, -, e3, e4⟩ := root_solution hB g delta q hd vals U hE (hpos_of q hlt) (h0.trans hq) h
    exact ⟨s, e1, e3, e4⟩
  have brent : ∃ s : Fin n → ℝ, brentAttempt O (ofV w) (ofV vals) (ofM U) (fin delta) (fin li) = .ok (some (ofV s)) ∧ MinOverBall B g delta s := by
    have exb : (fin li + FloatOps.sqrt spacing1) * Fides.lit 10 = (fin ((li + 1 / 67108864) * 10) : Num) := by
      rw [sqrt_spacing1]; simp
    obtain ⟨m', xa', xb', b1, b2, b3, b4, b5⟩ := bracket_found (fun l => secular l (ofV w) (ofV vals) (ofM U) (fin delta)) 100 li
      ((li + 1 / 67108864) * 10) (by linarith) (by linarith) ⟨99, by norm_num, by
        have hge : m ≤ (li + 1 / 67108864) * 10 * 10 ^ 99 := by
          have e1 : (li + 1 / 67108864) * 10 * 10 ^ 99 = li * 10 ^ 100 + (1 / 67108864 * 10 ^ 8) * 10 ^ 92 := by ring
          have e2 : (1 : ℝ) ≤ 1 / 67108864 * 10 ^ 8 := by norm_num
          have e3 : (1 : ℝ) * 10 ^ 92 ≤ (1 / 67108864 * 10 ^ 8) * 10 ^ 92 := mul_le_mul_of_nonneg_right e2 (by positivity)
          have e4 : li * 1 ≤ li * 10 ^ 100 := mul_le_mul_of_nonneg_left (one_le_pow₀ (by norm_num)) h0
          rw [e1, hmd]
          linarith
        have hgt : li < (li + 1 / 67108864) * 10 * 10 ^ 99 := lt_of_lt_of_le (by linarith) hge
        rw [hS _ hgt]
        have := hfar _ hge
        simpa using this⟩
    have hlix : li ≤ xa' := by rcases b3 with rfl | ⟨h, -⟩; exacts [le_rfl, h.le]
    have hxa : lt (secular (fin xa') (ofV w) (ofV vals) (ofM U) (fin delta)) (fin 0) = true := by
      rcases b3 with rfl | ⟨-, h⟩; exacts [hsec, h]
    have hxb : li < xb' := lt_of_le_of_lt hlix b4
    have hxb0 : 0 ≤ secPhi w vals delta xb' := by
      rw [hS _ hxb] at b5; simpa using b5
    have hra : xa' ≤ r := by
      rcases b3 with rfl | ⟨h, h'⟩
      · exact hlir.le
      · by_contra hc
        push Not at hc
        rw [hS _ h] at h'
        have h'' : secPhi w vals delta xa' < 0 := by simpa using h'
        have := secPhi_lt w vals delta r xa' (hpos_of r hlir) hc hw
        linarith
    have hrb : r ≤ xb' := by
      by_contra hc
      push Not at hc
      have := secPhi_lt w vals delta xb' r (hpos_of xb' hxb) hc hw
      linarith
    obtain ⟨q, q1, q2, q3, q4⟩ := hR.brentq (fun l => secular l (ofV w) (ofV vals) (ofM U) (fin delta)) xa' xb' m' b2 hxa
      (by rw [hS _ hxb]; simpa using hxb0) ⟨r, hra, hrb, by rw [hS _ hlir, hr]⟩
    obtain ⟨s, s1, s2, s3⟩ := hroot q (hlix.trans q2) q4
    refine ⟨s, ?_, s3⟩
    rw [brentAttempt, exb]
    dsimp only
    rw [b1]
    dsimp only
    rw [if_pos b2, q1]
    dsimp only
    rw [s1, norm_ofV, s2, sqrt_spacing1, if_pos (by simp)]
  rw [rootFind]
  dsimp only
  rcases hR.newton (fun l => secular l (ofV w) (ofV vals) (ofM U) (fin delta)) li
      (fun l => dsecular l (ofV w) (ofV vals) (ofM U) (fin delta)) with ⟨q, q1, q2, q3⟩ | hne
  · obtain ⟨s, s1, s2, s3⟩ := hroot q q2 q3
    refine ⟨s, ?_, s3⟩
    rw [q1]
    dsimp only
    rw [s1, norm_ofV, s2, if_pos (by simp)]
  · rw [hne]
    exact brent

/-- C81: for positive definite matrices the solver always returns the exact minimizer of the model over the trust region. -/
theorem C81_posdef (O : SubOracles Num) (hR : RootFinders O) {B : Fin n → Fin n → ℝ} (hn : 0 < n) (hB : Sym B) (hP : PD B) (g : Fin n → ℝ) (delta : ℝ)
    (hd : 0 < delta) (vals : Fin n → ℝ) (U : Fin n → Fin n → ℝ) (he : O.eig (ofM B) = .ok (ofV vals, ofM U)) (hE : IsEig B vals U)
    (hg : rnorm g ≤ 10 ^ 92 * delta) :
    ∃ s ty, solveNd O (ofM B) (ofV g) (fin delta) = .ok (ofV s, ty) ∧ ty ≠ .hard ∧ MinOverBall B g delta s := by
  obtain ⟨j, hj, hmin⟩ := argminIdx_fin vals hn
  have hw : (fun i => -(dot (fun l => ofM U l i) (ofV g))) = ofV (fun i => -rdot (fun l => U l i) g) := by
    funext i
    exact congrArg Neg.neg (dot_ofV (fun l => U l i) g)
  have hpos : ∀ i, 0 < vals i := by
    intro i
    have h1 : rdot (fun l => U l i) (fun l => U l i) = 1 := by rw [hE.1 i i, if_pos rfl]
    have h2 : (fun l => U l i) ≠ 0 := by
      intro h; rw [h, rdot_zero] at h1; exact zero_ne_one h1
    have := hP _ h2
    rw [hE.2 i, rdot_smul, h1, mul_one] at this
    exact this
  have e0 : (Fides.lit 0 : Num) = fin 0 := by simp
  rw [solveNd, if_neg (by simpa using hd.ne'), he]
  simp only [hj, hw, e0, sqrt_spacing1, fin_add]
  have hlt : lt (fin 0) (ofV vals j) = true := by simpa using hpos j
  rw [hlt, Bool.true_and, if_pos rfl]
  have hp0 : ∀ i, 0 < vals i + 0 := fun i => by simpa using hpos i
  obtain ⟨s, hs⟩ : ∃ s, slam (fin 0) (ofV fun i => -rdot (fun l => U l i) g) (ofV vals) (ofM U) = ofV s := ⟨_, slam_fin _ _ _ _⟩
  have hsdef : s = rmv U (slamC 0 (fun i => -rdot (fun l => U l i) g) vals) := by
    rw [slam_fin] at hs; exact (ofV_inj.mp hs).symm
  have hstat : rmv B s + (0 : ℝ) • s = -g := by
    rw [hsdef]; exact rmv_slamC_zero hE g 0 (fun i hi => absurd hi (hp0 i).ne')
  by_cases hle : le (norm (slam (fin 0) (ofV fun i => -rdot (fun l => U l i) g) (ofV vals) (ofM U))) (fin (delta + 1 / 67108864)) = true
  · rw [if_pos hle, hs]
    exact ⟨s, .posdef, rfl, by decide, more_sorensen hB g s delta 0 hd.le hstat (eig_psd hE fun i => (hp0 i).le) le_rfl (Or.inl rfl)⟩
  · rw [if_neg hle]
    have hlong : delta < rnorm s := by
      rw [hs, norm_ofV] at hle
      simp only [fin_le, decide_eq_true_eq, not_le] at hle
      linarith
    obtain ⟨hw0, hneg⟩ := secPhi_neg_of g delta 0 hd vals U hE hp0 s hstat hlong
    have hsec : lt (secular (fin 0) (ofV fun i => -rdot (fun l => U l i) g) (ofV vals) (ofM U) (fin delta)) (fin 0) = true := by
      rw [secular_real hE.1 _ vals delta 0 hd.ne' hp0 hw0]; simpa using hneg
    obtain ⟨s', h1, h2⟩ := rootFind_found O hR hB g delta 0 0 hd vals U hE hg le_rfl (fun i => (hp0 i).le) hw0 hsec le_rfl hp0 hneg
    rw [if_pos hsec, h1]
    exact ⟨s', .indef, rfl, by decide, h2⟩

/-- C81: for matrices with a lowest eigenvalue that is not positive, when the gradient has a component in the direction of its eigenvector (`k`) and the
test in front of the root search passes, the solver returns the exact minimizer of the model over the trust region. -/
theorem C81_indefinite (O : SubOracles Num) (hR : RootFinders O) {B : Fin n → Fin n → ℝ} (hB : Sym B) (g : Fin n → ℝ) (delta : ℝ)
    (hd : 0 < delta) (vals : Fin n → ℝ) (U : Fin n → Fin n → ℝ) (he : O.eig (ofM B) = .ok (ofV vals, ofM U)) (hE : IsEig B vals U)
    (hg : rnorm g ≤ 10 ^ 92 * delta) (k : Fin n) (hk : ∀ i, vals k ≤ vals i) (hk0 : vals k ≤ 0) (hgk : rdot (fun l => U l k) g ≠ 0)
    (htest : delta * delta < ∑ i, if vals i = vals k then rdot (fun l => U l i) g ^ 2 else (rdot (fun l => U l i) g / (vals i - vals k)) ^ 2) :
    ∃ s ty, solveNd O (ofM B) (ofV g) (fin delta) = .ok (ofV s, ty) ∧ ty ≠ .hard ∧ MinOverBall B g delta s := by
  have hn : 0 < n := k.pos
  obtain ⟨j, hj, hmin⟩ := argminIdx_fin vals hn
  have hjk : vals j = vals k := le_antisymm (hmin k) (hk j)
  have hw : (fun i => -(dot (fun l => ofM U l i) (ofV g))) = ofV (fun i => -rdot (fun l => U l i) g) := by
    funext i
    exact congrArg Neg.neg (dot_ofV (fun l => U l i) g)
  have e0 : (Fides.lit 0 : Num) = fin 0 := by simp
  rw [solveNd, if_neg (by simpa using hd.ne'), he]
  simp only [hj, hw, e0, sqrt_spacing1, fin_add]
  have hlt : lt (fin 0) (ofV vals j) = false := by simpa [hjk] using hk0
  have hli' : (if (false = true) then fin 0 else -(ofV vals j) : Num) = fin (-(vals k)) := by
    rw [if_neg (by simp), ofV_apply, fin_neg, hjk]
  rw [hlt, Bool.false_and, if_neg (by simp), hli']
  set w : Fin n → ℝ := fun i => -rdot (fun l => U l i) g with hwd
  have hw0 : w ≠ 0 := by
    intro h
    have := congrFun h k
    simp only [hwd, Pi.zero_apply, neg_eq_zero] at this
    exact hgk this
  have hli : ∀ i, 0 ≤ vals i + -(vals k) := fun i => by have := hk i; linarith
  have hsec : lt (secular (fin (-(vals k))) (ofV w) (ofV vals) (ofM U) (fin delta)) (fin 0) = true := by
    have hlong : delta < rnorm (slamC (-(vals k)) w vals) := by
      by_contra hc
      push Not at hc
      rw [rnorm_le_iff hd.le] at hc
      refine absurd htest (not_lt.mpr (le_trans (le_of_eq ?_) hc))
      refine Finset.sum_congr rfl fun i _ => ?_
      simp only [slamC, hwd]
      by_cases hi : vals i = vals k
      · rw [if_pos hi, if_pos (by rw [hi]; ring)]; ring
      · rw [if_neg hi, if_neg (fun h => hi (by linarith)), sub_eq_add_neg]; ring
    rw [secular_fin _ _ _ _ _ k hk hd.ne', if_neg (lt_irrefl _), rnorm_ortho hE.1, if_pos (hd.trans hlong)]
    simp only [fin_lt, decide_eq_true_eq, sub_neg]
    exact one_div_lt_one_div_of_lt hd hlong
  have hgp : 0 < |rdot (fun l => U l k) g| := abs_pos.mpr hgk
  set l := -(vals k) + |rdot (fun l => U l k) g| / (2 * delta) with hl
  have hlp : 0 < |rdot (fun l => U l k) g| / (2 * delta) := by positivity
  have hlpos : ∀ i, 0 < vals i + l := fun i => by have := hk i; linarith
  have hneg : secPhi w vals delta l < 0 := by
    have hlong : delta < rnorm (secA w vals l) := by
      by_contra hc
      push Not at hc
      rw [rnorm_le_iff hd.le] at hc
      have h1 : secA w vals l k * secA w vals l k ≤ rdot (secA w vals l) (secA w vals l) :=
        Finset.single_le_sum (f := fun i => secA w vals l i * secA w vals l i) (fun i _ => mul_self_nonneg _) (Finset.mem_univ k)
      have h2 : |secA w vals l k| = 2 * delta := by
        have e : vals k + l = |rdot (fun l => U l k) g| / (2 * delta) := by rw [hl]; ring
        simp only [secA, hwd]
        rw [e, abs_div, abs_neg, abs_of_pos hlp]
        field_simp
      have h3 : secA w vals l k * secA w vals l k = 4 * (delta * delta) := by
        rw [← abs_mul_abs_self, h2]; ring
      have : 0 < delta * delta := mul_pos hd hd
      linarith
    rw [secPhi, sub_neg]
    exact one_div_lt_one_div_of_lt hd hlong
  obtain ⟨s', h1, h2⟩ := rootFind_found O hR hB g delta (-(vals k)) l hd vals U hE hg (by linarith) hli hw0 hsec (by linarith) hlpos hneg
  rw [if_pos hsec, h1]
  exact ⟨s', .indef, rfl, by decide, h2⟩

/-! ## examples -/

/-- root finders as in `RootFinders`: `newton` always gives up, `brentq` returns some root of the interval; eigenvalues of diagonal matrices -/
noncomputable def rootOracles : SubOracles Num where
  eig := fun {k} B => .ok (fun i => B i i, ofM (idM : Fin k → Fin k → ℝ))
  newton := fun _ _ _ => .error .runtimeError
  brentq := fun f a b _ =>
    open Classical in
    if h : ∃ q : ℝ, le a (fin q) = true ∧ le (fin q) b = true ∧ f (fin q) = fin 0 then .ok (fin h.choose) else .error .runtimeError

theorem rootOracles_roots : RootFinders rootOracles where
  newton := fun _ _ _ => Or.inr rfl
  brentq := by
    rintro f a b m - - - ⟨q, h1, h2, h3⟩
    have h : ∃ q : ℝ, le (fin a) (fin q) = true ∧ le (fin q) (fin b) = true ∧ f (fin q) = fin 0 :=
      ⟨q, by simpa using h1, by simpa using h2, h3⟩
    refine ⟨h.choose, dif_pos h, ?_, ?_, h.choose_spec.2.2⟩
    · simpa using h.choose_spec.1
    · simpa using h.choose_spec.2.1

theorem rootOracles_eig (d : Fin n → ℝ) : rootOracles.eig (ofM fun i j => if i = j then d i else 0) = .ok (ofV d, ofM idM) := by
  have : (fun i => ofM (fun i j => if i = j then d i else 0) i i) = ofV d := by funext i; simp [ofM, ofV]
  show Except.ok (_, _) = _
  rw [this]

theorem rnorm_pair (a b c : ℝ) (hc : 0 ≤ c) (h : a * a + b * b = c * c) : rnorm ![a, b] = c := by
  rw [rnorm, show rdot ![a, b] ![a, b] = c * c by simp [rdot, Fin.sum_univ_two, h], Real.sqrt_mul_self hc]

/-- C81_newton: `B = diag(1, 2)`, `g = (-3, -8)`, radius 1: the Newton step `(3, 4)` is too long -/
example : Spec.Sym (fun i j : Fin 2 => if i = j then ![(1 : ℝ), 2] i else 0) ∧ IsEig (fun i j : Fin 2 => if i = j then ![(1 : ℝ), 2] i else 0) ![1, 2] idM ∧
    (∀ i : Fin 2, 0 < ![(1 : ℝ), 2] i + 0) ∧
    rmv (fun i j : Fin 2 => if i = j then ![(1 : ℝ), 2] i else 0) ![3, 4] + (0 : ℝ) • ![3, 4] = -![-3, -8] ∧ 1 < rnorm ![(3 : ℝ), 4] := by
  refine ⟨?_, diag_isEig _, ?_, ?_, ?_⟩
  · intro i j; fin_cases i <;> fin_cases j <;> simp
  · intro i; fin_cases i <;> norm_num
  · funext i; fin_cases i <;> simp [rmv, rdot, Fin.sum_univ_two] <;> norm_num
  · rw [rnorm_pair 3 4 5 (by norm_num) (by norm_num)]; norm_num

/-- C81_posdef on the same problem -/
example : ∃ s ty, solveNd rootOracles (ofM fun i j : Fin 2 => if i = j then ![(1 : ℝ), 2] i else 0) (ofV ![-3, -4]) (fin 1) = .ok (ofV s, ty) ∧ ty ≠ .hard ∧
    MinOverBall (fun i j : Fin 2 => if i = j then ![(1 : ℝ), 2] i else 0) ![-3, -4] 1 s := by
  refine C81_posdef rootOracles rootOracles_roots (by norm_num) ?_ ?_ _ 1 one_pos _ _ (rootOracles_eig _) (diag_isEig _) ?_
  · intro i j; fin_cases i <;> fin_cases j <;> simp
  · intro v hv
    have : rdot v (rmv (fun i j : Fin 2 => if i = j then ![(1 : ℝ), 2] i else 0) v) = rdot v v + v 1 * v 1 := by
      simp [rdot, rmv, Fin.sum_univ_two]; ring
    rw [this]
    have := rdot_self_pos hv
    have := mul_self_nonneg (v 1)
    linarith
  · rw [rnorm_pair (-3) (-4) 5 (by norm_num) (by norm_num)]
    have : (10 : ℝ) ^ 1 ≤ 10 ^ 92 := pow_le_pow_right₀ (by norm_num) (by norm_num)
    linarith

/-- C81_indefinite: `B = diag(-1, 1)`, `g = (3, 4)`, radius 1 -/
example : ∃ s ty, solveNd rootOracles (ofM fun i j : Fin 2 => if i = j then ![(-1 : ℝ), 1] i else 0) (ofV ![3, 4]) (fin 1) = .ok (ofV s, ty) ∧ ty ≠ .hard ∧
    MinOverBall (fun i j : Fin 2 => if i = j then ![(-1 : ℝ), 1] i else 0) ![3, 4] 1 s := by
  have hc : ∀ i : Fin 2, rdot (fun l => (idM : Fin 2 → Fin 2 → ℝ) l i) ![3, 4] = ![3, 4] i := by
    intro i; fin_cases i <;> simp [rdot, idM, Fin.sum_univ_two]
  refine C81_indefinite rootOracles rootOracles_roots ?_ _ 1 one_pos _ _ (rootOracles_eig _) (diag_isEig _) ?_ 0 ?_ ?_ ?_ ?_
  · intro i j; fin_cases i <;> fin_cases j <;> simp
  · rw [rnorm_pair 3 4 5 (by norm_num) (by norm_num)]
    have : (10 : ℝ) ^ 1 ≤ 10 ^ 92 := pow_le_pow_right₀ (by norm_num) (by norm_num)
    linarith
  · intro i; fin_cases i <;> norm_num
  · norm_num
  · rw [hc]; norm_num
  · simp only [hc, Fin.sum_univ_two]
    norm_num

end Fides
