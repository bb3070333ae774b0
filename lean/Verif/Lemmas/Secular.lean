import Verif.Lemmas.Subproblem
import Verif.Spec.Secular
import Mathlib.Analysis.Calculus.Deriv.Inv
import Mathlib.Analysis.Calculus.Deriv.Add
import Mathlib.Analysis.Calculus.Deriv.Mul
import Mathlib.Analysis.SpecialFunctions.Sqrt
import Mathlib.Analysis.Convex.Mul
import Mathlib.Analysis.Convex.Jensen
import Mathlib.Topology.Order.IntermediateValue
import Mathlib.Analysis.SpecificLimits.Basic

/-!
# The secular function of the trust-region subproblem over the reals
-/

namespace Fides
open Num Spec Filter
variable {n : ℕ}

/-- coefficients of `s(l)` away from the spectrum -/
noncomputable def secA (w vals : Fin n → ℝ) (l : ℝ) : Fin n → ℝ := fun i => w i / (vals i + l)

/-- coefficients of `s'(l)` away from the spectrum -/
noncomputable def secDA (w vals : Fin n → ℝ) (l : ℝ) : Fin n → ℝ := fun i => w i / -((vals i + l) * (vals i + l))

/-- secular function to the right of the spectrum -/
noncomputable def secPhi (w vals : Fin n → ℝ) (delta l : ℝ) : ℝ := 1 / rnorm (secA w vals l) - 1 / delta

/-- its derivative -/
noncomputable def secD (w vals : Fin n → ℝ) (l : ℝ) : ℝ :=
  -(rdot (secA w vals l) (secDA w vals l)) / (rnorm (secA w vals l) * rnorm (secA w vals l) * rnorm (secA w vals l))

theorem slamC_secA (w vals : Fin n → ℝ) (l : ℝ) (h : ∀ i, vals i + l ≠ 0) : slamC l w vals = secA w vals l := by
  funext i
  rw [slamC, if_neg (h i)]; rfl

theorem dslam_fin (w vals : Fin n → ℝ) (U : Fin n → Fin n → ℝ) (l : ℝ) (h : ∀ i, vals i + l ≠ 0) :
    dslam (fin l) (ofV w) (ofV vals) (ofM U) = ofV (rmv U (secDA w vals l)) := by
  rw [dslam, ← mulVec_ofM]
  congr 1
  funext i
  have := h i
  simp only [ofV_apply, fin_add, lit_def, fin_feq, Rat.cast_zero, decide_eq_true_eq, fin_mul, fin_neg, secDA]
  rw [if_neg this, fin_div _ _ (by simp [this])]

theorem secA_ne {w vals : Fin n → ℝ} {l : ℝ} (h : ∀ i, vals i + l ≠ 0) (hw : w ≠ 0) : secA w vals l ≠ 0 := by
  intro h0
  apply hw
  funext i
  have := congrFun h0 i
  simp only [secA, Pi.zero_apply, div_eq_zero_iff] at this
  exact this.resolve_right (h i)

theorem rnorm_ortho {U : Fin n → Fin n → ℝ} (hU : OrthoCols U) (c : Fin n → ℝ) : rnorm (rmv U c) = rnorm c := by
  rw [rnorm, rnorm, ortho_rdot hU]

theorem secular_real {U : Fin n → Fin n → ℝ} (hU : OrthoCols U) (w vals : Fin n → ℝ) (delta l : ℝ) (hd : delta ≠ 0)
    (h : ∀ i, 0 < vals i + l) (hw : w ≠ 0) :
    secular (fin l) (ofV w) (ofV vals) (ofM U) (fin delta) = fin (secPhi w vals delta l) := by
  have hn : 0 < n := by
    rcases Nat.eq_zero_or_pos n with rfl | hn
    · exact absurd (Subsingleton.elim _ _) hw
    · exact hn
  obtain ⟨j, -, hmin⟩ := argminIdx_fin vals hn
  rw [secular_fin _ _ _ _ _ j hmin hd, if_neg (by have := h j; linarith), rnorm_ortho hU,
    slamC_secA _ _ _ fun i => (h i).ne', if_pos (rnorm_pos (secA_ne (fun i => (h i).ne') hw))]
  rfl

theorem dsecular_real {U : Fin n → Fin n → ℝ} (hU : OrthoCols U) (w vals : Fin n → ℝ) (delta l : ℝ)
    (h : ∀ i, vals i + l ≠ 0) (hw : w ≠ 0) :
    dsecular (fin l) (ofV w) (ofV vals) (ofM U) (fin delta) = fin (secD w vals l) := by
  have hp := rnorm_pos (secA_ne h hw)
  rw [dsecular, slam_fin, dslam_fin _ _ _ _ h, slamC_secA _ _ _ h]
  simp only [norm_ofV, rnorm_ortho hU, dot_ofV, ortho_rdot hU]
  rw [if_pos (by simpa using hp)]
  simp only [fin_neg, fin_mul]
  rw [fin_div _ _ (by positivity)]
  rfl

theorem secA_hasDeriv (w vals : Fin n → ℝ) (l : ℝ) (h : ∀ i, vals i + l ≠ 0) (i : Fin n) :
    HasDerivAt (fun l => secA w vals l i) (secDA w vals l i) l := by
  have h1 : HasDerivAt (fun l => vals i + l) 1 l := (hasDerivAt_id l).const_add (vals i)
  have h2 := (h1.fun_inv (h i)).const_mul (w i)
  have e : w i * (-1 / (vals i + l) ^ 2) = secDA w vals l i := by
    have := h i
    simp only [secDA]; field_simp
  rw [e] at h2
  refine h2.congr_of_eventuallyEq (Eventually.of_forall fun l => ?_)
  simp only [secA, div_eq_mul_inv]

theorem secPhi_hasDeriv (w vals : Fin n → ℝ) (delta l : ℝ) (h : ∀ i, vals i + l ≠ 0) (hw : w ≠ 0) :
    HasDerivAt (secPhi w vals delta) (secD w vals l) l := by
  have hs : HasDerivAt (fun l => rdot (secA w vals l) (secA w vals l)) (2 * rdot (secA w vals l) (secDA w vals l)) l := by
    have := HasDerivAt.fun_sum (u := Finset.univ) fun i (_ : i ∈ Finset.univ) =>
      (secA_hasDeriv w vals l h i).fun_mul (secA_hasDeriv w vals l h i)
    have e : ∑ i, (secDA w vals l i * secA w vals l i + secA w vals l i * secDA w vals l i) =
        2 * rdot (secA w vals l) (secDA w vals l) := by
      rw [rdot, Finset.mul_sum]
      exact Finset.sum_congr rfl fun i _ => by ring
    rw [e] at this
    exact this
  have hne : rdot (secA w vals l) (secA w vals l) ≠ 0 := (rdot_self_pos (secA_ne h hw)).ne'
  have hp := rnorm_pos (secA_ne h hw)
  have h3 := ((hs.sqrt hne).fun_inv (by simpa [rnorm] using hp.ne')).sub_const (1 / delta)
  have e : -(2 * rdot (secA w vals l) (secDA w vals l) / (2 * √(rdot (secA w vals l) (secA w vals l)))) /
      √(rdot (secA w vals l) (secA w vals l)) ^ 2 = secD w vals l := by
    show -(2 * rdot (secA w vals l) (secDA w vals l) / (2 * rnorm (secA w vals l))) / rnorm (secA w vals l) ^ 2 = _
    rw [secD]; field_simp
  rw [e] at h3
  refine h3.congr_of_eventuallyEq (Eventually.of_forall fun l => ?_)
  simp only [secPhi, one_div]; rfl

/-- `-s·s' = Σ a²/(vals+l)` -/
theorem secA_secDA (w vals : Fin n → ℝ) (l : ℝ) (h : ∀ i, vals i + l ≠ 0) :
    -(rdot (secA w vals l) (secDA w vals l)) = ∑ i, secA w vals l i * secA w vals l i * (vals i + l)⁻¹ := by
  rw [rdot, ← Finset.sum_neg_distrib]
  refine Finset.sum_congr rfl fun i _ => ?_
  have := h i
  simp only [secA, secDA]; field_simp

theorem secD_pos (w vals : Fin n → ℝ) (l : ℝ) (h : ∀ i, 0 < vals i + l) (hw : w ≠ 0) : 0 < secD w vals l := by
  have hne := secA_ne (fun i => (h i).ne') hw
  have hp := rnorm_pos hne
  rw [secD, secA_secDA _ _ _ fun i => (h i).ne']
  refine div_pos ?_ (by positivity)
  obtain ⟨i, hi⟩ : ∃ i, secA w vals l i ≠ 0 := by
    by_contra hc; push Not at hc; exact hne (funext hc)
  refine Finset.sum_pos' (fun i _ => mul_nonneg (mul_self_nonneg _) (inv_nonneg.mpr (h i).le)) ⟨i, Finset.mem_univ i, ?_⟩
  exact mul_pos (mul_self_pos.mpr hi) (inv_pos.mpr (h i))

/-- the secular function lies below its tangents (it is concave) -/
theorem secPhi_tangent (w vals : Fin n → ℝ) (delta l m : ℝ) (hl : ∀ i, 0 < vals i + l) (hm : ∀ i, 0 < vals i + m) (hw : w ≠ 0) :
    secPhi w vals delta m ≤ secPhi w vals delta l + secD w vals l * (m - l) := by
  have hne := secA_ne (fun i => (hl i).ne') hw
  have hne' := secA_ne (fun i => (hm i).ne') hw
  set a := secA w vals l with ha
  set b := secA w vals m with hb
  have hN := rnorm_pos hne
  have hM := rnorm_pos hne'
  set N := rnorm a
  set M := rnorm b
  have hNN : N * N = ∑ i, a i * a i := rnorm_sq a
  have hMM : M * M = ∑ i, b i * b i := rnorm_sq b
  -- weights and points
  let p : Fin n → ℝ := fun i => a i * a i / (N * N)
  let t : Fin n → ℝ := fun i => (vals i + m) / (vals i + l)
  have ht : ∀ i, 0 < t i := fun i => div_pos (hm i) (hl i)
  have hp0 : ∀ i ∈ Finset.univ, 0 ≤ p i := fun i _ => div_nonneg (mul_self_nonneg _) (by positivity)
  have hp1 : ∑ i, p i = 1 := by
    simp only [p, ← Finset.sum_div, ← hNN]
    exact div_self (by positivity)
  have hj := (convexOn_zpow (𝕜 := ℝ) (-2)).map_sum_le hp0 hp1 fun i _ => ht i
  simp only [smul_eq_mul] at hj
  have e1 : ∑ i, p i * (t i) ^ (-2 : ℤ) = M * M / (N * N) := by
    rw [hMM, Finset.sum_div]
    refine Finset.sum_congr rfl fun i _ => ?_
    have h1 := (hl i).ne'
    have h2 := (hm i).ne'
    have : b i = a i / t i := by simp only [ha, hb, secA, t]; field_simp
    rw [this, zpow_neg]
    have h3 := (ht i).ne'
    simp only [p]
    rw [show (t i) ^ (2 : ℤ) = t i * t i by rw [zpow_two]]
    field_simp
  have e2 : ∑ i, p i * t i = 1 + (m - l) * (N * secD w vals l) := by
    have : N * secD w vals l = ∑ i, p i * (vals i + l)⁻¹ := by
      rw [secD, secA_secDA _ _ _ fun i => (hl i).ne']
      show N * ((∑ i, a i * a i * (vals i + l)⁻¹) / (N * N * N)) = _
      rw [show N * ((∑ i, a i * a i * (vals i + l)⁻¹) / (N * N * N)) = (∑ i, a i * a i * (vals i + l)⁻¹) / (N * N) by field_simp,
        Finset.sum_div]
      exact Finset.sum_congr rfl fun i _ => by simp only [p]; ring
    rw [this, Finset.mul_sum, ← hp1, ← Finset.sum_add_distrib]
    refine Finset.sum_congr rfl fun i _ => ?_
    have h1 := (hl i).ne'
    simp only [t]; field_simp; ring
  rw [e1, e2] at hj
  have hpos : 0 < 1 + (m - l) * (N * secD w vals l) := by
    rw [← e2]
    obtain ⟨i, hi⟩ : ∃ i, a i ≠ 0 := by
      by_contra hc; push Not at hc; exact hne (funext hc)
    refine Finset.sum_pos' (fun i _ => mul_nonneg (hp0 i (Finset.mem_univ i)) (ht i).le) ⟨i, Finset.mem_univ i, ?_⟩
    exact mul_pos (div_pos (mul_self_pos.mpr hi) (by positivity)) (ht i)
  set T := 1 + (m - l) * (N * secD w vals l) with hT
  have hsq : N * N ≤ (M * T) * (M * T) := by
    rw [zpow_neg, show T ^ (2 : ℤ) = T * T by rw [zpow_two], inv_le_iff_one_le_mul₀ (by positivity), div_mul_eq_mul_div,
      le_div_iff₀ (by positivity)] at hj
    linarith
  have hNM : N ≤ M * T := by
    by_contra hc
    push Not at hc
    have : (M * T) * (M * T) < N * N := mul_self_lt_mul_self (by positivity) hc
    linarith
  have : 1 / M ≤ T / N := by
    rw [div_le_div_iff₀ hM hN]; linarith
  have e3 : T / N = 1 / N + secD w vals l * (m - l) := by
    rw [hT]; field_simp
  simp only [secPhi]
  show 1 / M - 1 / delta ≤ 1 / N - 1 / delta + _
  linarith

/-- strictly increasing -/
theorem secPhi_lt (w vals : Fin n → ℝ) (delta l m : ℝ) (hl : ∀ i, 0 < vals i + l) (hlm : l < m) (hw : w ≠ 0) :
    secPhi w vals delta l < secPhi w vals delta m := by
  have hm : ∀ i, 0 < vals i + m := fun i => by have := hl i; linarith
  have h1 := secPhi_tangent w vals delta m l hm hl hw
  have h2 := secD_pos w vals m hm hw
  nlinarith

/-- nonnegative far to the right -/
theorem secPhi_nonneg (w vals : Fin n → ℝ) (delta l m : ℝ) (hd : 0 < delta) (hl : ∀ i, 0 ≤ vals i + l) (hm : rnorm w / delta ≤ m - l) (hw : w ≠ 0) :
    0 ≤ secPhi w vals delta m := by
  have hwp := rnorm_pos hw
  have hml : 0 < m - l := lt_of_lt_of_le (by positivity) hm
  have hm' : ∀ i, 0 < vals i + m := fun i => by have := hl i; linarith
  have hne := secA_ne (fun i => (hm' i).ne') hw
  have hle : rnorm (secA w vals m) ≤ delta := by
    rw [rnorm_le_iff hd.le]
    have h1 : rdot (secA w vals m) (secA w vals m) ≤ rdot w w / ((m - l) * (m - l)) := by
      rw [rdot, rdot, Finset.sum_div]
      refine Finset.sum_le_sum fun i _ => ?_
      simp only [secA]
      rw [div_mul_div_comm]
      refine div_le_div_of_nonneg_left (mul_self_nonneg _) (by positivity) ?_
      have := hl i
      exact mul_self_le_mul_self hml.le (by linarith)
    refine h1.trans ?_
    rw [div_le_iff₀ (by positivity), ← rnorm_sq]
    rw [div_le_iff₀ hd] at hm
    calc rnorm w * rnorm w ≤ ((m - l) * delta) * ((m - l) * delta) := mul_self_le_mul_self hwp.le hm
      _ = _ := by ring
  have hp := rnorm_pos hne
  rw [secPhi, sub_nonneg]
  exact one_div_le_one_div_of_le hp hle

/-- a root to the right of a point with a negative value -/
theorem secPhi_root (w vals : Fin n → ℝ) (delta l m : ℝ) (hl : ∀ i, 0 < vals i + l) (hlm : l ≤ m) (hw : w ≠ 0)
    (hneg : secPhi w vals delta l < 0) (hm : 0 ≤ secPhi w vals delta m) : ∃ r, l < r ∧ r ≤ m ∧ secPhi w vals delta r = 0 := by
  have hc : ContinuousOn (secPhi w vals delta) (Set.Icc l m) := by
    intro x hx
    have : ∀ i, vals i + x ≠ 0 := fun i => by have := hl i; have := hx.1; linarith
    exact (secPhi_hasDeriv w vals delta x this hw).continuousAt.continuousWithinAt
  obtain ⟨r, hr, h0⟩ := intermediate_value_Icc hlm hc ⟨hneg.le, hm⟩
  refine ⟨r, lt_of_le_of_ne hr.1 ?_, hr.2, h0⟩
  rintro rfl
  linarith

/-- Newton's method over the reals -/
noncomputable def secNewton (w vals : Fin n → ℝ) (delta l0 : ℝ) : ℕ → ℝ
  | 0 => l0
  | k + 1 => secNewton w vals delta l0 k - secPhi w vals delta (secNewton w vals delta l0 k) / secD w vals (secNewton w vals delta l0 k)

/-- the derivative decreases -/
theorem secD_anti (w vals : Fin n → ℝ) (l m : ℝ) (hl : ∀ i, 0 < vals i + l) (hlm : l ≤ m) (hw : w ≠ 0) : secD w vals m ≤ secD w vals l := by
  rcases hlm.eq_or_lt with rfl | hlt
  · exact le_rfl
  have hm : ∀ i, 0 < vals i + m := fun i => by have := hl i; linarith
  have h1 := secPhi_tangent w vals 1 l m hl hm hw
  have h2 := secPhi_tangent w vals 1 m l hm hl hw
  by_contra hc
  push Not at hc
  nlinarith

theorem secNewton_spec (w vals : Fin n → ℝ) (delta l0 r : ℝ) (hl : ∀ i, 0 < vals i + l0) (hw : w ≠ 0) (hlr : l0 ≤ r)
    (hr : secPhi w vals delta r = 0) (k : ℕ) :
    l0 ≤ secNewton w vals delta l0 k ∧ secNewton w vals delta l0 k ≤ secNewton w vals delta l0 (k + 1) ∧ secNewton w vals delta l0 k ≤ r ∧
      r - secNewton w vals delta l0 k ≤ (1 - secD w vals r / secD w vals l0) ^ k * (r - l0) := by
  have key : ∀ x, l0 ≤ x → x ≤ r → x ≤ x - secPhi w vals delta x / secD w vals x ∧ x - secPhi w vals delta x / secD w vals x ≤ r ∧
      r - (x - secPhi w vals delta x / secD w vals x) ≤ (1 - secD w vals r / secD w vals l0) * (r - x) := by
    intro x h1 h2
    have hx : ∀ i, 0 < vals i + x := fun i => by have := hl i; linarith
    have hrr : ∀ i, 0 < vals i + r := fun i => by have := hl i; linarith
    have hD := secD_pos w vals x hx hw
    have hDr := secD_pos w vals r hrr hw
    have hD0 := secD_pos w vals l0 hl hw
    have hA := secD_anti w vals l0 x hl h1 hw
    have t1 := secPhi_tangent w vals delta x r hx hrr hw
    have t2 := secPhi_tangent w vals delta r x hrr hx hw
    rw [hr] at t1 t2
    have hphi : secPhi w vals delta x ≤ 0 := by nlinarith
    refine ⟨?_, ?_, ?_⟩
    · have : secPhi w vals delta x / secD w vals x ≤ 0 := div_nonpos_of_nonpos_of_nonneg hphi hD.le
      linarith
    · have : -(secPhi w vals delta x) / secD w vals x ≤ r - x := by
        rw [div_le_iff₀ hD]; linarith
      rw [neg_div] at this
      linarith
    · have h3 : secD w vals r / secD w vals l0 * (r - x) ≤ -(secPhi w vals delta x) / secD w vals x := by
        rw [div_mul_eq_mul_div, div_le_div_iff₀ hD0 hD]
        have hn : 0 ≤ r - x := by linarith
        calc secD w vals r * (r - x) * secD w vals x ≤ secD w vals r * (r - x) * secD w vals l0 :=
              mul_le_mul_of_nonneg_left hA (mul_nonneg hDr.le hn)
          _ ≤ _ := mul_le_mul_of_nonneg_right (by linarith) hD0.le
      rw [neg_div] at h3
      linarith
  have hD0 := secD_pos w vals l0 hl hw
  have hA := secD_anti w vals l0 r hl hlr hw
  have hc0 : 0 ≤ 1 - secD w vals r / secD w vals l0 := by
    rw [sub_nonneg, div_le_one hD0]; exact hA
  have main : l0 ≤ secNewton w vals delta l0 k ∧ secNewton w vals delta l0 k ≤ r ∧
      r - secNewton w vals delta l0 k ≤ (1 - secD w vals r / secD w vals l0) ^ k * (r - l0) := by
    induction k with
    | zero => exact ⟨le_rfl, hlr, by simp [secNewton]⟩
    | succ k ih =>
      obtain ⟨i1, i2, i3⟩ := ih
      obtain ⟨k1, k2, k3⟩ := key _ i1 i2
      refine ⟨i1.trans k1, k2, k3.trans ?_⟩
      rw [pow_succ, mul_comm _ (1 - secD w vals r / secD w vals l0), mul_assoc]
      exact mul_le_mul_of_nonneg_left i3 hc0
  exact ⟨main.1, (key _ main.1 main.2.1).1, main.2.1, main.2.2⟩

theorem newtonSeq_real {U : Fin n → Fin n → ℝ} (hU : OrthoCols U) (w vals : Fin n → ℝ) (delta l0 r : ℝ) (hd : delta ≠ 0)
    (hl : ∀ i, 0 < vals i + l0) (hw : w ≠ 0) (hlr : l0 ≤ r) (hr : secPhi w vals delta r = 0) (k : ℕ) :
    newtonSeq (fun l => secular l (ofV w) (ofV vals) (ofM U) (fin delta)) (fun l => dsecular l (ofV w) (ofV vals) (ofM U) (fin delta)) (fin l0) k =
      fin (secNewton w vals delta l0 k) := by
  induction k with
  | zero => rfl
  | succ k ih =>
    have h1 := (secNewton_spec w vals delta l0 r hl hw hlr hr k).1
    have hx : ∀ i, 0 < vals i + secNewton w vals delta l0 k := fun i => by have := hl i; linarith
    rw [newtonSeq, ih]
    rw [secular_real hU w vals delta _ hd hx hw, dsecular_real hU w vals delta _ (fun i => (hx i).ne') hw,
      fin_div _ _ (secD_pos w vals _ hx hw).ne', fin_sub]
    rfl

end Fides
