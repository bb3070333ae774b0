import Verif.Spec.Stationary
import Verif.Lemmas.Affine

/-!
# C29: the affine scaling and first-order optimality
-/

set_option linter.unusedSectionVars false

namespace Fides
open Num Spec
variable {n : ℕ}

theorem rdot_single_diff (g x : Fin n → ℝ) (i : Fin n) (t : ℝ) : rdot g (Function.update x i t - x) = g i * (t - x i) := by
  unfold rdot
  rw [Finset.sum_eq_single i]
  · simp
  · intro j _ hj; simp [Function.update_of_ne hj]
  · simp

theorem inBox_update (lb ub : Vec Num n) (x : Fin n → ℝ) (hb : InBox lb ub x) (i : Fin n) (t : ℝ) (ht : InBox1 (lb i) (ub i) t) :
    InBox lb ub (Function.update x i t) := by
  intro j
  by_cases hj : j = i
  · subst hj; simpa using ht
  · rw [Function.update_of_ne hj]; exact hb j

/-- the two usual ways to write first-order optimality agree (used to state C29 in both) -/
theorem stationary_iff_kkt (lb ub : Vec Num n) (x g : Fin n → ℝ) (hb : InBox lb ub x) : Stationary lb ub x g ↔ KKT lb ub x g := by
  constructor
  · intro h i
    obtain ⟨h1, h2⟩ := hb i
    rcases lt_trichotomy (g i) 0 with hg | hg | hg
    · right; right
      refine ⟨hg, ?_⟩
      have key : ∀ t, InBox1 (lb i) (ub i) t → t ≤ x i := by
        intro t ht
        have := h _ (inBox_update lb ub x hb i t ht)
        rw [rdot_single_diff] at this
        by_contra hc
        nlinarith
      cases hu : ub i with
      | nan => rw [hu] at h2; simp at h2
      | ninf => rw [hu] at h2; simp at h2
      | pinf =>
        have : InBox1 (lb i) (ub i) (x i + 1) := ⟨LawfulFloat.le_trans _ _ _ h1 (by simp), by rw [hu]; simp⟩
        linarith [key _ this]
      | fin u =>
        rw [hu] at h2
        have h2' : x i ≤ u := by simpa using h2
        have : InBox1 (lb i) (ub i) u := ⟨LawfulFloat.le_trans _ _ _ h1 (by simpa using h2'), by rw [hu]; simp⟩
        rw [le_antisymm (key _ this) h2']
    · exact Or.inl hg
    · right; left
      refine ⟨hg, ?_⟩
      have key : ∀ t, InBox1 (lb i) (ub i) t → x i ≤ t := by
        intro t ht
        have := h _ (inBox_update lb ub x hb i t ht)
        rw [rdot_single_diff] at this
        by_contra hc
        nlinarith
      cases hl : lb i with
      | nan => rw [hl] at h1; simp at h1
      | pinf => rw [hl] at h1; simp at h1
      | ninf =>
        have : InBox1 (lb i) (ub i) (x i - 1) := ⟨by rw [hl]; simp, LawfulFloat.le_trans _ _ _ (by simp) h2⟩
        linarith [key _ this]
      | fin l =>
        rw [hl] at h1
        have h1' : l ≤ x i := by simpa using h1
        have : InBox1 (lb i) (ub i) l := ⟨by rw [hl]; simp, LawfulFloat.le_trans _ _ _ (by simpa using h1') h2⟩
        rw [le_antisymm h1' (key _ this)]
  · intro h y hy
    refine Finset.sum_nonneg fun i _ => ?_
    obtain ⟨h1, h2⟩ := hy i
    show 0 ≤ g i * (y i - x i)
    rcases h i with hg | ⟨hg, hl⟩ | ⟨hg, hu⟩
    · rw [hg, zero_mul]
    · rw [hl] at h1
      have : x i ≤ y i := by simpa using h1
      exact mul_nonneg hg.le (by linarith)
    · rw [hu] at h2
      have : y i ≤ x i := by simpa using h2
      exact mul_nonneg_of_nonpos_of_nonpos hg.le (by linarith)

/-- **C29.** At a feasible finite point with finite gradient, the scaled gradient handed to the step computation of the
next iteration is zero exactly when the point is first-order optimal for the bound-constrained problem. -/
theorem C29_stationary (E : Env Num n) (st : St Num n) (x g : Fin n → ℝ) (hx : st.x = ofV x) (hg : st.grad = ofV g)
    (hb : InBox E.lb E.ub x) :
    ((trInput E st).prob.sg = ofV 0 ↔ Stationary E.lb E.ub x g) ∧ (Stationary E.lb E.ub x g ↔ KKT E.lb E.ub x g) := by
  refine ⟨?_, stationary_iff_kkt _ _ _ _ hb⟩
  rw [stationary_iff_kkt _ _ _ _ hb]
  obtain ⟨v, hv, _⟩ := affineV_real E.lb E.ub x g hb
  have hsg : (trInput E st).prob.sg = ofV fun i => Real.sqrt |v i| * g i := by
    show sdot (fun i => FloatOps.sqrt (FloatOps.abs (affineV E.lb E.ub st.x st.grad i))) st.grad = _
    rw [hx, hg, hv, scaling_real]
    funext i
    exact sdot_fin _ _ i (g i) rfl
  rw [hsg, ofV_inj]
  constructor
  · intro h i
    have hi := congrFun h i
    simp only [Pi.zero_apply, mul_eq_zero, Real.sqrt_eq_zero (abs_nonneg _), abs_eq_zero] at hi
    rcases hi with hi | hi
    · rcases affine_coord E.lb E.ub x g hb i with ⟨h1, u, h0, h2, h3, _⟩ | ⟨h1, _, h3, _⟩ | ⟨h1, l, h0, h2, h3, _⟩ | ⟨h1, _, h3, _⟩
      · rw [hv, ofV_apply, fin_inj, hi] at h3
        right; right; exact ⟨h1, by rw [h0, show u = x i by linarith]⟩
      · rw [hv, ofV_apply, fin_inj, hi] at h3; norm_num at h3
      · rw [hv, ofV_apply, fin_inj, hi] at h3
        rcases h1.eq_or_lt with h1 | h1
        · exact Or.inl h1.symm
        · right; left; exact ⟨h1, by rw [h0, show l = x i by linarith]⟩
      · rw [hv, ofV_apply, fin_inj, hi] at h3; norm_num at h3
    · exact Or.inl hi
  · intro h
    funext i
    simp only [Pi.zero_apply, mul_eq_zero, Real.sqrt_eq_zero (abs_nonneg _), abs_eq_zero]
    rcases affine_coord E.lb E.ub x g hb i with ⟨h1, u, h0, h2, h3, _⟩ | ⟨h1, h0, h3, _⟩ | ⟨h1, l, h0, h2, h3, _⟩ | ⟨h1, h0, h3, _⟩ <;>
      rw [hv, ofV_apply, fin_inj] at h3 <;> rcases h i with hg | ⟨hg, hl⟩ | ⟨hg, hu⟩
    · exact Or.inr hg
    · linarith
    · rw [h0, fin_inj] at hu; left; linarith
    · exact Or.inr hg
    · linarith
    · rw [h0] at hu; cases hu
    · exact Or.inr hg
    · rw [h0, fin_inj] at hl; left; linarith
    · linarith
    · exact Or.inr hg
    · rw [h0] at hl; cases hl
    · linarith

/-- **C29.** The scaling vector `v`: it never has the sign opposite to the gradient; a variable whose gradient points away
from a finite bound gets the signed distance to that bound and derivative 1, one without such a bound is not scaled (`|v| = 1`,
derivative 0).  The scaling matrix used for the step is `diag(sqrt |v|)`. -/
theorem C29_scaling (E : Env Num n) (st : St Num n) (x g : Fin n → ℝ) (hx : st.x = ofV x) (hg : st.grad = ofV g)
    (hb : InBox E.lb E.ub x) :
    ∃ v : Fin n → ℝ, affineV E.lb E.ub st.x st.grad = ofV v ∧ (trInput E st).scaling = ofV (fun i => Real.sqrt |v i|) ∧
      (∀ i, 0 ≤ v i * g i) ∧
      ∀ i, (∀ u, g i < 0 → E.ub i = fin u → v i = x i - u ∧ (trInput E st).dv i = fin 1) ∧
           (g i < 0 → E.ub i = pinf → v i = -1 ∧ (trInput E st).dv i = fin 0) ∧
           (∀ l, 0 ≤ g i → E.lb i = fin l → v i = x i - l ∧ (trInput E st).dv i = fin 1) ∧
           (0 ≤ g i → E.lb i = ninf → v i = 1 ∧ (trInput E st).dv i = fin 0) := by
  obtain ⟨v, hv, hs⟩ := affineV_real E.lb E.ub x g hb
  refine ⟨v, by rw [hx, hg, hv], ?_, hs, ?_⟩
  · show (fun i => FloatOps.sqrt (FloatOps.abs (affineV E.lb E.ub st.x st.grad i))) = _
    rw [hx, hg, hv, scaling_real]
  · intro i
    have hdv : (trInput E st).dv i = affineDv E.lb E.ub (ofV g) i := by
      show affineDv E.lb E.ub st.grad i = _
      rw [hg]
    rw [hdv]
    rcases affine_coord E.lb E.ub x g hb i with ⟨h1, u, h0, h2, h3, h4⟩ | ⟨h1, h0, h3, h4⟩ | ⟨h1, l, h0, h2, h3, h4⟩ | ⟨h1, h0, h3, h4⟩ <;>
      rw [hv, ofV_apply, fin_inj] at h3 <;> rw [h0]
    · exact ⟨fun u' _ hu => by (cases hu; exact ⟨h3, h4⟩), fun _ h => by (cases h), fun _ h _ => absurd h1 (not_lt.mpr h), fun h _ => absurd h1 (not_lt.mpr h)⟩
    · exact ⟨fun u' _ hu => by (cases hu), fun _ _ => ⟨h3, h4⟩, fun _ h _ => absurd h1 (not_lt.mpr h), fun h _ => absurd h1 (not_lt.mpr h)⟩
    · exact ⟨fun _ h _ => absurd h (not_lt.mpr h1), fun h _ => absurd h (not_lt.mpr h1), fun l' _ hl => by (cases hl; exact ⟨h3, h4⟩), fun _ h => by (cases h)⟩
    · exact ⟨fun _ h _ => absurd h (not_lt.mpr h1), fun h _ => absurd h (not_lt.mpr h1), fun l' _ hl => by (cases hl), fun _ _ => ⟨h3, h4⟩⟩

/-- **C29.** The fraction `theta` of the distance to the bounds that may be travelled is `max (theta_max, 1 - ‖v g‖_inf)`;
it lies in `[theta_max, 1]`, and is below 1 unless the point is stationary. -/
theorem C29_theta (E : Env Num n) (st : St Num n) (x g : Fin n → ℝ) (hx : st.x = ofV x) (hg : st.grad = ofV g)
    (hb : InBox E.lb E.ub x) (tm : ℝ) (htm : E.opts.thetaMax = fin tm) (h1 : tm < 1) :
    ∃ t, (trInput E st).theta = fin t ∧ tm ≤ t ∧ t ≤ 1 ∧ (t = 1 ↔ Stationary E.lb E.ub x g) := by
  obtain ⟨v, hv, hs⟩ := affineV_real E.lb E.ub x g hb
  obtain ⟨r, hr0, hr1, hr2, hr⟩ := thetaOf_real tm v g
  refine ⟨max tm (1 - r), ?_, le_max_left _ _, max_le h1.le (by linarith), ?_⟩
  · show thetaOf E.opts.thetaMax (affineV E.lb E.ub st.x st.grad) st.grad = _
    rw [htm, hx, hg, hv, hr]
  · have key : (∀ i, v i * g i = 0) ↔ Stationary E.lb E.ub x g := by
      rw [← (C29_stationary E st x g hx hg hb).1]
      have hsg : (trInput E st).prob.sg = ofV fun i => Real.sqrt |v i| * g i := by
        show sdot (fun i => FloatOps.sqrt (FloatOps.abs (affineV E.lb E.ub st.x st.grad i))) st.grad = _
        rw [hx, hg, hv, scaling_real]
        funext i
        exact sdot_fin _ _ i (g i) rfl
      rw [hsg, ofV_inj]
      constructor
      · intro h; funext i
        have := h i
        simp only [Pi.zero_apply, mul_eq_zero, Real.sqrt_eq_zero (abs_nonneg _), abs_eq_zero] at this ⊢
        exact this
      · intro h i
        have := congrFun h i
        simp only [Pi.zero_apply, mul_eq_zero, Real.sqrt_eq_zero (abs_nonneg _), abs_eq_zero] at this ⊢
        exact this
    rw [← key]
    constructor
    · intro h i
      have hr' : r = 0 := by
        rcases max_choice tm (1 - r) with hm | hm <;> rw [hm] at h <;> linarith
      have := hr1 i
      rw [hr'] at this
      exact abs_eq_zero.mp (le_antisymm this (abs_nonneg _))
    · intro h
      have hr' : r = 0 := by
        rcases hr2 with h2 | ⟨i, h2⟩
        · exact h2
        · rw [h2, h i, abs_zero]
      rw [hr', sub_zero, max_eq_right h1.le]

/-- the hypotheses of C29 hold for a box with one bounded and one unbounded variable -/
example : ∃ (lb ub : Vec Num 2) (x g : Fin 2 → ℝ), InBox lb ub x ∧ KKT lb ub x g ∧ ¬ KKT lb ub x ![1, 1] := by
  refine ⟨![fin 0, ninf], ![fin 1, pinf], ![0, 5], ![3, 0], ?_, ?_, ?_⟩
  · intro i; fin_cases i <;> simp [InBox1]
  · intro i; fin_cases i <;> simp
  · intro h
    have := h 1
    simp at this

end Fides
