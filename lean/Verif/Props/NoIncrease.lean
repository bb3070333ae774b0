import Verif.Lemmas.GradStep

/-!
# C50: a proposal that was cut at the bounds never predicts an increase
-/

set_option linter.unusedSectionVars false

namespace Fides
open Num Spec
variable {n : ℕ}
variable {I : TRIn Num n} {x d g dv : Fin n → ℝ} {H : Fin n → Fin n → ℝ} {delta theta : ℝ}

/-- the returned proposal is at least as good as every candidate unless its predicted value is NaN -/
theorem best_le (O : Oracles Num) (fuel : ℕ) (dim : SubSpaceDim) (strat : StepBackStrategy) (tr : Step Num n)
    (rest : List (Step Num n)) (best : Step Num n) (hc : candidates O fuel I.prob dim strat = .ok (tr, rest))
    (h : trustRegion O fuel dim strat I = .ok best) (hnn : best.qpval ≠ nan) (st : Step Num n) (hst : st ∈ tr :: rest) :
    le best.qpval st.qpval = true := by
  have hall : ∀ st ∈ tr :: rest, isNaN st.qpval = false := by
    intro s hs
    by_contra hx
    exact hnn (C24_nan_preferred O fuel dim strat I tr rest best hc ⟨s, hs, isNaN_eq (by simpa using hx)⟩ h)
  obtain ⟨pre, post, he, h1, h2⟩ := C24_best O fuel dim strat I tr rest best hc hall h
  rw [he] at hst
  rcases List.mem_append.mp hst with hm | hm
  · exact ((LawfulFloat.lt_iff _ _).mp (h1 st hm)).1
  · rcases List.mem_cons.mp hm with rfl | hm
    · simpa [isNaN] using hall st (by rw [he]; simp)
    · exact h2 st hm

theorem cut_has_gradient (O : Oracles Num) (fuel : ℕ) (dim : SubSpaceDim) (strat : StepBackStrategy) (hn : 1 < n) (tr best gs : Step Num n)
    (htr : trStep O fuel I.prob dim = .ok tr) (hcut : lt tr.alpha (fin 1) = true) (h : trustRegion O fuel dim strat I = .ok best)
    (hgs : stepGradient O I.prob = .ok gs) (hnn : best.qpval ≠ nan) : le best.qpval gs.qpval = true := by
  have h' := h
  rw [trustRegion] at h'
  cases hc : candidates O fuel I.prob dim strat with
  | error e => rw [hc] at h'; cases h'
  | ok cr =>
    obtain ⟨tr', rest⟩ := cr
    refine best_le O fuel dim strat tr' rest best hc h hnn gs ?_
    simp only [candidates, htr, hgs] at hc
    have : (lt tr.alpha (Fides.lit 1) && decide (1 < n)) = true := by
      simp only [lit_def, Rat.cast_one, hcut, hn, decide_true, Bool.and_self]
    rw [if_pos this] at hc
    split at hc
    · cases hc
    · cases hc; simp

/-- **C50.** Let the data of a proposal be finite (symmetric Hessian, feasible current point, nonnegative radius), more than one variable, and
let the trust-region step have been cut at the bounds (`alpha < 1`).  Then the proposal that is used has a predicted value `≤ 0` unless it is NaN; for every
solver, strategy and external routine. -/
theorem C50_no_increase (O : Oracles Num) (fuel : ℕ) (dim : SubSpaceDim) (strat : StepBackStrategy) (hn : 1 < n)
    (hI : RealData I x d g dv H delta theta) (hdel : 0 ≤ delta) (h0 : 0 < theta) (hbox : InBox I.lb I.ub x) (tr best : Step Num n)
    (htr : trStep O fuel I.prob dim = .ok tr) (hcut : lt tr.alpha (fin 1) = true) (h : trustRegion O fuel dim strat I = .ok best)
    (hnn : best.qpval ≠ nan) : le best.qpval (fin 0) = true := by
  obtain ⟨gs, t, a, hgs, ha0, ha1, _, hin, hmin, _, _, hq, _⟩ := gradStep_spec O hI hdel h0 hbox
  have hle := cut_has_gradient O fuel dim strat hn tr best gs htr hcut h hgs hnn
  refine LawfulFloat.le_trans _ _ _ hle ?_
  rw [hq, fin_le, decide_eq_true_eq]
  refine short_nonpos _ _ _ a ha0 ha1 ?_ ?_
  · have := hmin 0 (by rw [zero_smul, rnorm_eq_zero.mpr rfl]; exact hdel)
    rwa [zero_smul, quad_zero] at this
  · rw [← neg_smul]
    apply hmin
    rw [neg_smul, pyrnorm_neg]; exact hin

/-- the best point of the ball on the line along the gradient has a negative model value, and keeps it when it is shortened -/
theorem line_neg {B : Fin n → Fin n → ℝ} {sg : Fin n → ℝ} {t a : ℝ} (hsg : sg ≠ 0) (hdel : 0 < delta) (ha : 0 < a) (ha1 : a ≤ 1)
    (hin : rnorm (t • (rnorm sg)⁻¹ • sg) ≤ delta)
    (hmin : ∀ t' : ℝ, rnorm (t' • (rnorm sg)⁻¹ • sg) ≤ delta → quad B sg (t • (rnorm sg)⁻¹ • sg) ≤ quad B sg (t' • (rnorm sg)⁻¹ • sg)) :
    quad B sg (a • t • (rnorm sg)⁻¹ • sg) < 0 := by
  have hu : rnorm ((rnorm sg)⁻¹ • sg) = 1 := rnorm_normalized hsg
  have hgu : rdot sg ((rnorm sg)⁻¹ • sg) = rnorm sg := rdot_normalized sg
  have hgp := rnorm_pos hsg
  generalize (rnorm sg)⁻¹ • sg = u at hu hgu hin hmin ⊢
  have hneg : quad B sg (t • u) < 0 := by
    -- a small step against the gradient
    set c := rdot u (rmv B u) / 2 with hc
    set e := min delta (rnorm sg / (|c| + 1)) with he
    have hp : 0 < |c| + 1 := by positivity
    have he0 : 0 < e := lt_min hdel (div_pos hgp hp)
    have h1 := hmin (-e) (by rw [rnorm_smul, hu, abs_neg, abs_of_pos he0, mul_one]; exact min_le_left _ _)
    have h2 : quad B sg (-e • u) = -e * (rnorm sg + -e * c) := by rw [quad_smul, hgu]
    have h3 : e * c < rnorm sg := by
      have : e * |c| < rnorm sg := by
        calc e * |c| ≤ rnorm sg / (|c| + 1) * |c| := mul_le_mul_of_nonneg_right (min_le_right _ _) (abs_nonneg _)
          _ < rnorm sg := by
            rw [div_mul_eq_mul_div, div_lt_iff₀ hp]; nlinarith [abs_nonneg c]
      nlinarith [le_abs_self c]
    rw [h2] at h1
    nlinarith
  have hlin : rdot sg (t • u) < 0 := by
    have h1 := hmin (-t) (by rw [neg_smul, pyrnorm_neg]; exact hin)
    have e1 : quad B sg (t • u) = t * (rnorm sg + t * (rdot u (rmv B u) / 2)) := by rw [quad_smul, hgu]
    have e2 : quad B sg (-t • u) = -t * (rnorm sg + -t * (rdot u (rmv B u) / 2)) := by rw [quad_smul, hgu]
    rw [rdot_smul, hgu]
    rw [e1, e2] at h1
    have ht : t * rnorm sg ≤ 0 := by nlinarith
    rcases ht.lt_or_eq with h | h
    · exact h
    · exfalso
      have : t = 0 := by
        rcases mul_eq_zero.mp h with h | h
        · exact h
        · exact absurd h hgp.ne'
      rw [this, zero_smul, quad_zero] at hneg
      exact lt_irrefl _ hneg
  exact short_neg B sg _ a ha ha1 hneg hlin

/-- **C50, strict.** … and if moreover the point is strictly inside the bounds, the radius positive and the scaled gradient nonzero, the predicted value is
`< 0`. -/
theorem C50_decrease (O : Oracles Num) (fuel : ℕ) (dim : SubSpaceDim) (strat : StepBackStrategy) (hn : 1 < n)
    (hI : RealData I x d g dv H delta theta) (hdel : 0 < delta) (h0 : 0 < theta) (hins : Inside I.lb I.ub x)
    (hg : ∃ i, d i * g i ≠ 0) (tr best : Step Num n)
    (htr : trStep O fuel I.prob dim = .ok tr) (hcut : lt tr.alpha (fin 1) = true) (h : trustRegion O fuel dim strat I = .ok best)
    (hnn : best.qpval ≠ nan) : lt best.qpval (fin 0) = true := by
  have hbox : InBox I.lb I.ub x := fun i =>
    ⟨((LawfulFloat.lt_iff _ _).mp (hins i).1).1, ((LawfulFloat.lt_iff _ _).mp (hins i).2).1⟩
  obtain ⟨gs, t, a, hgs, ha0, ha1, _, hin, hmin, _, _, hq, hpos⟩ := gradStep_spec O hI hdel.le h0 hbox
  have ha : 0 < a := hpos hins
  have hle := cut_has_gradient O fuel dim strat hn tr best gs htr hcut h hgs hnn
  have hsg : (fun i => d i * g i) ≠ 0 := by
    obtain ⟨i, hi⟩ := hg
    intro h; exact hi (congrFun h i)
  generalize (fun i => d i * g i) = sg at hsg hin hmin hq
  generalize (fun i j => d i * H i j * d j + if i = j then |g i| * dv i else 0) = B at hmin hq
  have hlt : lt gs.qpval (fin 0) = true := by
    rw [hq, fin_lt, decide_eq_true_eq]
    exact line_neg hsg hdel ha ha1 hin hmin
  rw [hq] at hle hlt
  generalize best.qpval = b at hle
  cases b with
  | fin b => simp only [fin_le, fin_lt, decide_eq_true_eq] at hle hlt ⊢; linarith
  | ninf => rfl
  | pinf => simp at hle
  | nan => simp at hle

end Fides
