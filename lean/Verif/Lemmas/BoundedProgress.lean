import Verif.Lemmas.DescentOn
import Verif.Lemmas.GradDecrease
import Verif.Lemmas.Converge
import Verif.Props.Start

/-! Helper lemmas: progress of one pass on a bounded smooth problem. -/

namespace Fides
open Num Spec
variable {n : ℕ}

/-- the coordinate has a finite bound -/
def HasBound (lb ub : Vec Num n) (i : Fin n) : Prop := lb i ≠ ninf ∨ ub i ≠ pinf

/-- the data of the step computation in terms of the distance to the bounds -/
theorem box_data {E : Env Num n} (tm : ℝ) (htm : E.opts.thetaMax = fin tm) (ht0 : 0 < tm) (ht1 : tm ≤ 1) (st : St Num n)
    (x g : Fin n → ℝ) (B : Fin n → Fin n → ℝ) (D : ℝ) (hx : st.x = ofV x) (hg : st.grad = ofV g) (hH : st.hess = ofM B) (hS : Sym B)
    (hd : st.deltaIter = fin D) (hbox : InBox E.lb E.ub x) :
    ∃ (d dv : Fin n → ℝ) (th : ℝ), RealData (trInput E st) x d g dv B D th ∧ tm ≤ th ∧ th ≤ 1 ∧
      (∀ i, d i * d i = boundDist E.lb E.ub x g i) ∧ (∀ i, dv i = 0 ∨ dv i = 1 ∧ HasBound E.lb E.ub i) := by
  have key : ∀ i, ∃ v dv : ℝ, affineV E.lb E.ub (ofV x) (ofV g) i = fin v ∧ affineDv E.lb E.ub (ofV g) i = fin dv ∧
      |v| = boundDist E.lb E.ub x g i ∧ (dv = 0 ∨ dv = 1 ∧ HasBound E.lb E.ub i) := by
    intro i
    rcases affine_coord E.lb E.ub x g hbox i with ⟨h1, u, h2, h3, h4, h5⟩ | ⟨h1, h2, h4, h5⟩ | ⟨h1, l, h2, h3, h4, h5⟩ | ⟨h1, h2, h4, h5⟩
    · refine ⟨_, _, h4, h5, ?_, Or.inr ⟨rfl, Or.inr (by rw [h2]; simp)⟩⟩
      simp only [boundDist, h1, if_true, h2]
      rw [abs_of_nonpos (by linarith)]; ring
    · refine ⟨_, _, h4, h5, ?_, Or.inl rfl⟩
      simp only [boundDist, h1, if_true, h2]; norm_num
    · refine ⟨_, _, h4, h5, ?_, Or.inr ⟨rfl, Or.inl (by rw [h2]; simp)⟩⟩
      simp only [boundDist, not_lt.mpr h1, if_false, h2]
      rw [abs_of_nonneg (by linarith)]
    · refine ⟨_, _, h4, h5, ?_, Or.inl rfl⟩
      simp only [boundDist, not_lt.mpr h1, if_false, h2]; norm_num
  choose v dv hv hdv hvd hdvc using key
  obtain ⟨th, hth, h5, h6⟩ := thetaOf_range tm ht0 ht1 v g
  have hV : affineV E.lb E.ub st.x st.grad = ofV v := by rw [hx, hg]; exact funext hv
  refine ⟨fun i => Real.sqrt |v i|, dv, th, ⟨hx, ?_, hg, ?_, hH, hd, ?_, hS⟩, h5, h6, fun i => ?_, hdvc⟩
  · show (fun i => FloatOps.sqrt (FloatOps.abs (affineV E.lb E.ub st.x st.grad i))) = _
    rw [hV, scaling_real]
  · show affineDv E.lb E.ub st.grad = _
    rw [hg]; exact funext hdv
  · show thetaOf E.opts.thetaMax (affineV E.lb E.ub st.x st.grad) st.grad = _
    rw [hV, hg, htm, hth]
  · rw [← hvd i]; exact Real.mul_self_sqrt (abs_nonneg _)

section
variable {lb ub : Vec Num n} {x d g dv : Fin n → ℝ} {B : Fin n → Fin n → ℝ} {W M G : ℝ}

theorem boundDist_nonneg (hbox : InBox lb ub x) (i : Fin n) : 0 ≤ boundDist lb ub x g i := by
  obtain ⟨h1, h2⟩ := hbox i
  unfold boundDist
  split
  · split
    · rename_i u hu; rw [hu, fin_le, decide_eq_true_eq] at h2; linarith
    · norm_num
  · split
    · rename_i l hl; rw [hl, fin_le, decide_eq_true_eq] at h1; linarith
    · norm_num

theorem scaledGrad_eq (hd : ∀ i, d i * d i = boundDist lb ub x g i) : rnorm (fun i => d i * g i) = scaledGrad lb ub x g := by
  unfold rnorm scaledGrad rdot
  congr 1
  refine Finset.sum_congr rfl fun i _ => ?_
  rw [← hd i]; ring

/-- lengths in original and scaled variables -/
theorem scaled_length (hd : ∀ i, d i * d i = boundDist lb ub x g i) (hW : ∀ i, boundDist lb ub x g i ≤ W) (v : Fin n → ℝ) :
    rdot (fun i => d i * v i) (fun i => d i * v i) ≤ W * rdot v v := by
  unfold rdot
  rw [Finset.mul_sum]
  refine Finset.sum_le_sum fun i _ => ?_
  have h1 : d i * v i * (d i * v i) = d i * d i * (v i * v i) := by ring
  rw [h1, hd i]
  exact mul_le_mul_of_nonneg_right (hW i) (mul_self_nonneg _)

theorem scaled_form (v : Fin n → ℝ) : rdot v (rmv (fun i j => d i * B i j * d j + if i = j then |g i| * dv i else 0) v) =
    rdot (fun i => d i * v i) (rmv B (fun i => d i * v i)) + ∑ i, |g i| * dv i * (v i * v i) := by
  have h1 := quad_scaled d (fun i => |g i| * dv i) 0 B v
  have h2 : (fun i => d i * (0 : Fin n → ℝ) i) = 0 := by funext i; simp
  rw [h2] at h1
  simp only [quad, zero_rdot, zero_add] at h1
  linarith

theorem aug_bounds (gg : Fin n → ℝ) (hdv : ∀ i, dv i = 0 ∨ dv i = 1 ∧ HasBound lb ub i) (hG : ∀ i, HasBound lb ub i → |gg i| ≤ G) (hG0 : 0 ≤ G)
    (v : Fin n → ℝ) : 0 ≤ ∑ i, |gg i| * dv i * (v i * v i) ∧ ∑ i, |gg i| * dv i * (v i * v i) ≤ G * rdot v v := by
  constructor
  · refine Finset.sum_nonneg fun i _ => ?_
    rcases hdv i with h | ⟨h, _⟩ <;> rw [h]
    · simp
    · rw [mul_one]; exact mul_nonneg (abs_nonneg _) (mul_self_nonneg _)
  · unfold rdot
    rw [Finset.mul_sum]
    refine Finset.sum_le_sum fun i _ => ?_
    rcases hdv i with h | ⟨h, hb⟩ <;> rw [h]
    · rw [mul_zero, zero_mul]; exact mul_nonneg hG0 (mul_self_nonneg _)
    · rw [mul_one]; exact mul_le_mul_of_nonneg_right (hG i hb) (mul_self_nonneg _)

/-- curvature of the scaled model -/
theorem scaled_curv (hd : ∀ i, d i * d i = boundDist lb ub x g i) (hW : ∀ i, boundDist lb ub x g i ≤ W)
    (hdv : ∀ i, dv i = 0 ∨ dv i = 1 ∧ HasBound lb ub i) (hG : ∀ i, HasBound lb ub i → |g i| ≤ G) (hG0 : 0 ≤ G) (hM : 0 ≤ M)
    (hB : ∀ v, |rdot v (rmv B v)| ≤ M * rdot v v) (v : Fin n → ℝ) :
    rdot v (rmv (fun i j => d i * B i j * d j + if i = j then |g i| * dv i else 0) v) ≤ scaledCurv W M G * rdot v v ∧
    -(scaledCurv W M G * rdot v v) ≤ rdot v (rmv (fun i j => d i * B i j * d j + if i = j then |g i| * dv i else 0) v) := by
  rw [scaled_form]
  obtain ⟨a1, a2⟩ := aug_bounds g hdv hG hG0 v
  obtain ⟨b1, b2⟩ := abs_le.mp (hB (fun i => d i * v i))
  have h1 := mul_le_mul_of_nonneg_left (scaled_length hd hW v) hM
  have h2 : 0 ≤ rdot v v := by rw [← rnorm_sq]; exact mul_self_nonneg _
  unfold scaledCurv
  constructor
  · linarith
  · have := mul_nonneg hG0 h2
    linarith

/-- room along the scaled gradient -/
theorem scaled_room (hbox : InBox lb ub x) (hd : ∀ i, d i * d i = boundDist lb ub x g i) (hG : ∀ i, HasBound lb ub i → |g i| ≤ G)
    (r : ℝ) (hr : 0 ≤ r) (hrG : r * G ≤ 1) : InBox lb ub (x - r • fun i => d i * (d i * g i)) := by
  intro i
  obtain ⟨h1, h2⟩ := hbox i
  have e : (x - r • fun i => d i * (d i * g i)) i = x i - r * (boundDist lb ub x g i * g i) := by
    simp only [Pi.sub_apply, Pi.smul_apply, smul_eq_mul]; rw [← hd i]; ring
  rw [e]
  have hbd := boundDist_nonneg (g := g) hbox i
  rcases lt_or_ge (g i) 0 with hg | hg
  · constructor
    · -- moving up
      have hup : x i ≤ x i - r * (boundDist lb ub x g i * g i) := by
        have := mul_nonneg hr (mul_nonneg hbd (neg_nonneg.mpr hg.le))
        nlinarith
      cases hl : lb i with
      | nan => rw [hl] at h1; simp at h1
      | pinf => rw [hl] at h1; simp at h1
      | ninf => simp
      | fin l => rw [hl] at h1; simp only [fin_le, decide_eq_true_eq] at h1 ⊢; linarith
    · cases hu : ub i with
      | nan => rw [hu] at h2; simp at h2
      | ninf => rw [hu] at h2; simp at h2
      | pinf => simp
      | fin u =>
        rw [hu] at h2
        have hgG := hG i (Or.inr (by rw [hu]; simp))
        rw [abs_of_neg hg] at hgG
        have hb : boundDist lb ub x g i = u - x i := by simp only [boundDist, hg, if_true, hu]
        rw [hb]
        simp only [fin_le, decide_eq_true_eq] at h2 ⊢
        have h3 : r * -g i ≤ 1 := (mul_le_mul_of_nonneg_left hgG hr).trans hrG
        nlinarith
  · constructor
    · cases hl : lb i with
      | nan => rw [hl] at h1; simp at h1
      | pinf => rw [hl] at h1; simp at h1
      | ninf => simp
      | fin l =>
        rw [hl] at h1
        have hgG := hG i (Or.inl (by rw [hl]; simp))
        rw [abs_of_nonneg hg] at hgG
        have hb : boundDist lb ub x g i = x i - l := by simp only [boundDist, not_lt.mpr hg, if_false, hl]
        rw [hb]
        simp only [fin_le, decide_eq_true_eq] at h1 ⊢
        have h3 : r * g i ≤ 1 := (mul_le_mul_of_nonneg_left hgG hr).trans hrG
        nlinarith
    · have hdown : x i - r * (boundDist lb ub x g i * g i) ≤ x i := by
        have := mul_nonneg hr (mul_nonneg hbd hg)
        linarith
      cases hu : ub i with
      | nan => rw [hu] at h2; simp at h2
      | ninf => rw [hu] at h2; simp at h2
      | pinf => simp
      | fin u => rw [hu] at h2; simp only [fin_le, decide_eq_true_eq] at h2 ⊢; linarith

/-- how well the model predicts: the step starts at `x`, value and gradient belong to `z`, the trial point is `y = x + d p` -/
theorem model_error {f : (Fin n → ℝ) → ℝ} {gr : (Fin n → ℝ) → Fin n → ℝ} {L eta : ℝ} (hL : SmoothOn L lb ub f gr) (hL0 : 0 ≤ L) {z y p : Fin n → ℝ}
    (hz : InBox lb ub z) (hy : InBox lb ub y) (hyx : y = x + fun i => d i * p i) (hxz : ∀ i, |x i - z i| ≤ eta) (hxf : ∀ i, ¬ HasBound lb ub i → x i = z i)
    (heta : 0 ≤ eta)
    (hd : ∀ i, d i * d i = boundDist lb ub x (gr z) i) (hW : ∀ i, boundDist lb ub x (gr z) i ≤ W)
    (hdv : ∀ i, dv i = 0 ∨ dv i = 1 ∧ HasBound lb ub i) (hG : GradBound G lb ub gr) (hG0 : 0 ≤ G) (hM : 0 ≤ M)
    (hB : ∀ v, |rdot v (rmv B v)| ≤ M * rdot v v) :
    -quad (fun i j => d i * B i j * d j + if i = j then |gr z i| * dv i else 0) (fun i => d i * gr z i) p -
      (f z - f y - (∑ i, |gr y i| * dv i * (p i * p i)) / 2) ≤ (W * (L + M / 2) + G / 2) * (rnorm p * rnorm p) + nudgeError n L G eta := by
  have hup := smooth_upper_on hL z y hz hy
  rw [quad_scaled]
  set s : Fin n → ℝ := fun i => d i * p i with hs
  obtain ⟨a1, -⟩ := aug_bounds (gr z) hdv (fun i hi => hG z hz i hi) hG0 p
  obtain ⟨-, b2⟩ := aug_bounds (gr y) hdv (fun i hi => hG y hy i hi) hG0 p
  obtain ⟨c1, -⟩ := abs_le.mp (hB s)
  have hlen := scaled_length hd hW p
  have hsl : rdot s s ≤ W * (rnorm p * rnorm p) := by rw [rnorm_sq]; exact hlen
  have e1 : y - z = s + (x - z) := by rw [hyx]; abel
  have e2 : rdot (gr z) (y - z) ≤ rdot (gr z) s + n * (G * eta) := by
    rw [e1, rdot_add]
    have : rdot (gr z) (x - z) ≤ n * (G * eta) := by
      unfold rdot
      calc ∑ i, gr z i * (x - z) i ≤ ∑ _i : Fin n, G * eta := by
            refine Finset.sum_le_sum fun i _ => ?_
            simp only [Pi.sub_apply]
            by_cases hb : HasBound lb ub i
            · calc gr z i * (x i - z i) ≤ |gr z i * (x i - z i)| := le_abs_self _
                _ = |gr z i| * |x i - z i| := abs_mul _ _
                _ ≤ G * eta := mul_le_mul (hG z hz i hb) (hxz i) (abs_nonneg _) hG0
            · rw [hxf i hb, sub_self, mul_zero]; exact mul_nonneg hG0 heta
        _ = n * (G * eta) := by simp
    linarith
  have e3 : rdot (y - z) (y - z) ≤ 2 * rdot s s + 2 * (n * eta ^ 2) := by
    rw [e1]
    have h1 : rdot (x - z) (x - z) ≤ n * eta ^ 2 := by
      unfold rdot
      calc ∑ i, (x - z) i * (x - z) i ≤ ∑ _i : Fin n, eta ^ 2 := by
            refine Finset.sum_le_sum fun i _ => ?_
            simp only [Pi.sub_apply]
            rw [← abs_mul_abs_self (x i - z i), sq]
            exact mul_le_mul (hxz i) (hxz i) (abs_nonneg _) heta
        _ = n * eta ^ 2 := by simp
    have h2 : rdot (s + (x - z)) (s + (x - z)) ≤ 2 * rdot s s + 2 * rdot (x - z) (x - z) := by
      unfold rdot
      rw [Finset.mul_sum, Finset.mul_sum, ← Finset.sum_add_distrib]
      refine Finset.sum_le_sum fun i _ => ?_
      simp only [Pi.add_apply]
      nlinarith [mul_self_nonneg (s i - (x - z) i)]
    linarith
  unfold quad nudgeError
  have e4 := mul_le_mul_of_nonneg_left e3 (show 0 ≤ L / 2 by linarith)
  have e5 := mul_le_mul_of_nonneg_left hsl hM
  have e6 := mul_le_mul_of_nonneg_left hsl hL0
  rw [← rnorm_sq] at b2
  nlinarith
end

variable {E : Env Num n} {f : (Fin n → ℝ) → ℝ} {g : (Fin n → ℝ) → Fin n → ℝ} {mu eta g1 g2 D0 : ℝ}

/-- what a pass does to the radius and to the current point -/
theorem pass_outcome (hE : TRParams E mu eta g1 g2 D0) {prev next : St Num n} {cur cur' new : Funout Num n} {step : Step Num n}
    (hp : Pass E prev cur step new next cur') (p dv gy : Fin n → ℝ) (fz fy pred D : ℝ) (hf : prev.fval = fin fz) (hd : prev.delta = fin D)
    (hss : vadd step.ss step.ss0 = ofV p) (hnf : new.fval = fin fy) (hng : new.grad = ofV gy) (hdv : (trInput E (preIter prev)).dv = ofV dv)
    (hq : step.qpval = fin (-pred)) (hpos : 0 < pred) (act : ℝ) (hact : act = fz - fy - (∑ i, |gy i| * dv i * (p i * p i)) / 2) :
    ∃ D', next.delta = fin D' ∧
      ((mu * pred < act ∧ cur' = new ∧ (D' = D ∨ D' = g2 * D)) ∨
       (act ≤ mu * pred ∧ ((cur' = new ∧ 0 < act) ∨ cur' = cur) ∧ D' = min (g1 * D) (rnorm p / 4))) := by
  have hF := pass_facts E _ _ _ _ _ _ hp
  have haug : dot (vadd step.ss step.ss0) (fun i => (trInput E (preIter prev)).dv i * FloatOps.abs (new.grad i) * vadd step.ss step.ss0 i) =
      fin (∑ i, |gy i| * dv i * (p i * p i)) := by
    rw [hss, hdv, hng]
    have : (fun i => (ofV dv i : Num) * FloatOps.abs (ofV gy i) * ofV p i) = ofV fun i => dv i * |gy i| * p i := by
      funext i; simp
    rw [this, dot_ofV, fin_inj]
    unfold rdot
    exact Finset.sum_congr rfl fun i _ => by ring
  have hrat : ratioOf (afterEval prev step (.ok new)).fval new step (trInput E (preIter prev)).dv = fin (act / pred) := by
    unfold ratioOf
    have h1 : (afterEval prev step (.ok new)).fval = fin fz := hf
    rw [haug, h1, hnf, hq]
    simp only [fin_neg, lit_def, Rat.cast_zero, fin_le, fin_sub, fin_mul, neg_neg]
    rw [if_neg (by simp only [decide_eq_true_eq]; exact not_le.mpr hpos), fin_div _ _ hpos.ne', fin_inj, hact]
    push_cast
    ring
  set r := act / pred with hr
  have hrp : r * pred = act := div_mul_cancel₀ _ hpos.ne'
  have hacc : (radiusStep E prev step new).1 = decide (0 < r) := by
    unfold radiusStep
    rcases updateTrRadius_cases E new step (trInput E (preIter prev)).dv (afterEval prev step (.ok new)) with ⟨h, _⟩ | ⟨_, r', hr', h⟩
    · rw [hnf] at h; simp at h
    · rw [hrat] at hr'
      subst hr'
      rcases h with ⟨_, _, h⟩ | ⟨_, _, h⟩ | ⟨_, _, m, h⟩ <;> rw [h] <;> simp
  have hdel : ∃ D', (radiusStep E prev step new).2.delta = fin D' ∧
      ((mu < r ∧ (D' = D ∨ D' = g2 * D)) ∨ (r ≤ mu ∧ D' = min (g1 * D) (rnorm p / 4))) := by
    have had : (afterEval prev step (.ok new)).delta = fin D := hd
    unfold radiusStep
    rcases updateTrRadius_cases E new step (trInput E (preIter prev)).dv (afterEval prev step (.ok new)) with ⟨h, _⟩ | ⟨_, r', hr', h⟩
    · rw [hnf] at h; simp at h
    · rw [hrat] at hr'
      subst hr'
      rcases h with ⟨h1, _, h⟩ | ⟨_, h1, h⟩ | ⟨_, h1, m, h⟩
      · refine ⟨g2 * D, by rw [h]; simp only; rw [had, hE.gamma2, fin_mul], Or.inl ⟨?_, Or.inr rfl⟩⟩
        rw [hE.heta, fin_le, decide_eq_true_eq] at h1
        exact hE.mu_eta.trans_le h1
      · refine ⟨min (g1 * D) (rnorm p / 4), ?_, Or.inr ⟨?_, rfl⟩⟩
        · rw [h]; simp only [shrunkDelta]
          rw [had, hE.gamma1, hss, norm_ofV, fin_mul, shrunk_real, mul_comm]
        · rw [hE.hmu, fin_le, decide_eq_true_eq] at h1; exact h1
      · refine ⟨D, by rw [h]; exact had, Or.inl ⟨?_, Or.inl rfl⟩⟩
        rw [hE.hmu, fin_le, decide_eq_false_iff_not] at h1
        exact not_le.mp h1
  obtain ⟨D', hD', hcase⟩ := hdel
  refine ⟨D', by rw [hF.delta, hD'], ?_⟩
  rcases hF.cases with ⟨hac, hc, _⟩ | ⟨hac, hc, _⟩
  · rw [hacc, decide_eq_true_eq] at hac
    have h0 : 0 < act := by rw [← hrp]; exact mul_pos hac hpos
    rcases hcase with ⟨hm, hD⟩ | ⟨hm, hD⟩
    · left; exact ⟨by rw [← hrp]; exact mul_lt_mul_of_pos_right hm hpos, hc, hD⟩
    · right; exact ⟨by rw [← hrp]; exact mul_le_mul_of_nonneg_right hm hpos.le, Or.inl ⟨hc, h0⟩, hD⟩
  · rw [hacc, decide_eq_false_iff_not, not_lt] at hac
    rcases hcase with ⟨hm, hD⟩ | ⟨hm, hD⟩
    · have := hE.mu_pos; linarith
    · right; exact ⟨by rw [← hrp]; exact mul_le_mul_of_nonneg_right hm hpos.le, Or.inr hc, hD⟩

/-- the current evaluation at a loop head -/
theorem head_box (hev : EvaluatesOn E f g) (x0 : Vec Num n) (startId : String) (hess0 : Hess0 Num) (st0 : St Num n) (k : ℕ) (st : St Num n)
    (cur : Funout Num n) (h : LoopHead E x0 startId hess0 st0 k st cur) :
    ∃ z x : Fin n → ℝ, cur.x = ofV z ∧ InBox E.lb E.ub z ∧ st.x = ofV x ∧ InBox E.lb E.ub x ∧ st.fval = fin (f z) ∧ st.grad = ofV (g z) ∧
      (∀ i, |x i - z i| ≤ margin) ∧ ∀ i, ¬ HasBound E.lb E.ub i → x i = z i := by
  have hi := headInv E x0 startId hess0 st0 k st cur h
  obtain ⟨z, hz, hzb⟩ := inBounds_real_of _ _ _ hi.bounds
  obtain ⟨m, raw, h1, h2⟩ := head_evaluated E x0 startId hess0 st0 k st cur h
  rw [hz] at h1 h2
  obtain ⟨h3, h4⟩ := hev m z _ raw cur hzb h1 h2
  have hx : ∃ x : Fin n → ℝ, st.x = ofV x ∧ InBox E.lb E.ub x ∧ (∀ i, |x i - z i| ≤ margin) ∧ ∀ i, ¬ HasBound E.lb E.ub i → x i = z i := by
    have hsame : st.x = cur.x → _ := fun he => (⟨z, he.trans hz, hzb, fun i => by simpa using margin_pos.le, fun i _ => rfl⟩ :
      ∃ x : Fin n → ℝ, st.x = ofV x ∧ InBox E.lb E.ub x ∧ (∀ i, |x i - z i| ≤ margin) ∧ ∀ i, ¬ HasBound E.lb E.ub i → x i = z i)
    rcases hi.x with ⟨_, he⟩ | he | he
    · exact hsame he
    · exact hsame he
    · obtain ⟨r', e1, e2, e3, e4, _⟩ := nudge_spec E.lb E.ub z hzb
      refine ⟨r', by rw [he, hz, e1], e2, e3, fun i hb => e4 i ?_ ?_⟩
      all_goals
        unfold HasBound at hb
        push Not at hb
        rw [hb.1, hb.2]
        exact ⟨by simp, by simp⟩
  obtain ⟨x, hx1, hx2, hx3, hx4⟩ := hx
  exact ⟨z, x, hz, hzb, hx1, hx2, by rw [hi.fval, h3], by rw [hi.grad, h4], hx3, hx4⟩

end Fides
