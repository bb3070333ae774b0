import Verif.Lemmas.Compare
import Verif.Props.SteihaugTotal
import Verif.Props.NewtonExamples
import Verif.Props.LocalExamples

/-!
# C85: how good the proposals of the three solvers are, without bounds
-/

namespace Fides
open Num Spec
variable {n : ℕ} {I : TRIn Num n} {x g : Fin n → ℝ} {B : Fin n → Fin n → ℝ} {D : ℝ}

/-- **C85.** Without bounds, on a positive definite Hessian, the full-space solver proposes the best step of the whole trust region: no point within the radius has a smaller
predicted value.  The step is within the radius, except that the exact minimum of the model is taken if it exceeds the radius by no more than `2⁻²⁶`. -/
theorem C85_full (hI : PlainInput I x g B D) (hpd : PD B) (hn : 0 < n) (O : Oracles Num) (hX : ExactRoutines O) (fuel : ℕ) (sb : StepBackStrategy) :
    ∃ step p, trustRegion O fuel .full sb I = .ok step ∧ Proposes1 step x g B p ∧ MinOverBall B g D p ∧ (rnorm p ≤ D ∨ rmv B p = -g ∧ rnorm p ≤ D + ballTol) := by
  obtain ⟨hb, th, h1, h2, h3, hP⟩ := hI.prob
  obtain ⟨nv, hnv⟩ := pd_solve hI.sym hpd g
  obtain ⟨st, k1, p, k2, k3, _, k5⟩ := full_best hP hb hn hI.sym hpd hI.positive O hX nv hnv
  refine ⟨st, p, ?_, k2, k5, ?_⟩
  · rw [C51_one_candidate _ _ _ _ _ hb th h1 h2]; exact k1
  · rcases k3 with k | ⟨_, rfl, k⟩
    · exact Or.inl k
    · exact Or.inr ⟨hnv, k⟩

/-- **C85.** Without bounds, on a positive definite Hessian and for a gradient different from zero, the two-dimensional solver proposes a step at least as good as every combination
of the gradient and the Newton step `nv` within the radius - hence as good as the steepest descent (Cauchy) point and as every point of the dogleg path.  The code drops the gradient
from the subspace if it differs from a multiple of the Newton step by `np.spacing(1) = 2⁻⁵²` or less (in absolute terms) without being one; in this case the step is the best
one in the direction of the Newton step. -/
theorem C85_two (hI : PlainInput I x g B D) (hpd : PD B) (hg : g ≠ 0) (O : Oracles Num) (hX : ExactRoutines O) (fuel : ℕ) (sb : StepBackStrategy)
    (nv : Fin n → ℝ) (hnv : rmv B nv = -g) :
    ∃ step p, trustRegion O fuel .two sb I = .ok step ∧ Proposes1 step x g B p ∧ (rnorm p ≤ D ∨ p = nv ∧ rnorm p ≤ D + ballTol) ∧
      (∀ b : ℝ, rnorm (b • nv) ≤ D → quad B g p ≤ quad B g (b • nv)) ∧
      (((∃ c : ℝ, g = c • nv) ∨ ∀ c : ℝ, 2⁻¹ ^ 52 < rnorm (g - c • nv)) →
        ∀ a b : ℝ, rnorm (a • g + b • nv) ≤ D → quad B g p ≤ quad B g (a • g + b • nv)) := by
  obtain ⟨hb, th, h1, h2, h3, hP⟩ := hI.prob
  have hn : 0 < n := by
    rcases Nat.eq_zero_or_pos n with h0 | h0
    · subst h0; exact absurd (funext fun i => i.elim0) hg
    · exact h0
  obtain ⟨st, k1, p, k2, k3, k4, k5⟩ := two_best hP hb hn hI.sym hpd hI.positive O hX nv hnv hg
  refine ⟨st, p, ?_, k2, ?_, k4, ?_⟩
  · rw [C51_one_candidate _ _ _ _ _ hb th h1 h2]; exact k1
  · rcases k3 with k | ⟨_, k⟩
    · exact Or.inl k
    · exact Or.inr k
  · have e : (2⁻¹ ^ 52 : ℝ) = 1 / 4503599627370496 := by norm_num
    rw [e]; exact k5

/-- **C85.** Without bounds, on every symmetric Hessian (definite or not) and for a gradient different from zero, the truncated-CG solver returns a proposal; it is within the radius and
at least as good as every multiple of the gradient within the radius - in particular as the steepest descent (Cauchy) point.  The external routines play no role. -/
theorem C85_steihaug (hI : PlainInput I x g B D) (hg : g ≠ 0) (O : Oracles Num) (sb : StepBackStrategy) :
    (∃ step, trustRegion O n .steihaug sb I = .ok step) ∧
    ∀ fuel step, trustRegion O fuel .steihaug sb I = .ok step → ∃ p, Proposes1 step x g B p ∧ rnorm p ≤ D ∧
      ∀ t : ℝ, rnorm (t • g) ≤ D → quad B g p ≤ quad B g (t • g) := by
  obtain ⟨hb, th, h1, h2, h3, hP⟩ := hI.prob
  have hn : 0 < n := by
    rcases Nat.eq_zero_or_pos n with h0 | h0
    · subst h0; exact absurd (funext fun i => i.elim0) hg
    · exact h0
  refine ⟨C66_total (x := x) (d := 1) (dv := 0) ⟨hI.x, funext hI.scaling, hI.g, funext hI.dv, hI.hess, hI.radius, h1, hI.sym⟩ h2 h3 (hb.inBox x) hn O sb, fun fuel step hs => ?_⟩
  rw [C51_one_candidate _ _ _ _ _ hb th h1 h2] at hs
  exact steihaug_best hP hb hI.sym hI.positive hg fuel step hs

/-- **C85.** The order of the solvers: without bounds, on a positive definite Hessian and for a gradient different from zero, the decrease predicted by the full-space solver is at least
the one predicted by the two-dimensional solver and at least the one predicted by the truncated-CG solver, and all three predict a decrease. -/
theorem C85_order (hI : PlainInput I x g B D) (hpd : PD B) (hg : g ≠ 0) (O : Oracles Num) (hX : ExactRoutines O) (fuel : ℕ) (sb : StepBackStrategy) (full two cg : Step Num n)
    (hf : trustRegion O fuel .full sb I = .ok full) (ht : trustRegion O fuel .two sb I = .ok two) (hc : trustRegion O fuel .steihaug sb I = .ok cg) :
    ∃ a b c : ℝ, full.qpval = fin a ∧ two.qpval = fin b ∧ cg.qpval = fin c ∧ a ≤ b ∧ a ≤ c ∧ b < 0 ∧ c < 0 := by
  obtain ⟨hb, th, h1, h2, h3, hP⟩ := hI.prob
  have hn : 0 < n := by
    rcases Nat.eq_zero_or_pos n with h0 | h0
    · subst h0; exact absurd (funext fun i => i.elim0) hg
    · exact h0
  have hD := hI.positive
  obtain ⟨nv, hnv⟩ := pd_solve hI.sym hpd g
  have hnv0 : nv ≠ 0 := by
    rintro rfl
    rw [rmv_zero] at hnv
    exact hg (by rw [← neg_neg g, ← hnv, neg_zero])
  rw [C51_one_candidate _ _ _ _ _ hb th h1 h2] at hf ht hc
  obtain ⟨stf, f1, pf, f2, f3, f4, f5⟩ := full_best hP hb hn hI.sym hpd hD O hX nv hnv
  obtain ⟨stt, t1, pt, t2, t3, t4, t5⟩ := two_best hP hb hn hI.sym hpd hD O hX nv hnv hg
  obtain ⟨pc, c1, c2, c3⟩ := steihaug_best hP hb hI.sym hD hg fuel cg hc
  simp only [trStep] at hf ht
  rw [f1] at hf; cases hf
  rw [t1] at ht; cases ht
  refine ⟨_, _, _, f2.predicts, t2.predicts, c1.predicts, ?_, f5 _ c2, ?_, ?_⟩
  · rcases t3 with h | ⟨h0, rfl, h⟩
    · exact f5 _ h
    · rw [f4 h0 h]
  · have hpos := hpd nv hnv0
    have hlen := rnorm_pos hnv0
    obtain ⟨t, ht0, ht1, ht2⟩ : ∃ t : ℝ, 0 < t ∧ t ≤ 1 ∧ rnorm (t • nv) ≤ D := by
      refine ⟨min 1 (D / rnorm nv), lt_min one_pos (div_pos hD hlen), min_le_left _ _, ?_⟩
      rw [rnorm_smul, abs_of_pos (lt_min one_pos (div_pos hD hlen))]
      calc min 1 (D / rnorm nv) * rnorm nv ≤ D / rnorm nv * rnorm nv := mul_le_mul_of_nonneg_right (min_le_right _ _) hlen.le
        _ = D := by field_simp
    refine (t4 t ht2).trans_lt ?_
    have e : rdot g nv = -rdot nv (rmv B nv) := by rw [hnv, rdot_neg, neg_neg, rdot_comm]
    rw [quad_smul, e]
    nlinarith [mul_pos ht0 hpos]
  · have hpos := rdot_self_pos hg
    have hlen := rnorm_pos hg
    have hcur := hpd g hg
    obtain ⟨t, ht0, ht1, ht2⟩ : ∃ t : ℝ, 0 < t ∧ t * rdot g (rmv B g) ≤ rdot g g ∧ rnorm ((-t) • g) ≤ D := by
      refine ⟨min (rdot g g / rdot g (rmv B g)) (D / rnorm g), lt_min (div_pos hpos hcur) (div_pos hD hlen), ?_, ?_⟩
      · calc min (rdot g g / rdot g (rmv B g)) (D / rnorm g) * rdot g (rmv B g) ≤ rdot g g / rdot g (rmv B g) * rdot g (rmv B g) :=
            mul_le_mul_of_nonneg_right (min_le_left _ _) hcur.le
          _ = rdot g g := by field_simp
      · rw [rnorm_smul, abs_neg, abs_of_pos (lt_min (div_pos hpos hcur) (div_pos hD hlen))]
        calc min (rdot g g / rdot g (rmv B g)) (D / rnorm g) * rnorm g ≤ D / rnorm g * rnorm g := mul_le_mul_of_nonneg_right (min_le_right _ _) hlen.le
          _ = D := by field_simp
    refine (c3 _ ht2).trans_lt ?_
    rw [quad_smul]
    nlinarith [mul_pos ht0 hpos, mul_le_mul_of_nonneg_left ht1 ht0.le]

/-- **C85.** The inputs of `trust_region` in a run without bounds are of the kind the statements above are about. -/
theorem C85_inputs {E : Env Num n} (hU : ∀ i, E.lb i = ninf ∧ E.ub i = pinf) {tm : ℝ} (htm : E.opts.thetaMax = fin tm) (h0 : 0 < tm) (h1 : tm ≤ 1) (st : St Num n)
    (hx : st.x = ofV x) (hg : st.grad = ofV g) (hH : st.hess = ofM B) (hS : Sym B) (hd : st.deltaIter = fin D) (hD : 0 < D) : PlainInput (trInput E st) x g B D := by
  obtain ⟨k1, k2, _, _⟩ := C51_scaling E st x g B hU hx hg hH
  have hb : NoBounds E.lb E.ub := hU
  have hv : ∀ i, ∃ v, affineV E.lb E.ub (ofV x) (ofV g) i = fin v := by
    intro i
    rcases affine_coord E.lb E.ub x g (hb.inBox x) i with ⟨_, u, _, _, h, _⟩ | ⟨_, _, h, _⟩ | ⟨_, l, _, _, h, _⟩ | ⟨_, _, h, _⟩ <;> exact ⟨_, h⟩
  choose v hv using hv
  obtain ⟨th, hth, h5, h6⟩ := thetaOf_range tm h0 h1 v g
  refine ⟨hx, hg, hH, hS, hd, hD, fun i => congrFun k1 i, fun i => congrFun k2 i, ⟨th, ?_, h0.trans_le h5, h6⟩, fun i => (hU i).1, fun i => (hU i).2⟩
  show thetaOf E.opts.thetaMax (affineV E.lb E.ub st.x st.grad) st.grad = _
  rw [htm, hx, hg, show affineV E.lb E.ub (ofV x) (ofV g) = ofV v from funext hv, hth]

noncomputable section

/-- a problem in two variables: position `(7, 7)`, gradient `g`, Hessian `B`, radius 1 -/
def planeIn (g : Fin 2 → ℝ) (B : Fin 2 → Fin 2 → ℝ) : TRIn Num 2 where
  x := ofV ![7, 7]
  g := ofV g
  hess := ofM B
  scaling := fun _ => fin 1
  delta := fin 1
  dv := fun _ => fin 0
  theta := fin (19 / 20)
  lb := fun _ => ninf
  ub := fun _ => pinf

theorem plane_input (g : Fin 2 → ℝ) (B : Fin 2 → Fin 2 → ℝ) (hS : Sym B) : PlainInput (planeIn g B) ![7, 7] g B 1 :=
  ⟨rfl, rfl, rfl, hS, rfl, one_pos, fun _ => rfl, fun _ => rfl, ⟨19 / 20, rfl, by norm_num, by norm_num⟩, fun _ => rfl, fun _ => rfl⟩

theorem plane_sym : Sym ![![1, 0], ![0, (4 : ℝ)]] := by
  intro i j
  fin_cases i <;> fin_cases j <;> rfl

theorem plane_pd : PD ![![1, 0], ![0, (4 : ℝ)]] := by
  intro v hv
  have e : rdot v (rmv ![![1, 0], ![0, (4 : ℝ)]] v) = v 0 * v 0 + 4 * (v 1 * v 1) := by
    simp [rdot, rmv, Fin.sum_univ_two]; ring
  rw [e]
  by_contra hcon
  push Not at hcon
  have h0 : v 0 = 0 := by nlinarith [mul_self_nonneg (v 0), mul_self_nonneg (v 1)]
  have h1 : v 1 = 0 := by nlinarith [mul_self_nonneg (v 0), mul_self_nonneg (v 1)]
  exact hv (funext fun i => by fin_cases i <;> assumption)

/-- `C85_two` applies, with the gradient kept: gradient `(4, 4)`, Hessian `diag(1, 4)`, Newton step `(-4, -1)` -/
example (fuel : ℕ) (sb : StepBackStrategy) : ∃ step p, trustRegion exactRoutines fuel .two sb (planeIn ![4, 4] ![![1, 0], ![0, 4]]) = .ok step ∧
    Proposes1 step ![7, 7] ![4, 4] ![![1, 0], ![0, 4]] p ∧
    ∀ a b : ℝ, rnorm (a • ![4, 4] + b • ![-4, -1]) ≤ 1 → quad ![![1, 0], ![0, 4]] ![4, 4] p ≤ quad ![![1, 0], ![0, 4]] ![4, 4] (a • ![4, 4] + b • ![-4, -1]) := by
  obtain ⟨step, p, h1, h2, _, _, h3⟩ := C85_two (plane_input ![4, 4] ![![1, 0], ![0, 4]] plane_sym) plane_pd (by intro h; have := congrFun h 0; simp at this)
    exactRoutines exactRoutines_ok fuel sb ![-4, -1] (by funext i; fin_cases i <;> simp [rmv, rdot, Fin.sum_univ_two])
  refine ⟨step, p, h1, h2, h3 (Or.inr fun c => ?_)⟩
  have ev : (![4, 4] - c • ![-4, -1] : Fin 2 → ℝ) = ![4 + c * 4, 4 + c] := by funext i; fin_cases i <;> simp
  rw [ev]
  have k0 := entry_le_rnorm ![4 + c * 4, 4 + c] 0
  have k1 := entry_le_rnorm ![4 + c * 4, 4 + c] 1
  simp only [Matrix.cons_val_zero, Matrix.cons_val_one] at k0 k1
  rw [abs_le] at k0 k1
  have : (2⁻¹ : ℝ) ^ 52 < 1 := by norm_num
  linarith [k0.1, k0.2, k1.1, k1.2]

/-- `C85_order` applies to the same problem -/
example (sb : StepBackStrategy) : ∃ full two cg, trustRegion exactRoutines 2 .full sb (planeIn ![4, 4] ![![1, 0], ![0, 4]]) = .ok full ∧
    trustRegion exactRoutines 2 .two sb (planeIn ![4, 4] ![![1, 0], ![0, 4]]) = .ok two ∧ trustRegion exactRoutines 2 .steihaug sb (planeIn ![4, 4] ![![1, 0], ![0, 4]]) = .ok cg ∧
    ∃ a b c : ℝ, full.qpval = fin a ∧ two.qpval = fin b ∧ cg.qpval = fin c ∧ a ≤ b ∧ a ≤ c ∧ b < 0 ∧ c < 0 := by
  have hI := plane_input ![4, 4] ![![1, 0], ![0, 4]] plane_sym
  have hg : (![4, 4] : Fin 2 → ℝ) ≠ 0 := by intro h; have := congrFun h 0; simp at this
  obtain ⟨full, _, h1, _⟩ := C85_full hI plane_pd (by norm_num) exactRoutines exactRoutines_ok 2 sb
  obtain ⟨two, _, h2, _⟩ := C85_two hI plane_pd hg exactRoutines exactRoutines_ok 2 sb ![-4, -1] (by funext i; fin_cases i <;> simp [rmv, rdot, Fin.sum_univ_two])
  obtain ⟨cg, h3⟩ := (C85_steihaug hI hg exactRoutines sb).1
  exact ⟨full, two, cg, h1, h2, h3, C85_order hI plane_pd hg exactRoutines exactRoutines_ok 2 sb full two cg h1 h2 h3⟩

/-- `C85_steihaug` applies to an indefinite Hessian -/
example (O : Oracles Num) (sb : StepBackStrategy) : ∃ step p, trustRegion O 2 .steihaug sb (planeIn ![1, 1] ![![-3, 0], ![0, 2]]) = .ok step ∧
    Proposes1 step ![7, 7] ![1, 1] ![![-3, 0], ![0, 2]] p ∧ rnorm p ≤ 1 ∧
    ∀ t : ℝ, rnorm (t • ![1, 1]) ≤ 1 → quad ![![-3, 0], ![0, 2]] ![1, 1] p ≤ quad ![![-3, 0], ![0, 2]] ![1, 1] (t • ![1, 1]) := by
  have hS : Sym ![![-3, 0], ![0, (2 : ℝ)]] := by
    intro i j
    fin_cases i <;> fin_cases j <;> rfl
  obtain ⟨⟨step, h1⟩, h2⟩ := C85_steihaug (plane_input ![1, 1] ![![-3, 0], ![0, 2]] hS) (by intro h; have := congrFun h 0; simp at this) O sb
  obtain ⟨p, h3⟩ := h2 2 step h1
  exact ⟨step, p, h1, h3⟩

end

end Fides
