import Verif.Lemmas.Progress
import Verif.Lemmas.SteihaugCauchy

/-! Helper lemmas: proposals of the Steihaug solver on an unbounded problem. -/

namespace Fides
open Num Spec
variable {n : ℕ}

/-- the data of the step computation on an unbounded problem -/
theorem unbounded_data {E : Env Num n} {mu eta g1 g2 D0 : ℝ} (hE : TRParams E mu eta g1 g2 D0) (hU : NoBounds E.lb E.ub) (st : St Num n)
    (x g : Fin n → ℝ) (B : Fin n → Fin n → ℝ) (D : ℝ) (hx : st.x = ofV x) (hg : st.grad = ofV g) (hH : st.hess = ofM B)
    (hd : st.deltaIter = fin D) : ∃ th, RealProb (trInput E st).prob x 1 g B D th := by
  obtain ⟨h1, h2, h3, h4⟩ := C51_scaling E st x g B hU hx hg hH
  obtain ⟨tm, htm, ht0, ht1⟩ := hE.theta
  have hv : ∀ i, ∃ v, affineV E.lb E.ub (ofV x) (ofV g) i = fin v := by
    intro i
    rcases affine_coord E.lb E.ub x g (hU.inBox x) i with ⟨_, u, _, _, h, _⟩ | ⟨_, _, h, _⟩ | ⟨_, l, _, _, h, _⟩ | ⟨_, _, h, _⟩ <;> exact ⟨_, h⟩
  choose v hv using hv
  obtain ⟨th, hth, h5, h6⟩ := thetaOf_range tm ht0 ht1 v g
  refine ⟨th, hx, h1, h3, h4, hd, ?_, ht0.trans_le h5, h6, hU.inBox x⟩
  show thetaOf E.opts.thetaMax (affineV E.lb E.ub st.x st.grad) st.grad = _
  rw [htm, hx, hg, show affineV E.lb E.ub (ofV x) (ofV g) = ofV v from funext hv, hth]

/-- the step of the Steihaug solver on an unbounded problem: it has Cauchy decrease, is inside the ball and is proposed in full -/
theorem stepSteihaug_unbounded {P : Prob Num n} {x sg : Fin n → ℝ} {B : Fin n → Fin n → ℝ} {D th M : ℝ} (hP : RealProb P x 1 sg B D th)
    (hb : NoBounds P.lb P.ub) (hS : Sym B) (hD : 0 < D) (hM : 0 < M) (hB : ∀ v, rdot v (rmv B v) ≤ M * rdot v v) (hg : sg ≠ 0)
    (fuel : ℕ) (st : Step Num n) (h : stepSteihaug fuel P = .ok st) :
    ∃ p, vadd st.ss st.ss0 = ofV p ∧ vadd (vadd (ofV x) st.s) st.s0 = ofV (x + p) ∧ st.qpval = fin (quad B sg p) ∧
      quad B sg p ≤ -(rnorm sg * min D (rnorm sg / M) / 2) ∧ rnorm p ≤ D := by
  obtain ⟨c, hc0, hc1, hc2, hc3⟩ := steihaug_eps sg
  simp only [stepSteihaug] at h
  split at h
  · cases h
  · split at h
    · cases h
    · rename_i o ho
      cases h
      rw [hP.sg, hc3, vzero_ofV, vneg_ofV] at ho
      obtain ⟨q, p, h1, h2, h3, h4⟩ := steihaugLoop_cauchy hP hS hD M hM hB hg (c * rnorm sg)
        (mul_pos (hc2 (rnorm_pos hg)) (rnorm_pos hg)) fuel o ho
      set st1 : Step Num n := { Step.init P .cgs o.subspace with sc := o.sc, ss := o.ss, ss0 := o.ss0, s := sdot P.scaling (vadd o.ss o.ss0) } with hst1
      have hs1 : st1.s = ofV (p + q) := by
        show sdot P.scaling (vadd o.ss o.ss0) = _
        rw [h1, h2, vadd_ofV, hP.scaling]
        funext i
        rw [sdot_fin 1 _ i ((p + q) i) rfl]; simp
      obtain ⟨ha, hs⟩ := (stepBack_noBounds P hb th hP.theta hP.th0 st1).2 x (p + q) hP.x hs1
      have hss : (st1.stepBack P).ss = ofV p := by
        funext i
        show st1.ss i * (st1.stepBack P).alpha = _
        rw [ha, show st1.ss = ofV p from h2]; simp
      have hss0 : (st1.stepBack P).ss0 = ofV q := h1
      have hs0 : (st1.stepBack P).s0 = vzero := rfl
      refine ⟨p + q, ?_, ?_, ?_, ?_, ?_⟩
      · simp only [hss, hss0, vadd_ofV]
      · simp only [hs, hs0, vzero_ofV, vadd_ofV, add_zero]
      · simp only [hss, hss0, vadd_ofV, hP.shess, hP.sg, quadraticForm_ofV]
      · rw [add_comm]; exact h3
      · rw [add_comm]; exact h4

variable {E : Env Num n} {g : (Fin n → ℝ) → Fin n → ℝ} {mu eta g1 g2 D0 : ℝ}

theorem steihaug_decrease (hE : TRParams E mu eta g1 g2 D0) (hU : NoBounds E.lb E.ub) (hT : UsesTrustRegion E)
    (hdim : E.opts.subspaceDim = .steihaug) {M eps : ℝ} (hM : 0 < M) (he : 0 < eps) {prev next : St Num n} {cur cur' new : Funout Num n}
    {step : Step Num n} (hp : Pass E prev cur step new next cur') (hB : ∀ x, prev.x = ofV x → BoundedSym M prev.hess) :
    ModelDecrease E g M (eps / 2) (eps / M) (eps / M) eps prev step := by
  intro x D hx hg hd hD hbig
  obtain ⟨B, hH, hS, hBM⟩ := hB x hx
  obtain ⟨O, fuel, hO⟩ := hT
  have hpr := hp.proposal
  rw [hO, hdim] at hpr
  obtain ⟨th, hP⟩ := unbounded_data hE hU { prev with iteration := prev.iteration + 1, deltaIter := prev.delta, ticks := prev.ticks + 1 } x (g x) B D hx hg hH hd
  rw [C51_one_candidate _ _ _ _ _ hU th hP.theta hP.th0] at hpr
  have hg0 : g x ≠ 0 := by
    intro h0
    rw [h0, rnorm_eq_zero.mpr rfl] at hbig; linarith
  obtain ⟨p, h1, h2, h3, h4, h5⟩ := stepSteihaug_unbounded hP hU hS hD hM (fun v => (abs_le.mp (hBM v)).2) hg0 fuel step hpr
  refine ⟨B, p, hH, fun v => (abs_le.mp (hBM v)).1, h1, by rw [hx]; exact h2, h3, h4.trans ?_, Or.inl h5⟩
  have e1 : min D (eps / M) ≤ min D (rnorm (g x) / M) := min_le_min_left _ (div_le_div_of_nonneg_right hbig hM.le)
  have e2 : 0 ≤ min D (eps / M) := le_min hD.le (div_pos he hM).le
  have := mul_le_mul hbig e1 e2 (rnorm_nonneg _)
  linarith

end Fides
