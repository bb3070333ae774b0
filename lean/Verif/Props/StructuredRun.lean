import Verif.Props.RunUpdate
import Verif.Props.Structured
import Verif.Props.Evaluations
import Verif.Spec.Residuals

/-!
# C56 for the structured approximations SSM, TSSM and GNSBFGS in runs on least-squares problems
-/

set_option linter.unusedSectionVars false

namespace Fides
open Num Spec
variable {n m : ℕ} {E : Env Num n} {r : (Fin n → ℝ) → Fin m → ℝ} {J : (Fin n → ℝ) → Fin m → Fin n → ℝ}

theorem residual_eval (hR : ReturnsResiduals E r J) (x : Fin n → ℝ) (fo : Funout Num n) (hx : fo.x = ofV x)
    (h : ∃ k raw, funEval E.nargout E.resfun (E.obj k fo.x) = .ok raw ∧ raw.typed fo.x fo.xId = some fo) :
    fo.grad = ofV (jacT (J x) (r x)) ∧ fo.hess = some (ofM (gaussNewton (J x))) ∧ fo.res = some { m := m, res := ofV (r x), sres := ofM (J x) } := by
  obtain ⟨k, raw, h1, h2⟩ := h
  rw [hx, hR.obj, hR.resfun, hR.nargout] at h1
  obtain ⟨-, e2, e3, e4⟩ := least_squares_out m (r x) (J x) raw _ _ fo h1 h2
  exact ⟨e2, e3, e4⟩

theorem yBar_ofM (a : Fin m → ℝ) (A B : Fin m → Fin n → ℝ) : yBar (ofV a) (ofM A) (ofM B) = ofV (jacT (A - B) a) := by
  unfold yBar
  rw [msub_ofM, vecMul_ofM]
  funext j
  simp only [ofV_apply, rdot, jacT]
  congr 1
  exact Finset.sum_congr rfl fun i _ => mul_comm _ _

theorem gaussNewton_psd (A : Fin m → Fin n → ℝ) : Sym (gaussNewton A) ∧ PSD (gaussNewton A) := by
  constructor
  · intro j l
    exact Finset.sum_congr rfl fun i _ => mul_comm _ _
  · intro v
    have : rdot v (rmv (gaussNewton A) v) = ∑ i, (∑ j, A i j * v j) ^ 2 := by
      simp only [rdot, rmv, gaussNewton]
      simp only [Finset.mul_sum, Finset.sum_mul, sq]
      rw [Finset.sum_congr rfl fun j _ => Finset.sum_comm, Finset.sum_comm]
      refine Finset.sum_congr rfl fun i _ => ?_
      refine Finset.sum_congr rfl fun j _ => ?_
      refine Finset.sum_congr rfl fun l _ => ?_
      ring
    rw [this]
    positivity

/-- what an accepted step of a run on a least-squares problem hands to the update of the approximation -/
theorem structured_data (hR : ReturnsResiduals E r J) (x0 : Vec Num n) (startId : String) (hess0 : Hess0 Num) (st0 : St Num n) (k : ℕ)
    (prev next : St Num n) (cur cur' new : Funout Num n) (step : Step Num n) (hh : LoopHead E x0 startId hess0 st0 k prev cur)
    (h : Pass E prev cur step new next cur') (hacc : lt next.fval prev.fval = true) (z : Fin n → ℝ) (hz : cur.x = ofV z) :
    ∃ x x' : Fin n → ℝ, prev.x = ofV x ∧ new.x = ofV x' ∧ vadd step.s step.s0 = ofV (x' - x) ∧
      vsub new.grad cur.grad = ofV (jacT (J x') (r x') - jacT (J z) (r z)) ∧ new.hess = some (ofM (gaussNewton (J x'))) ∧
      new.res = some { m := m, res := ofV (r x'), sres := ofM (J x') } ∧ cur.res = some { m := m, res := ofV (r z), sres := ofM (J z) } := by
  have hp := pass_facts E _ _ _ _ _ _ h
  have hacc' : (radiusStep E prev step new).1 = true := by
    rcases hp.cases with ⟨h1, _⟩ | ⟨_, _, _, h1, _⟩
    · exact h1
    · rw [h1] at hacc
      have := (LawfulFloat.lt_iff _ _).mp hacc
      simp [this.1] at this
  obtain ⟨x, s, gc, gn, hx, hs, hxn, hgc, hgn⟩ := accepted_finite E x0 startId hess0 st0 k prev next cur cur' new step hh h hacc'
  obtain ⟨a1, a2, a3⟩ := residual_eval hR (x + s) new hxn (pass_evaluated h)
  obtain ⟨b1, b2, b3⟩ := residual_eval hR z cur hz (head_evaluated E x0 startId hess0 st0 k prev cur hh)
  exact ⟨x, x + s, hx, hxn, by rw [add_sub_cancel_left]; exact hs, by rw [a1, b1, vsub_ofV], a2, a3, b3⟩

/-- **C56 (run form of C36, SSM).** In a run on a least-squares problem with residuals `r` and derivative `J`, when a step from `x` to `x'` is accepted (`z` is where the residuals of
the current point were evaluated), and the curvature along `d = x' - x` is admissible, the Hessian used next satisfies the structured secant equation
`B' d = J(x')ᵀ J(x') d + (J(x') - J(z))ᵀ r(x')`. -/
theorem C56_ssm (hR : ReturnsResiduals E r J) (x0 : Vec Num n) (startId : String) (hess0 : Hess0 Num) (st0 : St Num n) (k : ℕ)
    (prev next : St Num n) (cur cur' new : Funout Num n) (step : Step Num n) (hh : LoopHead E x0 startId hess0 st0 k prev cur)
    (h : Pass E prev cur step new next cur') (hacc : lt next.fval prev.fval = true)
    (a : Structured Num n) (hg : prev.happ = some (.ssm a)) (phi : ℝ) (hphi : a.phi = fin phi) (A : Fin n → Fin n → ℝ) (hA : a.A = ofM A) :
    ∃ x x' z : Fin n → ℝ, prev.x = ofV x ∧ new.x = ofV x' ∧ cur.x = ofV z ∧
      (0 < rdot (rmv (gaussNewton (J x')) (x' - x) + jacT (J x' - J z) (r x')) (x' - x) →
        rdot (rmv (gaussNewton (J x') + A) (x' - x)) (x' - x) ≠ 0 →
        ∃ B', next.hess = ofM B' ∧ rmv B' (x' - x) = rmv (gaussNewton (J x')) (x' - x) + jacT (J x' - J z) (r x')) := by
  obtain ⟨z, hz, -⟩ := inBounds_real_of _ _ _ (headInv E x0 startId hess0 st0 k prev cur hh).bounds
  obtain ⟨x, x', h1, h2, h3, h4, h5, h6, h7⟩ := structured_data hR x0 startId hess0 st0 k prev next cur cur' new step hh h hacc z hz
  obtain ⟨g', c1, c2, -, c3⟩ := C56_update E x0 startId hess0 st0 k prev next cur cur' new step hh h hacc _ hg
  simp only at c3
  obtain ⟨hm, m', p, q, pp, qq, d1, d2, d3, d4⟩ := c3.2.2.2.2.1 a rfl
  rw [h5] at d1; rw [h6] at d2; rw [h7] at d3
  cases d1; cases d2; cases d3
  rw [h3, h4, yBar_ofM] at d4
  refine ⟨x, x', z, h1, h2, hz, fun hb hc => ?_⟩
  have hb' := hb
  rw [add_comm] at hb'
  obtain ⟨A', e1, e2, e3⟩ := C36_ssm a phi A (gaussNewton (J x')) (x' - x) (jacT (J x') (r x') - jacT (J z) (r z)) (jacT (J x' - J z) (r x')) hphi hA hb'.ne' hc (fun _ => hb')
  exact ⟨_, by rw [c2, d4]; exact e2, by rw [e3, add_comm]⟩

/-- **C56 (run form of C36, TSSM).** The same with the change of the derivative scaled by `‖r(x')‖ / ‖r(z)‖`. -/
theorem C56_tssm (hR : ReturnsResiduals E r J) (x0 : Vec Num n) (startId : String) (hess0 : Hess0 Num) (st0 : St Num n) (k : ℕ)
    (prev next : St Num n) (cur cur' new : Funout Num n) (step : Step Num n) (hh : LoopHead E x0 startId hess0 st0 k prev cur)
    (h : Pass E prev cur step new next cur') (hacc : lt next.fval prev.fval = true)
    (a : Structured Num n) (hg : prev.happ = some (.tssm a)) (phi : ℝ) (hphi : a.phi = fin phi) (A : Fin n → Fin n → ℝ) (hA : a.A = ofM A) :
    ∃ x x' z : Fin n → ℝ, prev.x = ofV x ∧ new.x = ofV x' ∧ cur.x = ofV z ∧
      (0 < rdot (rmv (gaussNewton (J x')) (x' - x) + (rnorm (r x') / rnorm (r z)) • jacT (J x' - J z) (r x')) (x' - x) →
        rdot (rmv (gaussNewton (J x') + rnorm (r x') • A) (x' - x)) (x' - x) ≠ 0 → r x' ≠ 0 → r z ≠ 0 →
        ∃ B', next.hess = ofM B' ∧ rmv B' (x' - x) = rmv (gaussNewton (J x')) (x' - x) + (rnorm (r x') / rnorm (r z)) • jacT (J x' - J z) (r x')) := by
  obtain ⟨z, hz, -⟩ := inBounds_real_of _ _ _ (headInv E x0 startId hess0 st0 k prev cur hh).bounds
  obtain ⟨x, x', h1, h2, h3, h4, h5, h6, h7⟩ := structured_data hR x0 startId hess0 st0 k prev next cur cur' new step hh h hacc z hz
  obtain ⟨g', c1, c2, -, c3⟩ := C56_update E x0 startId hess0 st0 k prev next cur cur' new step hh h hacc _ hg
  simp only at c3
  obtain ⟨hm, m', p, q, pp, qq, d1, d2, d3, d4⟩ := c3.2.2.2.2.2.1 a rfl
  rw [h5] at d1; rw [h6] at d2; rw [h7] at d3
  cases d1; cases d2; cases d3
  rw [h3, h4, yBar_ofM] at d4
  refine ⟨x, x', z, h1, h2, hz, fun hb hc hr' hr => ?_⟩
  have hnz : rnorm (r z) ≠ 0 := fun h0 => hr (rnorm_eq_zero.mp h0)
  have hnx : rnorm (r x') ≠ 0 := fun h0 => hr' (rnorm_eq_zero.mp h0)
  have hsc : (fun i => (ofV (jacT (J x' - J z) (r x')) i : Num) * (norm (ofV (r x')) / norm (ofV (r z)))) = ofV ((rnorm (r x') / rnorm (r z)) • jacT (J x' - J z) (r x')) := by
    funext i
    rw [norm_ofV, norm_ofV, fin_div _ _ hnz, ofV_apply, fin_mul, ofV_apply, Pi.smul_apply, smul_eq_mul, mul_comm]
  rw [hsc, norm_ofV] at d4
  obtain ⟨A', e1, e2, e3⟩ := C36_tssm a phi _ A (gaussNewton (J x')) (x' - x) (jacT (J x') (r x') - jacT (J z) (r z)) ((rnorm (r x') / rnorm (r z)) • jacT (J x' - J z) (r x')) hphi hA hnx hb.ne' hc (fun _ => hb)
  exact ⟨_, by rw [c2, d4]; exact e2, e3⟩

/-- **C56 (run form of C36, GNSBFGS).** With `w = ‖r(x')‖ / ‖r(z)‖ (J(x') - J(z))ᵀ r(x')` and `d = x' - x`: if the curvature ratio `wᵀd / dᵀd` exceeds `hybrid_tol` the Hessian used next is
`J(x')ᵀ J(x') + A'` with `A' d = w`, otherwise it is `J(x')ᵀ J(x') + ‖r(x')‖ I`. -/
theorem C56_gnsbfgs (hR : ReturnsResiduals E r J) (x0 : Vec Num n) (startId : String) (hess0 : Hess0 Num) (st0 : St Num n) (k : ℕ)
    (prev next : St Num n) (cur cur' new : Funout Num n) (step : Step Num n) (hh : LoopHead E x0 startId hess0 st0 k prev cur)
    (h : Pass E prev cur step new next cur') (hacc : lt next.fval prev.fval = true) (tol : ℝ)
    (a : Structured Num n) (hg : prev.happ = some (.gnsbfgs (fin tol) a)) (phi : ℝ) (hphi : a.phi = fin phi) (A : Fin n → Fin n → ℝ) (hA : a.A = ofM A) :
    ∃ x x' z : Fin n → ℝ, prev.x = ofV x ∧ new.x = ofV x' ∧ cur.x = ofV z ∧ (r z ≠ 0 → x' ≠ x →
      let d := x' - x
      let w := (rnorm (r x') / rnorm (r z)) • jacT (J x' - J z) (r x')
      (tol < rdot w d / rdot d d → 0 < rdot w d → rdot (rmv A d) d ≠ 0 → ∃ A', next.hess = ofM (gaussNewton (J x') + A') ∧ rmv A' d = w) ∧
      (rdot w d / rdot d d ≤ tol → next.hess = ofM (gaussNewton (J x') + rnorm (r x') • idM))) := by
  obtain ⟨z, hz, -⟩ := inBounds_real_of _ _ _ (headInv E x0 startId hess0 st0 k prev cur hh).bounds
  obtain ⟨x, x', h1, h2, h3, h4, h5, h6, h7⟩ := structured_data hR x0 startId hess0 st0 k prev next cur cur' new step hh h hacc z hz
  obtain ⟨g', c1, c2, -, c3⟩ := C56_update E x0 startId hess0 st0 k prev next cur cur' new step hh h hacc _ hg
  simp only at c3
  obtain ⟨hm, m', p, q, pp, qq, d1, d2, d3, d4⟩ := c3.2.2.2.2.2.2 (fin tol) a rfl
  rw [h5] at d1; rw [h6] at d2; rw [h7] at d3
  cases d1; cases d2; cases d3
  rw [h3, h4, yBar_ofM] at d4
  refine ⟨x, x', z, h1, h2, hz, fun hr hd => ?_⟩
  have hnz : rnorm (r z) ≠ 0 := fun h0 => hr (rnorm_eq_zero.mp h0)
  have hsc : (fun i => (ofV (jacT (J x' - J z) (r x')) i : Num) * (norm (ofV (r x')) / norm (ofV (r z)))) = ofV ((rnorm (r x') / rnorm (r z)) • jacT (J x' - J z) (r x')) := by
    funext i
    rw [norm_ofV, norm_ofV, fin_div _ _ hnz, ofV_apply, fin_mul, ofV_apply, Pi.smul_apply, smul_eq_mul, mul_comm]
  rw [hsc, norm_ofV] at d4
  intro d w
  obtain ⟨e1, e2⟩ := C36_gnsbfgs a tol (rnorm (r x')) phi A (gaussNewton (J x')) d (jacT (J x') (r x') - jacT (J z) (r z)) w hphi hA (sub_ne_zero.mpr hd)
  constructor
  · intro ht hb hc
    obtain ⟨A', f1, f2, f3⟩ := e1 ht hb.ne' hc (fun _ => hb)
    exact ⟨A', by rw [c2, d4]; exact f2, f3⟩
  · intro ht
    rw [c2, d4]; exact (e2 ht).2

/-- **C37 in runs.** In every run with `GNSBFGS(hybrid_tol)`, `hybrid_tol ≥ 0`, on a least-squares problem whose residuals vanish nowhere, started from the identity or a symmetric positive
definite `hess0`, the Hessian used in every iteration and the returned one are finite, symmetric and positive definite. -/
theorem C37_run (hR : ReturnsResiduals E r J) (hr : ∀ x, r x ≠ 0) (x0 : Vec Num n) (startId : String) (hess0 : Hess0 Num) (st0 : St Num n) (enforce : Bool) (tol : ℝ) (htol : 0 ≤ tol)
    (hg : st0.happ = some (.gnsbfgs (fin tol) (Structured.new (lit 0) enforce)))
    (h0 : hess0 = .val .none ∨ ∃ m : Mat Num n n, hess0 = .val (.ofMat m) ∧ FinSPD m) (k : ℕ) (st : St Num n) (cur : Funout Num n)
    (h : LoopHead E x0 startId hess0 st0 k st cur) :
    FinSPD st.hess ∧ ∃ a, st.happ = some (.gnsbfgs (fin tol) a) ∧ a.phi = fin 0 ∧ FinSPD a.A := by
  induction k generalizing st cur with
  | zero =>
    have h41 := (C41_run E x0 startId hess0 st0 st cur h).2 _ hg
    refine ⟨?_, ?_⟩
    · rcases h0 with h0 | ⟨m, h0, hm⟩
      · rw [h41.1 h0, meye_ofM]
        exact ⟨_, rfl, Sym_idM, PD_idM⟩
      · rw [h41.2.1 m h0]; exact hm
    · have hA0 : ∀ hs : Option (Mat Num n n), FinSPD ((Structured.new (lit 0) enforce : Structured Num n).initMat hs).A := by
        intro hs
        refine ⟨(1 / 4503599627370496 : ℝ) • idM, ?_, Num.Sym.smul _ Sym_idM, PD_smul_idM (by norm_num)⟩
        funext i j
        simp only [Structured.initMat, meye_ofM, spacing1, lit_def, ofM_apply, fin_mul, fin_inj, Pi.smul_apply, smul_eq_mul, idM]
        push_cast
        ring
      cases h with
      | start s _ _ hb hs =>
        obtain ⟨rfl, _⟩ := checkInBounds_ok _ _ _ _ hb
        obtain ⟨raw, happ, _, h2, _, h4, _, _, _, h8⟩ := setup_ok _ _ _ _ _ hs
        have h2' : initialHapp st0.happ hess0 raw = .ok happ := h2
        rw [hg] at h2'
        obtain ⟨g', rfl, hi1, hi2⟩ := initialHapp_some _ _ _ _ h2'
        obtain ⟨b, c, d, e, hf⟩ := setupState_frame (startState E x0 startId st0) cur (some g')
        have hh : st.happ = some g' := by
          rw [h8]
          show (setupState (startState E x0 startId st0) cur (some g')).happ = _
          rw [hf]
        rw [hh]
        have : ∃ v, hess0 = .val v := by
          rcases h0 with h | ⟨m, h, _⟩
          · exact ⟨_, h⟩
          · exact ⟨_, h⟩
        obtain ⟨v, hv⟩ := this
        rcases initHapp_ok _ _ _ (hi2 _ hv) with ⟨_, rfl⟩ | ⟨_, m, _, rfl⟩
        · exact ⟨_, rfl, by simp [Structured.initMat, Structured.new], hA0 _⟩
        · exact ⟨_, rfl, by simp [Structured.initMat, Structured.new], hA0 _⟩
  | succ k ih =>
    obtain ⟨prev, cur0, step, new, hh, hp⟩ := loopHead_pass E x0 startId hess0 st0 k st cur h
    obtain ⟨ihm, a, iha, ihp, ihA⟩ := ih prev cur0 hh
    have hf := pass_facts E _ _ _ _ _ _ hp
    rcases hf.cases with ⟨hacc, h1, _, _, h2, h3⟩ | ⟨_, _, _, _, _, h5, h6⟩
    · obtain ⟨hlt, _⟩ := accepted_lt E prev step new hacc hf.finite1
      have hlt' : lt st.fval prev.fval = true := by rw [h2]; exact hlt
      obtain ⟨z, hz⟩ : ∃ z, cur0.x = ofV z := by
        obtain ⟨z, hz, -⟩ := inBounds_real_of _ _ _ (headInv E x0 startId hess0 st0 k prev cur0 hh).bounds
        exact ⟨z, hz⟩
      obtain ⟨x, x', b1, b2, b3, b4, b5, b6, b7⟩ := structured_data hR x0 startId hess0 st0 k prev st cur0 cur new step hh hp hlt' z hz
      obtain ⟨g', c1, c2, -, c3⟩ := C56_update E x0 startId hess0 st0 k prev st cur0 cur new step hh hp hlt' _ iha
      simp only at c3
      obtain ⟨hm, m', p, q, pp, qq, d1, d2, d3, d4⟩ := c3.2.2.2.2.2.2 (fin tol) a rfl
      rw [b5] at d1; rw [b6] at d2; rw [b7] at d3
      cases d1; cases d2; cases d3
      rw [b3, b4, yBar_ofM] at d4
      have hnz : rnorm (r z) ≠ 0 := fun h0 => hr z (rnorm_eq_zero.mp h0)
      have hsc : (fun i => (ofV (jacT (J x' - J z) (r x')) i : Num) * (norm (ofV (r x')) / norm (ofV (r z)))) = ofV ((rnorm (r x') / rnorm (r z)) • jacT (J x' - J z) (r x')) := by
        funext i
        rw [norm_ofV, norm_ofV, fin_div _ _ hnz, ofV_apply, fin_mul, ofV_apply, Pi.smul_apply, smul_eq_mul, mul_comm]
      rw [hsc, norm_ofV] at d4
      have hpos : 0 < rnorm (r x') := lt_of_le_of_ne (rnorm_nonneg _) (fun h0 => hr x' (rnorm_eq_zero.mp h0.symm))
      have hgn : Sym (gaussNewton (J x')) ∧ PSD (gaussNewton (J x')) := gaussNewton_psd (J x')
      have hst := gns_step a tol 0 ihp le_rfl htol ihA ⟨x' - x, jacT (J x') (r x') - jacT (J z) (r z), (rnorm (r x') / rnorm (r z)) • jacT (J x' - J z) (r x'), rnorm (r x'), gaussNewton (J x')⟩ hgn hpos
      refine ⟨by rw [c2, d4]; exact hst.2, _, by rw [c1, d4], ?_, hst.1⟩
      simp only [Structured.updateGNSBFGS]
      split <;> exact ihp
    · exact ⟨by rw [h5]; exact ihm, a, by rw [h6]; exact iha, ihp, ihA⟩

end Fides
