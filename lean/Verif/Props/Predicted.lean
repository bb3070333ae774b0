import Verif.Lemmas.Line
import Verif.Lemmas.Demo

/-!
# C25: the predicted value belongs to the step taken
-/

set_option linter.unusedSectionVars false

namespace Fides
open Num Spec
variable {n : ℕ}

/-- **C25, first half** (all solvers and strategies, any external routines): the predicted value of the returned proposal is the
quadratic model `sg·p + p·shess·p/2` evaluated at its scaled step `p = ss + ss0`. -/
theorem C25_value (O : Oracles Num) (fuel : ℕ) (dim : SubSpaceDim) (strat : StepBackStrategy) (I : TRIn Num n) (st : Step Num n)
    (h : trustRegion O fuel dim strat I = .ok st) :
    st.qpval = quadraticForm I.prob.shess I.prob.sg (vadd st.ss st.ss0) :=
  cand_qpval O fuel dim st (trustRegion_cand _ _ _ _ _ _ h)

/-- **C25** for the 2D and full-space solvers with every step-back strategy and any external routines: when the predicted value is
finite, the displacement added to `x` is `D p` for the scaled step `p = ss + ss0`, and the predicted value is the quadratic model of
the objective at this displacement plus the Coleman-Li term `Σ |g_i| dv_i p_i² / 2`. -/
theorem C25_step_partial (O : Oracles Num) (fuel : ℕ) (dim : SubSpaceDim) (hdim : dim ≠ .steihaug) (strat : StepBackStrategy)
    (I : TRIn Num n) (d g dv : Fin n → ℝ) (H : Fin n → Fin n → ℝ) (hd : I.scaling = ofV d) (hg : I.g = ofV g) (hdv : I.dv = ofV dv)
    (hH : I.hess = ofM H) (st : Step Num n) (h : trustRegion O fuel dim strat I = .ok st) (q : ℝ) (hq : st.qpval = fin q) :
    ∃ p : Fin n → ℝ, vadd st.ss st.ss0 = ofV p ∧ vadd st.s st.s0 = ofV (fun i => d i * p i) ∧
      q = quad H g (fun i => d i * p i) + (∑ i, |g i| * dv i * (p i * p i)) / 2 := by
  have hc := trustRegion_cand _ _ _ _ _ _ h
  have hdP : I.prob.scaling = ofV d := hd
  have hrel := cand_rel d hdP O fuel dim hdim st hc
  obtain ⟨a, b, c, e, ha, hb, hc', he⟩ := cand_finite d hdP O fuel dim st hc q hq
  have h1 : ∀ i, a i = d i * c i := by
    intro i
    have := hrel.s i (c i) (by rw [hc']; rfl)
    rw [ha, ofV_apply, fin_inj] at this; exact this
  have h2 : ∀ i, b i = d i * e i := by
    intro i
    have := hrel.s0 i (e i) (by rw [he]; rfl)
    rw [hb, ofV_apply, fin_inj] at this; exact this
  refine ⟨c + e, by rw [hc', he, vadd_ofV], ?_, ?_⟩
  · rw [ha, hb, vadd_ofV, ofV_inj]
    funext i; simp only [Pi.add_apply]; rw [h1, h2]; ring
  · have hsg : I.prob.sg = ofV fun i => d i * g i := by
      show sdot I.scaling I.g = _
      rw [hd, hg]; funext i; exact sdot_fin d _ i (g i) rfl
    have hgd : I.prob.gDscaling = ofV fun i => |g i| * dv i := by
      funext i
      show FloatOps.abs (I.g i) * I.dv i = _
      rw [hg, hdv]; simp
    have hval := C25_value O fuel dim strat I st h
    rw [hq, shess_real I.prob d _ H hdP hH hgd, hsg, hc', he, vadd_ofV, quadraticForm_ofV, fin_inj, quad_scaled] at hval
    exact hval

/-- **C25** for the Steihaug solver when its step is not cut at the bounds. -/
theorem C25_steihaug_uncut_partial (fuel : ℕ) (P : Prob Num n) (d : Fin n → ℝ) (hd : P.scaling = ofV d) (st : Step Num n)
    (h : stepSteihaug fuel P = .ok st) (ha : st.alpha = fin 1) (q : ℝ) (hq : st.qpval = fin q) :
    ∃ p : Fin n → ℝ, vadd st.ss st.ss0 = ofV p ∧ vadd st.s st.s0 = ofV (fun i => d i * p i) := by
  simp only [stepSteihaug] at h
  split at h
  · cases h
  · split at h
    · cases h
    · rename_i o ho
      cases h
      have hq' := hq
      have hfin : ∀ i, ∃ r, o.ss i * fin 1 + o.ss0 i = fin r := by
        intro i
        obtain ⟨r, hr⟩ := quadraticForm_fin _ _ _ _ hq' i
        refine ⟨r, ?_⟩
        rw [← ha]; exact hr
      choose p hp using hfin
      have hp' : ∀ i, vadd o.ss o.ss0 i = fin (p i) := by
        intro i
        obtain ⟨a, b, h1, h2, h3⟩ := add_fin_iff _ _ _ (hp i)
        obtain ⟨a', b', h4, h5, h6⟩ := mul_fin_iff _ _ _ h1
        cases h5
        show o.ss i + o.ss0 i = _
        rw [h4, h2, h3, h6, fin_add, mul_one]
      refine ⟨p, funext fun i => ?_, funext fun i => ?_⟩
      · show o.ss i * _ + o.ss0 i = _
        have : o.ss i * fin 1 + o.ss0 i = fin (p i) := hp i
        rw [← ha] at this; exact this
      · show sdot P.scaling (vadd o.ss o.ss0) i * _ + fin ((0 : ℚ) : ℝ) = _
        have h2 : sdot P.scaling (vadd o.ss o.ss0) i * fin 1 = fin (d i * p i) := by
          rw [hd, sdot_fin d _ i (p i) (hp' i), fin_mul, mul_one]
        rw [← ha] at h2
        rw [Rat.cast_zero, add_zero_num]; exact h2

/-- the hypotheses of C25 are met with a nonzero step -/
example : ∃ st, trustRegion zeroOracles 10 .two .reflect demoIn = .ok st ∧ st.qpval = fin (-1 / 2) ∧ demoIn.scaling = ofV fun _ => 1 := by
  obtain ⟨step, h1, _, _, _, _, h6, _⟩ := demo_tr
  exact ⟨step, h1, h6, rfl⟩

end Fides
