import Verif.Lemmas.SteihaugLine
import Verif.Lemmas.OneColumn

/-! Helper lemmas: problems in one variable, where the base step is the minimizer of the model on an interval. -/

namespace Fides
open Num Spec

theorem one_multiple (u v : Fin 1 → ℝ) (hu : u ≠ 0) : ∃ c : ℝ, v = c • u := by
  have h0 : u 0 ≠ 0 := by
    intro h; apply hu; funext i; rw [Subsingleton.elim i 0, h]; rfl
  refine ⟨v 0 / u 0, funext fun i => ?_⟩
  rw [Subsingleton.elim i 0]
  simp only [Pi.smul_apply, smul_eq_mul]
  field_simp

section
variable {P : Prob Num 1} {x d sg : Fin 1 → ℝ} {B : Fin 1 → Fin 1 → ℝ} {delta theta : ℝ}

theorem one_residual (hS : Sym B) (hg : sg ≠ 0) (hc : 0 < rdot (-sg) (rmv B (-sg))) :
    sg + (rdot sg sg / rdot (-sg) (rmv B (-sg))) • rmv B (-sg) = 0 := by
  obtain ⟨b, hb⟩ := one_multiple sg (rmv B (-sg)) hg
  have hs := rdot_self_pos hg
  rw [hb] at hc ⊢
  rw [neg_rdot, rdot_smul] at hc ⊢
  have hb0 : b < 0 := by nlinarith
  have e : rdot sg sg / -(b * rdot sg sg) = -(1 / b) := by field_simp
  rw [e, smul_smul]
  have : -(1 / b) * b = -1 := by rw [neg_mul, one_div, inv_mul_cancel₀ hb0.ne]
  rw [this]; simp

/-- in one variable Steihaug's loop ends in its first pass, with nothing in `ss0` -/
theorem one_loop (hP : RealProb P x d sg B delta theta) (hS : Sym B) (hg : sg ≠ 0) (eps : ℝ) (he : 0 < eps) (k : ℕ) (o : CGOut Num 1)
    (h : steihaugLoop P (fin eps) k (ofV 0) (ofV sg) (ofV (-sg)) = .ok o) : o.ss0 = ofV 0 := by
  cases k with
  | zero => cases h
  | succ k =>
    rcases le_or_gt (rdot (-sg) (rmv B (-sg))) 0 with hc | hc
    · obtain ⟨t, h1, -⟩ := cg_exit_curv P B delta eps hP.shess hP.delta k 0 sg (-sg) hc
      rw [h1] at h; cases h; rfl
    rcases le_or_gt delta (rnorm (0 + (rdot sg sg / rdot (-sg) (rmv B (-sg))) • -sg)) with hf | hf
    · obtain ⟨t, h1, -⟩ := cg_exit_far P B delta eps hP.shess hP.delta k 0 sg (-sg) hc hf
      rw [h1] at h; cases h; rfl
    have hr := one_residual hS hg hc
    have hr' : rnorm (sg + (rdot sg sg / rdot (-sg) (rmv B (-sg))) • rmv B (-sg)) < eps := by
      rw [hr, rnorm_eq_zero.mpr rfl]; exact he
    rw [cg_conv P B delta eps hP.shess hP.delta k 0 sg (-sg) hc hf hr'] at h
    cases h
    show ofV _ = ofV _
    rw [ofV_inj, zero_add, smul_rdot, rdot_smul, smul_smul]
    have hn : rnorm (-sg) ≠ 0 := by
      rw [pyrnorm_neg]; exact (rnorm_pos hg).ne'
    have : rdot (-sg) (-sg) = rnorm (-sg) * rnorm (-sg) := (rnorm_sq _).symm
    rw [this]
    have e : ∀ a N : ℝ, N ≠ 0 → a * (N⁻¹ * (N * N)) * N⁻¹ = a := by intro a N hN; field_simp
    rw [e _ _ hn, sub_self]

/-- `st` is the minimizer of the model on the interval, shortened by `step_back` -/
def OneBase (P : Prob Num 1) (x d sg : Fin 1 → ℝ) (B : Fin 1 → Fin 1 → ℝ) (delta : ℝ) (st : Step Num 1) : Prop :=
  ∃ (st1 : Step Num 1) (t : ℝ), st1.x = ofV x ∧ st1.ss0 = ofV 0 ∧ st1.s0 = ofV 0 ∧ st1.ss = ofV (t • (rnorm sg)⁻¹ • sg) ∧
    st1.s = ofV (fun i => d i * (t • (rnorm sg)⁻¹ • sg) i) ∧ rnorm (t • (rnorm sg)⁻¹ • sg) ≤ delta ∧
    (∀ r : ℝ, rnorm (r • (rnorm sg)⁻¹ • sg) ≤ delta → quad B sg (t • (rnorm sg)⁻¹ • sg) ≤ quad B sg (r • (rnorm sg)⁻¹ • sg)) ∧
    st = { st1.stepBack P with qpval := quadraticForm P.shess P.sg (vadd (st1.stepBack P).ss (st1.stepBack P).ss0) }

/-- Steihaug's step in one variable: the base step -/
theorem one_steihaug (hP : RealProb P x d sg B delta theta) (hS : Sym B) (hdel : 0 < delta) (hg : sg ≠ 0) (fuel : ℕ) (st : Step Num 1)
    (h : stepSteihaug fuel P = .ok st) :
    OneBase P x d sg B delta st := by
  obtain ⟨c, hc0, hc1, hc2, hc3⟩ := steihaug_eps sg
  have hNp := rnorm_pos hg
  simp only [stepSteihaug] at h
  split at h
  · cases h
  · split at h
    · cases h
    · rename_i o ho
      cases h
      rw [hP.sg, hc3, vzero_ofV, vneg_ofV] at ho
      have hz : rnorm (0 : Fin 1 → ℝ) = 0 := rnorm_eq_zero.mpr rfl
      have hep : 0 < c * rnorm sg := mul_pos (hc2 (rnorm_pos hg)) (rnorm_pos hg)
      have hq0 := one_loop hP hS hg _ hep fuel o ho
      obtain ⟨q, p, h1, h2, h3⟩ := steihaugLoop_best hP hS hdel (c * rnorm sg) hep fuel 0 sg (-sg) (by rw [hz]; exact hdel) (by rw [rmv_zero, add_zero]) (rdot_neg _ _) hg o ho
      rw [hq0, ofV_inj] at h1
      subst h1
      obtain ⟨q', h5, _, h6⟩ := steihaugLoop_ball hP hdel.le (c * rnorm sg) fuel 0 sg (-sg) (Or.inl hep) (by rw [hz]; exact hdel.le) o ho
      rw [hq0, ofV_inj] at h5
      subst h5
      have h4 := h6 p h2
      rw [zero_add] at h4
      have hu0 : (rnorm sg)⁻¹ • sg ≠ 0 := smul_ne_zero (inv_ne_zero hNp.ne') hg
      obtain ⟨t, ht⟩ := one_multiple _ p hu0
      refine ⟨{ Step.init P .cgs o.subspace with sc := o.sc, ss := o.ss, ss0 := o.ss0, s := sdot P.scaling (vadd o.ss o.ss0) }, t, hP.x, hq0,
        (by show (vzero : Vec Num 1) = _; rw [vzero_ofV]), (by rw [← ht]; exact h2), ?_, (by rw [← ht]; exact h4), fun r hr => ?_, rfl⟩
      · show sdot P.scaling (vadd o.ss o.ss0) = _
        rw [hq0, h2, vadd_ofV, add_zero, hP.scaling, sdot_finite, ht]
      · have := h3 (-(r * (rnorm sg)⁻¹))
        rw [zero_add, neg_smul, smul_neg, neg_neg, mul_smul, zero_add, ht] at this
        exact this hr

/-- steps computed in a subspace with one column -/
theorem one_calculate (hP : RealProb P x d sg B delta theta) (hS : Sym B) (hdel : 0 < delta) (hg : sg ≠ 0) (O : SubOracles Num) (st : Step Num 1)
    (hx : st.x = P.x) (hs0 : st.s0 = vzero) (hss0 : st.ss0 = vzero) (u : Fin 1 → ℝ) (hu : u ≠ 0) (hcols : st.subspace = [ofV u]) :
    ∃ st', st.calculate O P = .ok st' ∧ OneBase P x d sg B delta st' := by
  have hNp := rnorm_pos hg
  have hu0 : (rnorm sg)⁻¹ • sg ≠ 0 := smul_ne_zero (inv_ne_zero hNp.ne') hg
  obtain ⟨t, ht, hin, hbest⟩ := C20_solve1d hS sg u 0 delta hdel.le (by rw [rnorm_eq_zero.mpr rfl]; exact hdel.le) (Or.inl (by rw [rnorm_eq_zero.mpr rfl]; exact hdel))
  simp only [zero_add] at hin hbest
  have hcs : st.computeStep O P = .ok { st with sc := [fin t], ss := ofV (t • u), s := sdot P.scaling (ofV (t • u)) } := by
    unfold Step.computeStep
    rw [hcols]
    simp only [hP.shess, hP.sg, hP.delta, hss0, vzero_ofV, ht, subDot_one]
  obtain ⟨r, hr⟩ := one_multiple _ (t • u) hu0
  refine ⟨_, by rw [Step.calculate, hcs], { st with sc := [fin t], ss := ofV (t • u), s := sdot P.scaling (ofV (t • u)) }, r, ?_, ?_, ?_, ?_, ?_, ?_, ?_, rfl⟩
  · show st.x = _
    rw [hx]; exact hP.x
  · show st.ss0 = _
    rw [hss0, vzero_ofV]
  · show st.s0 = _
    rw [hs0, vzero_ofV]
  · rw [← hr]
  · show sdot P.scaling (ofV (t • u)) = _
    rw [hP.scaling, sdot_finite, hr]
  · rw [← hr]; exact hin
  · intro q hq
    rw [← hr]
    obtain ⟨q', hq'⟩ := one_multiple u (q • (rnorm sg)⁻¹ • sg) hu
    rw [hq'] at hq ⊢
    exact hbest q' hq

/-- the base step of the full-space solver in one variable -/
theorem one_full (hP : RealProb P x d sg B delta theta) (hS : Sym B) (hdel : 0 < delta) (hg : sg ≠ 0) (O : Oracles Num) :
    ∃ st, stepFull O P = .ok st ∧ OneBase P x d sg B delta st := by
  refine one_calculate hP hS hdel hg O.sub _ rfl rfl rfl (fun _ => 1) (by intro h; have := congrFun h 0; norm_num at this) ?_
  show (List.ofFn fun j : Fin 1 => fun i : Fin 1 => (meye : Mat Num 1 1) i j) = _
  simp only [List.ofFn_succ, List.ofFn_zero]
  congr 1
  funext i
  rw [meye_ofM]
  show fin (if _ then _ else _) = _
  rw [if_pos (Subsingleton.elim _ _)]
  rfl

end

end Fides
