import Verif.Lemmas.Progress
import Verif.Lemmas.SteihaugDecrease
import Verif.Props.TrustBall
import Verif.Spec.Routines
import Verif.Spec.Smooth
import Verif.Lemmas.ExactOracles

/-! Helper lemmas: proposals of the full-space and two-dimensional solvers on an unbounded problem with positive definite Hessian. -/

namespace Fides
open Num Spec
variable {n : ℕ}

/-! ## the Newton step -/

theorem psd_cauchy {B : Fin n → Fin n → ℝ} (hS : Sym B) (hB : ∀ v, 0 ≤ rdot v (rmv B v)) (u v : Fin n → ℝ) :
    rdot u (rmv B v) * rdot u (rmv B v) ≤ rdot u (rmv B u) * rdot v (rmv B v) := by
  have h : ∀ t : ℝ, 0 ≤ rdot u (rmv B u) + 2 * t * rdot u (rmv B v) + t * t * rdot v (rmv B v) := by
    intro t
    have h1 := hB (u + t • v)
    have h2 : rdot v (rmv B u) = rdot u (rmv B v) := by rw [Sym.rdot_rmv hS v u, rdot_comm]
    rw [rmv_add, rmv_smul, add_rdot, rdot_add, rdot_add, smul_rdot, smul_rdot, rdot_smul, rdot_smul, h2] at h1
    linarith
  have h0 := hB v
  rcases h0.lt_or_eq with hp | hz
  · have := h (-(rdot u (rmv B v) / rdot v (rmv B v)))
    have e : rdot u (rmv B u) + 2 * -(rdot u (rmv B v) / rdot v (rmv B v)) * rdot u (rmv B v) +
        -(rdot u (rmv B v) / rdot v (rmv B v)) * -(rdot u (rmv B v) / rdot v (rmv B v)) * rdot v (rmv B v) =
        (rdot u (rmv B u) * rdot v (rmv B v) - rdot u (rmv B v) * rdot u (rmv B v)) / rdot v (rmv B v) := by
      field_simp; ring
    rw [e] at this
    have := (div_nonneg_iff.mp this).resolve_right (by rintro ⟨_, h⟩; linarith)
    linarith [this.1]
  · rw [← hz, mul_zero]
    by_contra hcon
    push Not at hcon
    have hne : rdot u (rmv B v) ≠ 0 := by rintro h; rw [h] at hcon; simp at hcon
    have := h (-((rdot u (rmv B u) + 1) / (2 * rdot u (rmv B v))))
    rw [← hz] at this
    have e : 2 * -((rdot u (rmv B u) + 1) / (2 * rdot u (rmv B v))) * rdot u (rmv B v) = -(rdot u (rmv B u) + 1) := by
      field_simp
    rw [e] at this
    linarith

/-- length of the image under a positive semidefinite matrix -/
theorem psd_image {B : Fin n → Fin n → ℝ} (hS : Sym B) (hB : ∀ v, 0 ≤ rdot v (rmv B v)) {M : ℝ} (hM : ∀ v, rdot v (rmv B v) ≤ M * rdot v v)
    (v : Fin n → ℝ) : rdot (rmv B v) (rmv B v) ≤ M * rdot v (rmv B v) := by
  have h1 := psd_cauchy hS hB (rmv B v) v
  have h2 := hM (rmv B v)
  have h3 := rdot_self_nonneg (rmv B v)
  have h4 := hB v
  rcases h3.lt_or_eq with hp | hz
  · have h5 : rdot (rmv B v) (rmv B (rmv B v)) * rdot v (rmv B v) ≤ M * rdot (rmv B v) (rmv B v) * rdot v (rmv B v) := mul_le_mul_of_nonneg_right h2 h4
    by_contra hcon
    push Not at hcon
    have := mul_lt_mul_of_pos_left hcon hp
    nlinarith
  · rw [← hz]
    by_contra hcon
    push Not at hcon
    have hv : rmv B v = 0 := rdot_self_eq_zero.mp hz.symm
    rw [hv, rdot_zero, mul_zero] at hcon
    linarith

/-- along the Newton step there is a point in the ball with sufficient decrease -/
theorem newton_decrease {B : Fin n → Fin n → ℝ} (hS : Sym B) {m M : ℝ} (hm : 0 < m) (hM : 0 < M) (hlow : ∀ v, m * rdot v v ≤ rdot v (rmv B v))
    (hup : ∀ v, rdot v (rmv B v) ≤ M * rdot v v) (g nv : Fin n → ℝ) (hnv : rmv B nv = -g) {eps D : ℝ} (he : 0 < eps) (hD : 0 < D) (hg : eps ≤ rnorm g) :
    eps / M ≤ rnorm nv ∧ ∃ t : ℝ, rnorm (t • nv) ≤ D ∧ quad B g (t • nv) ≤ -(m * eps / (2 * M) * min D (eps / m)) := by
  have hB : ∀ v, 0 ≤ rdot v (rmv B v) := fun v => le_trans (mul_nonneg hm.le (rdot_self_nonneg v)) (hlow v)
  have hgg : rdot (rmv B nv) (rmv B nv) = rnorm g * rnorm g := by rw [hnv, rnorm_sq, neg_rdot, rdot_neg, neg_neg]
  have h1 := psd_image hS hB hup nv
  rw [hgg] at h1
  have h2 := hup nv
  have h3 := hlow nv
  rw [← rnorm_sq nv] at h2 h3
  have hn0 := rnorm_nonneg nv
  have hlen : rnorm g / M ≤ rnorm nv := by
    rw [div_le_iff₀ hM]
    by_contra hcon
    push Not at hcon
    have : (rnorm nv * M) * (rnorm nv * M) < rnorm g * rnorm g := mul_self_lt_mul_self (by positivity) hcon
    nlinarith
  have hlen' : eps / M ≤ rnorm nv := (div_le_div_of_nonneg_right hg hM.le).trans hlen
  have hnpos : 0 < rnorm nv := lt_of_lt_of_le (by positivity) hlen'
  refine ⟨hlen', ?_⟩
  have hq : ∀ t : ℝ, quad B g (t • nv) = -(t - t * t / 2) * rdot nv (rmv B nv) := by
    intro t
    have e : rdot g nv = -rdot nv (rmv B nv) := by rw [hnv, rdot_neg, neg_neg, rdot_comm]
    rw [quad_smul, e]; ring
  have hee : eps * eps ≤ M * rdot nv (rmv B nv) := le_trans (mul_self_le_mul_self he.le hg) h1
  rcases le_or_gt (rnorm nv) D with hin | hout
  · refine ⟨1, by rw [one_smul]; exact hin, ?_⟩
    rw [hq]
    have h4 : m * eps / (2 * M) * min D (eps / m) ≤ m * eps / (2 * M) * (eps / m) := mul_le_mul_of_nonneg_left (min_le_right _ _) (by positivity)
    have h5 : m * eps / (2 * M) * (eps / m) = eps * eps / (2 * M) := by field_simp
    have h6 : eps * eps / (2 * M) ≤ rdot nv (rmv B nv) / 2 := by
      rw [div_le_div_iff₀ (by positivity) (by norm_num)]; nlinarith
    linarith
  · refine ⟨D / rnorm nv, ?_, ?_⟩
    · rw [rnorm_smul, abs_of_pos (by positivity), div_mul_cancel₀ _ hnpos.ne']
    · rw [hq]
      set t := D / rnorm nv with ht
      have ht0 : 0 < t := by positivity
      have ht1 : t < 1 := by rw [ht, div_lt_one hnpos]; exact hout
      have htn : t * rnorm nv = D := by rw [ht]; field_simp
      have h4 : m * eps / (2 * M) * min D (eps / m) ≤ m * eps / (2 * M) * D := mul_le_mul_of_nonneg_left (min_le_left _ _) (by positivity)
      have h5 : m * eps / (2 * M) * D = D * m / 2 * (eps / M) := by field_simp
      have h6 : D * m / 2 * (eps / M) ≤ D * m / 2 * rnorm nv := mul_le_mul_of_nonneg_left hlen' (by positivity)
      have h7 : D * m / 2 * rnorm nv = t / 2 * (m * (rnorm nv * rnorm nv)) := by rw [← htn]; ring
      have h8 : t / 2 * (m * (rnorm nv * rnorm nv)) ≤ t / 2 * rdot nv (rmv B nv) := mul_le_mul_of_nonneg_left h3 (by positivity)
      have h9 : t / 2 * rdot nv (rmv B nv) ≤ (t - t * t / 2) * rdot nv (rmv B nv) := by
        apply mul_le_mul_of_nonneg_right _ (hB nv)
        nlinarith
      linarith

/-! ## the solver on positive definite matrices -/

theorem solveNd_pd (O : Oracles Num) (hX : ExactRoutines O) {k : ℕ} (hk : 0 < k) {B : Fin k → Fin k → ℝ} (hB : Sym B) (hpd : PD B) (g : Fin k → ℝ) {D : ℝ}
    (hD : 0 < D) : ∃ r ty, solveNd O.sub (ofM B) (ofV g) (fin D) = .ok (ofV r, ty) ∧ MinOverBall B g D r ∧ (rnorm r ≤ D ∨ (rmv B r = -g ∧ rnorm r ≤ D + 1 / 67108864)) := by
  obtain ⟨vals, U, he, hE⟩ := hX.eig B hB
  obtain ⟨j, hj, hmin⟩ := argminIdx_fin vals hk
  have hw : (fun i => -(dot (fun l => ofM U l i) (ofV g))) = ofV (fun i => -rdot (fun l => U l i) g) := by
    funext i
    exact congrArg Neg.neg (dot_ofV (fun l => U l i) g)
  have hvp : ∀ i, 0 < vals i := by
    intro i
    have hu : rdot (fun l => U l i) (fun l => U l i) = 1 := by rw [hE.1 i i, if_pos rfl]
    have hne : (fun l => U l i) ≠ 0 := by
      intro h0; rw [h0, rdot_zero] at hu; norm_num at hu
    have := hpd _ hne
    rw [hE.2 i, rdot_smul, hu, mul_one] at this
    exact this
  set w : Fin k → ℝ := fun i => -rdot (fun l => U l i) g with hwdef
  rw [solveNd, if_neg (by simpa using hD.ne'), he]
  simp only [hj, hw, lit_def, Rat.cast_zero, sqrt_spacing1, fin_add]
  have hp' : lt (fin 0) (ofV vals j) = true := by simpa using hvp j
  rw [hp', Bool.true_and, slam_fin, norm_ofV]
  by_cases hin : rnorm (rmv U (slamC 0 w vals)) ≤ D + 1 / 67108864
  · rw [if_pos (by simpa using hin)]
    have hst := rmv_slamC_zero hE g 0 (fun i hi => by have := hvp i; linarith)
    refine ⟨_, _, rfl, more_sorensen hB g _ D 0 hD.le hst (eig_psd hE fun i => by have := hvp i; linarith) le_rfl (Or.inl rfl), Or.inr ⟨?_, hin⟩⟩
    rw [← hst, zero_smul, add_zero]
  · rw [if_neg (by simpa using hin)]
    push Not at hin
    have hpos : 0 < rnorm (rmv U (slamC 0 w vals)) := by linarith
    have hs : lt (secular (fin 0) (ofV w) (ofV vals) (ofM U) (fin D)) (fin 0) = true := by
      rw [secular_fin _ _ _ _ _ j hmin hD.ne', if_neg (by have := hvp j; linarith), if_pos hpos]
      simp only [fin_lt, decide_eq_true_eq]
      have : 1 / rnorm (rmv U (slamC 0 w vals)) < 1 / D := one_div_lt_one_div_of_lt hD (by linarith)
      linarith
    have hbig : D * D < slamSq w vals 0 := by
      have h3 := mul_self_lt_mul_self hD.le (show D < rnorm (rmv U (slamC 0 w vals)) by linarith)
      rwa [rnorm_sq, ortho_rdot hE.1] at h3
    obtain ⟨q, hq1, hq2⟩ := secular_root w vals U hE.1 j hmin D 0 hD (by have := hvp j; linarith) (fun i => Or.inr (by have := hvp i; linarith)) hbig
    obtain ⟨q', e1, e2, e3⟩ := hX.roots (fun l => secular l (ofV w) (ofV vals) (ofM U) (fin D)) 0
      (fun l => dsecular l (ofV w) (ofV vals) (ofM U) (fin D)) ⟨q, hq1, hq2⟩
    have hn : rnorm (rmv U (slamC q' w vals)) = D := by
      rw [secular_fin _ _ _ _ _ j hmin hD.ne', if_neg (by have := hvp j; linarith)] at e3
      split at e3
      · rw [fin_inj] at e3
        have h1 : 1 / rnorm (rmv U (slamC q' w vals)) = 1 / D := by linarith
        rw [← one_div_one_div (rnorm (rmv U (slamC q' w vals))), h1, one_div_one_div]
      · cases e3
    have hroot : rootFind O.sub (ofV w) (ofV vals) (ofM U) (fin D) (fin 0) = .ok (some (ofV (rmv U (slamC q' w vals)))) := by
      rw [rootFind]
      simp only [e1]
      rw [if_pos, slam_fin]
      rw [slam_fin, norm_ofV, hn, lit_def, fin_add]
      simp
    simp only [if_true, hs, hroot]
    have hst := rmv_slamC_zero hE g q' (fun i hi => by have := hvp i; linarith)
    exact ⟨_, _, rfl, more_sorensen hB g _ D q' hD.le hst (eig_psd hE fun i => by have := hvp i; linarith) e2 (Or.inr hn.ge), Or.inl hn.le⟩

/-! ## steps in a subspace -/

/-- linear combination of columns -/
def colsum {k : ℕ} (C : Fin k → Fin n → ℝ) (c : Fin k → ℝ) : Fin n → ℝ := ∑ a, c a • C a

theorem subDot_colsum (cols : List (Vec Num n)) (C : Fin cols.length → Fin n → ℝ) (hC : ∀ a, cols.get a = ofV (C a)) (c : Fin cols.length → ℝ) :
    subDot cols (List.ofFn (ofV c)) = ofV (colsum C c) := by
  funext i
  have h : List.zipWith (fun (v : Vec Num n) t => v i * t) cols (List.ofFn (ofV c)) = List.ofFn fun a => fin (C a i * c a) := by
    apply List.ext_getElem
    · simp
    · intro a h1 h2
      simp only [List.length_zipWith, List.length_ofFn, min_self] at h1
      have := congrFun (hC ⟨a, h1⟩) i
      simp only [List.get_eq_getElem] at this
      simp [this]
  simp only [subDot, h, sum_ofFn_fin, ofV_apply, colsum, Finset.sum_apply, Pi.smul_apply, smul_eq_mul]
  congr 1
  exact Finset.sum_congr rfl fun a _ => mul_comm _ _

theorem rdot_colsum {k : ℕ} (C : Fin k → Fin n → ℝ) (c : Fin k → ℝ) (v : Fin n → ℝ) : rdot v (colsum C c) = rdot (fun a => rdot (C a) v) c := by
  rw [colsum, rdot_sum_right]
  refine Finset.sum_congr rfl fun a _ => ?_
  rw [rdot_smul, rdot_comm v, mul_comm]

theorem rmv_colsum {k : ℕ} (B : Fin n → Fin n → ℝ) (C : Fin k → Fin n → ℝ) (c : Fin k → ℝ) : rmv B (colsum C c) = colsum (fun a => rmv B (C a)) c := by
  rw [colsum, rmv_sum, colsum]
  simp only [rmv_smul]

/-- the reduced matrix -/
def reduced {k : ℕ} (B : Fin n → Fin n → ℝ) (C : Fin k → Fin n → ℝ) : Fin k → Fin k → ℝ := fun a b => rdot (C a) (rmv B (C b))

theorem reduced_rmv {k : ℕ} (B : Fin n → Fin n → ℝ) (C : Fin k → Fin n → ℝ) (c : Fin k → ℝ) :
    rmv (reduced B C) c = fun a => rdot (C a) (rmv B (colsum C c)) := by
  funext a
  rw [rmv_colsum, rdot_colsum]
  show rdot _ c = _
  congr 1
  funext b
  rw [reduced, rdot_comm]

theorem reduced_form {k : ℕ} (B : Fin n → Fin n → ℝ) (C : Fin k → Fin n → ℝ) (c : Fin k → ℝ) :
    rdot c (rmv (reduced B C) c) = rdot (colsum C c) (rmv B (colsum C c)) := by
  rw [reduced_rmv, rdot_comm (colsum C c), rdot_colsum, rdot_comm c]

theorem reduced_quad {k : ℕ} (B : Fin n → Fin n → ℝ) (g : Fin n → ℝ) (C : Fin k → Fin n → ℝ) (c : Fin k → ℝ) :
    quad (reduced B C) (fun a => rdot (C a) g) c = quad B g (colsum C c) := by
  unfold quad
  rw [reduced_form, rdot_colsum]

theorem colsum_norm {k : ℕ} (C : Fin k → Fin n → ℝ) (hC : ∀ a b, rdot (C a) (C b) = if a = b then 1 else 0) (c : Fin k → ℝ) : rnorm (colsum C c) = rnorm c := by
  have : rdot (colsum C c) (colsum C c) = rdot c c := by
    rw [rdot_colsum]
    have : (fun a => rdot (C a) (colsum C c)) = c := by
      funext a
      rw [rdot_colsum]
      have h2 : (fun b => rdot (C b) (C a)) = fun b => if b = a then (1 : ℝ) else 0 := funext fun b => hC b a
      rw [h2]
      simp [rdot]
    rw [this]
  rw [rnorm, rnorm, this]

/-- the step in a subspace containing the Newton step -/
structure NewtonLike (x : Fin n → ℝ) (B : Fin n → Fin n → ℝ) (sg nv : Fin n → ℝ) (D : ℝ) (st : Step Num n) (p : Fin n → ℝ) : Prop where
  scaled : vadd st.ss st.ss0 = ofV p
  trial : vadd (vadd (ofV x) st.s) st.s0 = ofV (x + p)
  model : st.qpval = fin (quad B sg p)
  best : ∀ t : ℝ, rnorm (t • nv) ≤ D → quad B sg p ≤ quad B sg (t • nv)
  length : rnorm p ≤ D ∨ (p = nv ∧ rnorm p ≤ D + 1 / 67108864)
  /-- no point of the ball on the line through the step and the Newton step is better -/
  line : ∀ t : ℝ, rnorm (p + t • (nv - p)) ≤ D → quad B sg p ≤ quad B sg (p + t • (nv - p))

theorem calculate_of_ss {P : Prob Num n} {x sg : Fin n → ℝ} {B : Fin n → Fin n → ℝ} {D th : ℝ} (hP : RealProb P x 1 sg B D th) (hb : NoBounds P.lb P.ub)
    (O : SubOracles Num) (st st1 : Step Num n) (hs0 : st.s0 = vzero) (hss0 : st.ss0 = vzero) (hx : st.x = P.x) (p : Fin n → ℝ)
    (hc : st.computeStep O P = .ok st1) (h1 : st1 = { st with sc := st1.sc, ss := ofV p, s := sdot P.scaling (ofV p) }) :
    ∃ st', st.calculate O P = .ok st' ∧ vadd st'.ss st'.ss0 = ofV p ∧ vadd (vadd (ofV x) st'.s) st'.s0 = ofV (x + p) ∧ st'.qpval = fin (quad B sg p) := by
  have hs1 : st1.s = ofV p := by
    rw [h1]
    show sdot P.scaling (ofV p) = _
    rw [hP.scaling]
    funext i
    rw [sdot_fin 1 _ i (p i) rfl]; simp
  have hx1 : st1.x = ofV x := by rw [h1]; show st.x = _; rw [hx, hP.x]
  obtain ⟨ha, hs⟩ := (stepBack_noBounds P hb th hP.theta hP.th0 st1).2 x p hx1 hs1
  have hss : (st1.stepBack P).ss = ofV p := by
    funext i
    show st1.ss i * (st1.stepBack P).alpha = _
    rw [ha, show st1.ss = ofV p by rw [h1]]; simp
  have hss0' : (st1.stepBack P).ss0 = ofV 0 := by
    show st1.ss0 = _; rw [h1]; show st.ss0 = _; rw [hss0, vzero_ofV]
  have hs0' : (st1.stepBack P).s0 = ofV 0 := by
    show st1.s0 = _; rw [h1]; show st.s0 = _; rw [hs0, vzero_ofV]
  unfold Step.calculate
  rw [hc]
  refine ⟨_, rfl, ?_, ?_, ?_⟩
  · simp only [hss, hss0', vadd_ofV, add_zero]
  · simp only [hs, hs0', vadd_ofV, add_zero]
  · simp only [hss, hss0', vadd_ofV, add_zero, hP.shess, hP.sg, quadraticForm_ofV]

theorem calculate_pd_one {P : Prob Num n} {x sg : Fin n → ℝ} {B : Fin n → Fin n → ℝ} {D th : ℝ} (hP : RealProb P x 1 sg B D th) (hb : NoBounds P.lb P.ub)
    (hS : Sym B) (hD : 0 < D) (O : Oracles Num) (st : Step Num n) (hs0 : st.s0 = vzero) (hss0 : st.ss0 = vzero) (hx : st.x = P.x)
    (nv : Fin n → ℝ) (u : Fin n → ℝ) (hcols : st.subspace = [ofV u]) (c0 : ℝ) (hn : nv = c0 • u) :
    ∃ st', st.calculate O.sub P = .ok st' ∧ ∃ p, NewtonLike x B sg nv D st' p := by
  obtain ⟨t, ht, hin, hbest⟩ := C20_solve1d hS sg u 0 D hD.le (by rw [rnorm_eq_zero.mpr rfl]; exact hD.le) (Or.inl (by rw [rnorm_eq_zero.mpr rfl]; exact hD))
  simp only [zero_add] at hin hbest
  have hcs : st.computeStep O.sub P = .ok { st with sc := [fin t], ss := ofV (t • u), s := sdot P.scaling (ofV (t • u)) } := by
    unfold Step.computeStep
    rw [hcols]
    simp only [hP.shess, hP.sg, hP.delta, hss0, vzero_ofV, ht, subDot_one]
  obtain ⟨st', h1, h2, h3, h4⟩ := calculate_of_ss hP hb O.sub st _ hs0 hss0 hx (t • u) hcs rfl
  refine ⟨st', h1, t • u, h2, h3, h4, ?_, Or.inl hin, ?_⟩
  · intro t' ht'
    rw [hn, smul_smul] at ht' ⊢
    exact hbest _ ht'
  · intro t' ht'
    have e : t • u + t' • (nv - t • u) = (t + t' * (c0 - t)) • u := by
      rw [hn, ← sub_smul, smul_smul, ← add_smul]
    rw [e] at ht' ⊢
    exact hbest _ ht'

theorem computeStep_many (O : SubOracles Num) (P : Prob Num n) (st : Step Num n) (l : List (Vec Num n)) (hl : 2 ≤ l.length) (hsub : st.subspace = l) :
    st.computeStep O P =
      match solveNd O (chess P.shess l) (cg P.sg l) (FloatOps.sqrt (pyMax (P.delta * P.delta - norm st.ss0 * norm st.ss0) (Fides.lit 0))) with
      | .error e => .error e
      | .ok (sc, _) => .ok { st with sc := List.ofFn sc, ss := subDot l (List.ofFn sc), s := sdot P.scaling (subDot l (List.ofFn sc)) } := by
  subst hsub
  unfold Step.computeStep
  split
  · rename_i h; rw [h] at hl; simp at hl
  · rename_i h; rw [h] at hl; simp at hl
  · simp only
    cases solveNd O (chess P.shess st.subspace) (cg P.sg st.subspace) (FloatOps.sqrt (pyMax (P.delta * P.delta - norm st.ss0 * norm st.ss0) (lit 0))) <;> rfl

theorem calculate_pd_many {P : Prob Num n} {x sg : Fin n → ℝ} {B : Fin n → Fin n → ℝ} {D th : ℝ} (hP : RealProb P x 1 sg B D th) (hb : NoBounds P.lb P.ub)
    (hS : Sym B) (hpd : PD B) (hD : 0 < D) (O : Oracles Num) (hX : ExactRoutines O) (st : Step Num n) (hs0 : st.s0 = vzero) (hss0 : st.ss0 = vzero) (hx : st.x = P.x)
    (nv : Fin n → ℝ) (hnv : rmv B nv = -sg) (cs : List (Vec Num n)) (hcols : st.subspace = cs) (C : Fin cs.length → Fin n → ℝ)
    (hC : ∀ a, cs.get a = ofV (C a)) (c0 : Fin cs.length → ℝ) (hc0 : nv = colsum C c0) (h2l : 2 ≤ cs.length)
    (hor' : ∀ a b, rdot (C a) (C b) = if a = b then 1 else 0) :
    ∃ st', st.calculate O.sub P = .ok st' ∧ ∃ p, NewtonLike x B sg nv D st' p := by
  have hnorm := colsum_norm C hor'
  have hM : chess (ofM B) cs = ofM (reduced B C) := by
    funext a b
    simp only [chess, hC, mulVec_ofM, dot_ofV, ofM_apply, reduced]
  have hg : cg (ofV sg) cs = ofV fun a => rdot (C a) sg := by
    funext a
    simp only [cg, hC, dot_ofV, ofV_apply]
  have hSr : Sym (reduced B C) := by
    intro a b
    simp only [reduced]
    rw [Sym.rdot_rmv hS, rdot_comm]
  have hpdr : PD (reduced B C) := by
    intro v hv
    rw [reduced_form]
    apply hpd
    intro h0
    apply hv
    have := hnorm v
    rw [h0, rnorm_eq_zero.mpr rfl] at this
    exact rnorm_eq_zero.mp this.symm
  obtain ⟨r, ty, hsol, hmin, hlen⟩ := solveNd_pd O hX (by omega) hSr hpdr (fun a => rdot (C a) sg) hD
  have hrad : FloatOps.sqrt (pyMax (P.delta * P.delta - norm st.ss0 * norm st.ss0) (Fides.lit 0)) = fin D := by
    rw [hP.delta, hss0, vzero_ofV, norm_ofV, rnorm_eq_zero.mpr rfl, fin_mul, fin_mul, fin_sub, lit_def, pyMax_fin]
    have : max (D * D - 0 * 0) ((0 : ℚ) : ℝ) = D * D := by
      rw [max_eq_left (by push_cast; nlinarith)]; ring
    rw [this, fin_sqrt _ (by positivity), Real.sqrt_mul_self hD.le]
  have hcomp : st.computeStep O.sub P = .ok { st with sc := List.ofFn (ofV r), ss := ofV (colsum C r), s := sdot P.scaling (ofV (colsum C r)) } := by
    rw [computeStep_many O.sub P st cs h2l hcols, hrad, hP.shess, hP.sg, hM, hg, hsol]
    simp only [subDot_colsum cs C hC]
  obtain ⟨st', h1, h2, h3, h4⟩ := calculate_of_ss hP hb O.sub st _ hs0 hss0 hx (colsum C r) hcomp rfl
  refine ⟨st', h1, colsum C r, h2, h3, h4, ?_, ?_, ?_⟩
  · intro t ht
    have htc : t • nv = colsum C (t • c0) := by
      rw [hc0, colsum, colsum, Finset.smul_sum]
      simp [smul_smul]
    rw [htc] at ht ⊢
    rw [hnorm] at ht
    rw [← reduced_quad, ← reduced_quad]
    exact hmin _ ht
  · rcases hlen with h | ⟨h, hl⟩
    · left; rw [hnorm]; exact h
    · right
      refine ⟨?_, by rw [hnorm]; exact hl⟩
      have h5 : rmv (reduced B C) (r - c0) = 0 := by
        have h6 : rmv (reduced B C) c0 = -fun a => rdot (C a) sg := by
          rw [reduced_rmv, ← hc0, hnv]
          funext a; rw [rdot_neg]; rfl
        rw [rmv_sub, h, h6, sub_self]
      have h7 : r - c0 = 0 := by
        by_contra hne
        have := hpdr _ hne
        rw [h5, rdot_zero] at this
        exact lt_irrefl _ this
      rw [hc0, sub_eq_zero.mp h7]
  · intro t ht
    have htc : colsum C r + t • (nv - colsum C r) = colsum C (r + t • (c0 - r)) := by
      rw [hc0]
      simp only [colsum, ← Finset.sum_sub_distrib, Finset.smul_sum, ← Finset.sum_add_distrib, ← sub_smul, smul_smul, ← add_smul]
      rfl
    rw [htc] at ht ⊢
    rw [hnorm] at ht
    rw [← reduced_quad, ← reduced_quad]
    exact hmin _ ht


/-! ## the solvers -/

theorem pd_injective {B : Fin n → Fin n → ℝ} (hpd : PD B) {u v : Fin n → ℝ} (h : rmv B u = rmv B v) : u = v := by
  by_contra hne
  have h1 := hpd (u - v) (sub_ne_zero.mpr hne)
  rw [rmv_sub, h, sub_self, rdot_zero] at h1
  exact lt_irrefl _ h1

theorem exact_lstsq (O : Oracles Num) (hX : ExactRoutines O) {B : Fin n → Fin n → ℝ} (hS : Sym B) (g z : Fin n → ℝ)
    (hz : rmv B z = g) : ∃ z', O.lstsq (ofM B) (ofV g) = .ok (ofV z') ∧ rmv B z' = g := by
  obtain ⟨z', h1, h2, _⟩ := hX.lstsq B g hS
  refine ⟨z', h1, ?_⟩
  have h3 := h2 z
  rw [hz, sub_self, rnorm_eq_zero.mpr rfl] at h3
  exact sub_eq_zero.mp (rnorm_eq_zero.mp (le_antisymm h3 (rnorm_nonneg _)))

theorem foldl_npMax (l : List ℝ) (a : ℝ) (ha : 0 ≤ a) : ∃ r : ℝ, 0 ≤ r ∧ (l.map fin).foldl npMax2 (fin a) = fin r := by
  induction l generalizing a with
  | nil => exact ⟨a, ha, rfl⟩
  | cons b l ih =>
    simp only [List.map_cons, List.foldl_cons]
    have : npMax2 (fin a) (fin b) = fin (max a b) := by simp [npMax2_fin]
    rw [this]
    exact ih _ (le_max_of_le_left ha)

theorem exact_posdef (vals : Fin n → ℝ) (hn : 0 < n) (h : ∀ i, 0 < vals i) :
    lt (-spacing1 * (List.ofFn (ofV fun i => |vals i|)).foldl npMax2 (Fides.lit 0)) (vmin (ofV vals)) = true := by
  obtain ⟨j, _, hmin⟩ := argminIdx_fin vals hn
  rw [vmin_eq_of_min vals j hmin]
  have e : List.ofFn (ofV fun i => |vals i|) = (List.ofFn fun i => |vals i|).map fin := by rw [List.map_ofFn]; rfl
  obtain ⟨r, hr, h2⟩ := foldl_npMax (List.ofFn fun i => |vals i|) 0 le_rfl
  rw [e, lit_def, Rat.cast_zero, h2]
  have : (spacing1 : Num) = fin (1 / 4503599627370496) := by norm_num [spacing1]
  rw [this, fin_neg, fin_mul, fin_lt]
  have := h j
  simp only [decide_eq_true_eq]
  nlinarith

theorem pd_vals {B vals U : _} (hpd : PD B) (hE : IsEig (n := n) B vals U) (i : Fin n) : 0 < vals i := by
  have hu : rdot (fun l => U l i) (fun l => U l i) = 1 := by rw [hE.1 i i, if_pos rfl]
  have hne : (fun l => U l i) ≠ 0 := by
    intro h0; rw [h0, rdot_zero] at hu; norm_num at hu
  have := hpd _ hne
  rw [hE.2 i, rdot_smul, hu, mul_one] at this
  exact this

section
variable {P : Prob Num n} {x sg : Fin n → ℝ} {B : Fin n → Fin n → ℝ} {D th : ℝ}

theorem two_pd (hP : RealProb P x 1 sg B D th) (hb : NoBounds P.lb P.ub) (hn : 0 < n) (hS : Sym B) (hpd : PD B) (hD : 0 < D) (O : Oracles Num)
    (hX : ExactRoutines O) (nv : Fin n → ℝ) (hnv : rmv B nv = -sg) (hg : sg ≠ 0) :
    ∃ st', step2d O P = .ok st' ∧ ∃ p, NewtonLike x B sg nv D st' p := by
  obtain ⟨z, hz, hBz⟩ := exact_lstsq O hX hS sg (-nv) (by rw [rmv_neg, hnv, neg_neg])
  obtain ⟨vals, U, he, hE⟩ := hX.npEig B hS
  have hzn : z = -nv := pd_injective hpd (by rw [hBz, rmv_neg, hnv, neg_neg])
  subst hzn
  have hnv0 : nv ≠ 0 := by
    rintro rfl
    rw [rmv_zero] at hnv
    exact hg (by rw [← neg_neg sg, ← hnv, neg_zero])
  have hpdt := exact_posdef vals hn (pd_vals hpd hE)
  have hrn := rnorm_pos hnv0
  have hsc : nv = rnorm nv • ((rnorm nv)⁻¹ • nv) := by rw [smul_smul, mul_inv_cancel₀ hrn.ne', one_smul]
  unfold step2d
  unfold subspace2d
  rw [hP.shess, hP.sg, hz, he]
  simp only
  by_cases h1 : n = 1
  · subst h1
    rw [if_pos rfl]
    have hB0 : 0 < B 0 0 := by
      have := hpd (fun _ => 1) (by intro h; have := congrFun h 0; simp at this)
      simpa [rdot, rmv] using this
    have hcol : (fun i => -ofV sg i / ofM B i i) = ofV nv := by
      funext i
      have hi : i = 0 := Subsingleton.elim _ _
      subst hi
      have := congrFun hnv 0
      simp only [rmv, rdot, Finset.univ_unique, Fin.default_eq_zero, Fin.isValue, Finset.sum_singleton, Pi.neg_apply] at this
      simp only [ofV_apply, ofM_apply, fin_neg]
      rw [fin_div _ _ hB0.ne', ← this, mul_div_cancel_left₀ _ hB0.ne']
    simp only [hcol]
    exact calculate_pd_one hP hb hS hD O _ rfl rfl rfl nv nv rfl 1 (one_smul _ _).symm
  · rw [if_neg h1, if_pos hpdt]
    have hvn : vneg (ofV (-nv)) = ofV nv := by rw [vneg_ofV, neg_neg]
    rw [hvn]
    by_cases hlt : lt (norm (ofV nv)) P.delta = true
    · rw [if_pos hlt]
      exact calculate_pd_one hP hb hS hD O _ rfl rfl rfl nv _ (by show [normalize (ofV nv)] = _; rw [normalize_ofV]) (rnorm nv) hsc
    · rw [if_neg hlt]
      have hu1 : rnorm ((rnorm nv)⁻¹ • nv) = 1 := rnorm_normalized hnv0
      rcases orth2d nv sg _ rfl with h | ⟨b, h, hb1, hb2⟩
      · exact calculate_pd_one hP hb hS hD O _ rfl rfl rfl nv _ h (rnorm nv) hsc
      · refine calculate_pd_many hP hb hS hpd hD O hX _ rfl rfl rfl nv hnv [ofV ((rnorm nv)⁻¹ • nv), ofV b] h
          (fun a => if a = 0 then (rnorm nv)⁻¹ • nv else b) ?_ (fun a => if a = 0 then rnorm nv else 0) ?_ (by simp) ?_
        · intro a
          match a with
          | ⟨0, _⟩ => rfl
          | ⟨1, _⟩ => rfl
        · rw [colsum]
          show nv = ∑ a : Fin 2, _
          rw [Fin.sum_univ_two]
          simp only [Fin.isValue, ↓reduceIte, zero_smul, one_ne_zero, add_zero]
          exact hsc
        · have haa : rdot ((rnorm nv)⁻¹ • nv) ((rnorm nv)⁻¹ • nv) = 1 := by rw [← rnorm_sq, hu1]; norm_num
          have hbb : rdot b b = 1 := by rw [← rnorm_sq, hb1]; norm_num
          have key : ∀ a c : Fin 2, rdot (if a = 0 then (rnorm nv)⁻¹ • nv else b) (if c = 0 then (rnorm nv)⁻¹ • nv else b) = if a = c then 1 else 0 := by
            intro a c
            match a, c with
            | 0, 0 => simpa using haa
            | 0, 1 => simpa using hb2
            | 1, 0 => rw [rdot_comm]; simpa using hb2
            | 1, 1 => simpa using hbb
          exact key

theorem full_pd (hP : RealProb P x 1 sg B D th) (hb : NoBounds P.lb P.ub) (hn : 0 < n) (hS : Sym B) (hpd : PD B) (hD : 0 < D) (O : Oracles Num)
    (hX : ExactRoutines O) (nv : Fin n → ℝ) (hnv : rmv B nv = -sg) :
    ∃ st', stepFull O P = .ok st' ∧ ∃ p, NewtonLike x B sg nv D st' p := by
  have hcols : (List.ofFn fun j : Fin n => fun i : Fin n => (meye : Mat Num n n) i j) =
      List.ofFn fun j : Fin n => ofV fun i : Fin n => if i = j then (1 : ℝ) else 0 := by
    congr 1
    funext j i
    rw [meye_ofM]; rfl
  unfold stepFull
  by_cases h1 : n = 1
  · subst h1
    refine calculate_pd_one hP hb hS hD O _ rfl rfl rfl nv (fun _ => 1) ?_ (nv 0) ?_
    · show (List.ofFn fun j : Fin 1 => fun i : Fin 1 => (meye : Mat Num 1 1) i j) = _
      rw [hcols]
      simp only [List.ofFn_succ, List.ofFn_zero]
      congr 2
      funext i; rw [if_pos (Subsingleton.elim _ _)]
    · funext i; rw [Subsingleton.elim i 0]; simp
  · refine calculate_pd_many hP hb hS hpd hD O hX _ rfl rfl rfl nv hnv _ hcols
      (fun a => fun i => if i = a.cast (by simp) then (1 : ℝ) else 0) ?_ (fun a => nv (a.cast (by simp))) ?_ (by simp; omega) ?_
    · intro a
      simp [List.get_eq_getElem]
      rfl
    · have hl : (List.ofFn fun j : Fin n => (ofV fun i : Fin n => if i = j then (1 : ℝ) else 0 : Vec Num n)).length = n := by simp
      funext i
      rw [colsum, Finset.sum_apply]
      rw [Finset.sum_eq_single (i.cast hl.symm)]
      · simp
      · intro b _ hb'
        have : i ≠ b.cast hl := by
          rintro rfl; exact hb' (by simp)
        simp [this]
      · intro h; exact absurd (Finset.mem_univ _) h
    · intro a b
      have : ∀ j k : Fin n, rdot (fun i : Fin n => if i = j then (1 : ℝ) else 0) (fun i => if i = k then (1 : ℝ) else 0) = if j = k then 1 else 0 := by
        intro j k
        simp [rdot, eq_comm]
      rw [this]
      congr 1
      rw [eq_iff_iff]
      exact (Fin.cast_injective _).eq_iff

end

/-- positive definite systems have solutions -/
theorem pd_solve {B : Fin n → Fin n → ℝ} (hS : Sym B) (hpd : PD B) (g : Fin n → ℝ) : ∃ v, rmv B v = -g := by
  obtain ⟨vals, U, hE⟩ := exists_isEig B hS
  refine ⟨rmv U (slamC 0 (fun i => -rdot (fun l => U l i) g) vals), ?_⟩
  · have h := rmv_slamC_zero hE g 0 (fun i hi => by have := pd_vals hpd hE i; linarith)
    rw [zero_smul, add_zero] at h
    exact h

section
variable {E : Env Num n} {g : (Fin n → ℝ) → Fin n → ℝ} {mu eta g1 g2 D0 : ℝ}

/-- the two solvers the claim is about -/
theorem newton_step (hE : TRParams E mu eta g1 g2 D0) (hU : NoBounds E.lb E.ub) (O : Oracles Num) (hX : ExactRoutines O) (fuel : ℕ) (sb : StepBackStrategy)
    {dim : SubSpaceDim} (hdim : dim = .two ∨ dim = .full) (st : St Num n) (x : Fin n → ℝ) (D : ℝ) (hx : st.x = ofV x) (hg : st.grad = ofV (g x)) (hd : st.deltaIter = fin D) (hD : 0 < D)
    (B : Fin n → Fin n → ℝ) (hH : st.hess = ofM B) (hS : Sym B) (hpd : PD B) (hg0 : g x ≠ 0) (nv : Fin n → ℝ) (hnv : rmv B nv = -g x) :
    ∃ step, trustRegion O fuel dim sb (trInput E st) = .ok step ∧ ∃ p, NewtonLike x B (g x) nv D step p := by
  obtain ⟨th, hP⟩ := unbounded_data hE hU st x (g x) B D hx hg hH hd
  have hn : 0 < n := by
    rcases Nat.eq_zero_or_pos n with h0 | h0
    · subst h0; exact absurd (funext fun i => i.elim0) hg0
    · exact h0
  rw [C51_one_candidate _ _ _ _ _ hU th hP.theta hP.th0]
  rcases hdim with rfl | rfl
  · exact two_pd hP hU hn hS hpd hD O hX nv hnv hg0
  · exact full_pd hP hU hn hS hpd hD O hX nv hnv

theorem newton_modelDecrease (hE : TRParams E mu eta g1 g2 D0) (hU : NoBounds E.lb E.ub) (O : ℕ → Oracles Num) (hX : ∀ k, ExactRoutines (O k)) (fuel : ℕ)
    (hO : ∀ k I, E.tr k I = trustRegion (O k) fuel E.opts.subspaceDim E.opts.stepbackStrat I) (hdim : E.opts.subspaceDim = .two ∨ E.opts.subspaceDim = .full)
    {m M eps : ℝ} (hm : 0 < m) (hM : 0 < M) (he : 0 < eps) (hprec : 1 / 33554432 ≤ eps / M) {prev next : St Num n} {cur cur' new : Funout Num n}
    {step : Step Num n} (hp : Pass E prev cur step new next cur') (hB : ∀ x, prev.x = ofV x → BetweenSym m M prev.hess) :
    ModelDecrease E g 0 (m * eps / (2 * M)) (eps / m) (eps / (2 * M)) eps prev step := by
  intro x D hx hg hd hD hbig
  obtain ⟨B, hH, hS, hBM⟩ := hB x hx
  have hpr := hp.proposal
  rw [hO] at hpr
  have hg0 : g x ≠ 0 := by
    intro h0
    rw [h0, rnorm_eq_zero.mpr rfl] at hbig; linarith
  have hpd : PD B := fun v hv => lt_of_lt_of_le (mul_pos hm (rdot_self_pos hv)) (hBM v).1
  obtain ⟨nv, hnv⟩ := pd_solve hS hpd (g x)
  obtain ⟨step', hs', p, hN⟩ := newton_step (g := g) hE hU (O _) (hX _) fuel E.opts.stepbackStrat hdim
    { prev with iteration := prev.iteration + 1, deltaIter := prev.delta, ticks := prev.ticks + 1 } x D hx hg hd hD B hH hS hpd hg0 nv hnv
  rw [hs'] at hpr
  cases hpr
  obtain ⟨hl, t, ht1, ht2⟩ := newton_decrease hS hm hM (fun v => (hBM v).1) (fun v => (hBM v).2) (g x) nv hnv he hD hbig
  refine ⟨B, p, hH, fun v => ?_, hN.scaled, by rw [hx]; exact hN.trial, hN.model, (hN.best t ht1).trans ht2, ?_⟩
  · have h1 := (hBM v).1
    have h2 := mul_nonneg hm.le (rdot_self_nonneg v)
    rw [zero_mul, neg_zero]; linarith
  · rcases hN.length with h | ⟨rfl, h⟩
    · exact Or.inl h
    · right
      have e : eps / (2 * M) = eps / M / 2 := by rw [div_div, mul_comm]
      rw [e]
      refine le_min ?_ ?_ <;> linarith

end

end Fides
