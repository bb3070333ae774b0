import Verif.Lemmas.NewtonDecrease
import Verif.Lemmas.GradDecrease

/-! Helper lemmas: proposals of the full-space and two-dimensional solvers on a bounded problem whose scaled Hessian is positive definite. -/

namespace Fides
open Num Spec
variable {n : ℕ}

/-- triangle inequality -/
theorem rnorm_add_le (a b : Fin n → ℝ) : rnorm (a + b) ≤ rnorm a + rnorm b := by
  have h := (abs_le.mp (abs_rdot_le a b)).2
  have h1 := rnorm_sq (a + b)
  rw [add_rdot, rdot_add, rdot_add, rdot_comm b a, ← rnorm_sq a, ← rnorm_sq b] at h1
  have ha := rnorm_nonneg a
  have hb := rnorm_nonneg b
  by_contra hcon
  push Not at hcon
  have := mul_self_lt_mul_self (by positivity) hcon
  nlinarith

/-- a direction that makes a small angle with the gradient contains a step with sufficient decrease -/
theorem cauchy_line {B : Fin n → Fin n → ℝ} {M0 : ℝ} (hM : 0 < M0) (hup : ∀ v, rdot v (rmv B v) ≤ M0 * rdot v v) (g u : Fin n → ℝ) (hu : rnorm u = 1)
    {D : ℝ} (hD : 0 < D) (hg : 0 < rnorm g) (hc : 3 / 4 * rnorm g ≤ |rdot g u|) :
    ∃ t : ℝ, rnorm (t • u) ≤ D ∧ quad B g (t • u) ≤ -(rnorm g / 2 * min D (rnorm g / (2 * M0))) := by
  set N := rnorm g with hN
  set r := min D (N / (2 * M0)) with hr
  have hr0 : 0 < r := lt_min hD (by positivity)
  have hrD : r ≤ D := min_le_left _ _
  have hrM : r * M0 ≤ N / 2 := by
    have := min_le_right D (N / (2 * M0))
    rw [← hr, le_div_iff₀ (by positivity)] at this
    linarith
  have hk := hup u
  rw [← rnorm_sq u, hu, mul_one, mul_one] at hk
  have key : ∀ t : ℝ, |t| = r → t * rdot g u = -(r * |rdot g u|) → quad B g (t • u) ≤ -(N / 2 * r) := by
    intro t ht hs
    have hq : quad B g (t • u) = t * rdot g u + t * t / 2 * rdot u (rmv B u) := by rw [quad_smul]; ring
    rw [hq, hs]
    have htt : t * t = r * r := by rw [← abs_mul_abs_self, ht]
    have : t * t / 2 * rdot u (rmv B u) ≤ r * r / 2 * M0 := by
      rw [htt]; exact mul_le_mul_of_nonneg_left hk (by positivity)
    have h1 : r * r / 2 * M0 ≤ r * (N / 4) := by
      have := mul_le_mul_of_nonneg_left hrM hr0.le
      nlinarith
    have h2 := mul_le_mul_of_nonneg_left hc hr0.le
    nlinarith
  rcases le_or_gt 0 (rdot g u) with h | h
  · refine ⟨-r, by rw [rnorm_smul, hu, abs_neg, abs_of_pos hr0, mul_one]; exact hrD, key _ (by rw [abs_neg, abs_of_pos hr0]) ?_⟩
    rw [abs_of_nonneg h]; ring
  · refine ⟨r, by rw [rnorm_smul, hu, abs_of_pos hr0, mul_one]; exact hrD, key _ (abs_of_pos hr0) ?_⟩
    rw [abs_of_neg h]; ring

/-- the line of the gradient itself -/
theorem cauchy_grad {B : Fin n → Fin n → ℝ} {M0 : ℝ} (hM : 0 < M0) (hup : ∀ v, rdot v (rmv B v) ≤ M0 * rdot v v) (g : Fin n → ℝ)
    {D : ℝ} (hD : 0 < D) (hg : 0 < rnorm g) :
    ∃ t : ℝ, rnorm (t • g) ≤ D ∧ quad B g (t • g) ≤ -(rnorm g / 2 * min D (rnorm g / (2 * M0))) := by
  have hg0 : g ≠ 0 := by rintro rfl; rw [rnorm_eq_zero.mpr rfl] at hg; exact lt_irrefl _ hg
  obtain ⟨t, h1, h2⟩ := cauchy_line hM hup g ((rnorm g)⁻¹ • g) (rnorm_normalized hg0) hD hg (by rw [rdot_normalized, abs_of_pos hg]; linarith)
  rw [smul_smul] at h1 h2
  exact ⟨_, h1, h2⟩

/-- the solution of the Newton equation minimizes the model -/
theorem newton_global {B : Fin n → Fin n → ℝ} (hS : Sym B) (hpd : PD B) {g nv : Fin n → ℝ} (hnv : rmv B nv = -g) (v : Fin n → ℝ) : quad B g nv ≤ quad B g v := by
  refine more_sorensen hS g nv (rnorm v) 0 (rnorm_nonneg _) (by rw [zero_smul, add_zero]; exact hnv) ?_ le_rfl (Or.inl rfl) v le_rfl
  intro p
  rw [zero_mul, add_zero]
  by_cases hp : p = 0
  · rw [hp, zero_rdot]
  · exact (hpd p hp).le

section
variable {P : Prob Num n} {x d sg : Fin n → ℝ} {B : Fin n → Fin n → ℝ} {D th : ℝ}

/-- what the solvers compute before the step is cut at the bounds -/
structure PdBase (P : Prob Num n) (d : Fin n → ℝ) (B : Fin n → Fin n → ℝ) (sg nv : Fin n → ℝ) (D M0 : ℝ) (st : Step Num n) (p : Fin n → ℝ) : Prop where
  og : st.ogSs = ofV p
  ss0 : st.ss0 = ofV 0
  rel : Rel d st
  full : st.alpha = fin 1 → st.qpval = fin (quad B sg p)
  decrease : quad B sg p ≤ -(rnorm sg / 2 * min D (rnorm sg / (2 * M0)))
  length : rnorm p ≤ D ∨ (p = nv ∧ rnorm p ≤ D + 1 / 67108864)

theorem calculate_base (hP : RealProb P x d sg B D th) (O : SubOracles Num) (st st1 : Step Num n) (hs0 : st.s0 = vzero) (hss0 : st.ss0 = vzero) (p : Fin n → ℝ)
    (hc : st.computeStep O P = .ok st1) (h1 : st1.ss = ofV p) (h2 : st1.ss0 = st.ss0) :
    ∃ st', st.calculate O P = .ok st' ∧ st'.ogSs = ofV p ∧ st'.ss0 = ofV 0 ∧ Rel d st' ∧ (st'.alpha = fin 1 → st'.qpval = fin (quad B sg p)) := by
  have hcal : st.calculate O P = .ok { st1.stepBack P with qpval := quadraticForm P.shess P.sg (vadd (st1.stepBack P).ss (st1.stepBack P).ss0) } := by
    unfold Step.calculate; rw [hc]
  have hz : (st1.stepBack P).ss0 = ofV 0 := by
    show st1.ss0 = _; rw [h2, hss0, vzero_ofV]
  refine ⟨_, hcal, h1, hz, calculate_rel O P d hP.scaling st _ (by rw [hs0, hss0]; exact scaledBy_zero d) hcal, ?_⟩
  intro ha
  have ha' : (st1.stepBack P).alpha = fin 1 := ha
  have hss : (st1.stepBack P).ss = ofV p := by
    funext i
    show st1.ss i * (st1.stepBack P).alpha = _
    rw [ha', h1]; simp
  show quadraticForm P.shess P.sg (vadd (st1.stepBack P).ss (st1.stepBack P).ss0) = _
  rw [hss, hz, vadd_ofV, add_zero, hP.shess, hP.sg, quadraticForm_ofV]

theorem base_one (hP : RealProb P x d sg B D th) (hS : Sym B) (hD : 0 < D) (O : SubOracles Num) (st : Step Num n) (hs0 : st.s0 = vzero) (hss0 : st.ss0 = vzero)
    (u nv : Fin n → ℝ) (hcols : st.subspace = [ofV u]) {M0 : ℝ}
    (hex : ∃ t : ℝ, rnorm (t • u) ≤ D ∧ quad B sg (t • u) ≤ -(rnorm sg / 2 * min D (rnorm sg / (2 * M0)))) :
    ∃ st', st.calculate O P = .ok st' ∧ ∃ p, PdBase P d B sg nv D M0 st' p := by
  obtain ⟨t, ht, hin, hbest⟩ := C20_solve1d hS sg u 0 D hD.le (by rw [rnorm_eq_zero.mpr rfl]; exact hD.le) (Or.inl (by rw [rnorm_eq_zero.mpr rfl]; exact hD))
  simp only [zero_add] at hin hbest
  have hcs : st.computeStep O P = .ok { st with sc := [fin t], ss := ofV (t • u), s := sdot P.scaling (ofV (t • u)) } := by
    unfold Step.computeStep
    rw [hcols]
    simp only [hP.shess, hP.sg, hP.delta, hss0, vzero_ofV, ht, subDot_one]
  obtain ⟨st', h1, h2, h3, h4, h5⟩ := calculate_base hP O st _ hs0 hss0 (t • u) hcs rfl rfl
  obtain ⟨t', ht1, ht2⟩ := hex
  exact ⟨st', h1, t • u, h2, h3, h4, h5, (hbest _ ht1).trans ht2, Or.inl hin⟩

theorem base_many (hP : RealProb P x d sg B D th) (hS : Sym B) (hpd : PD B) (hD : 0 < D) (O : Oracles Num) (hX : ExactRoutines O) (st : Step Num n)
    (hs0 : st.s0 = vzero) (hss0 : st.ss0 = vzero) (nv : Fin n → ℝ) (hnv : rmv B nv = -sg) (cs : List (Vec Num n)) (hcols : st.subspace = cs)
    (C : Fin cs.length → Fin n → ℝ) (hC : ∀ a, cs.get a = ofV (C a)) (c0 : Fin cs.length → ℝ) (hc0 : nv = colsum C c0) (c1 : Fin cs.length → ℝ)
    (hc1 : sg = colsum C c1) (h2l : 2 ≤ cs.length) (hor' : ∀ a b, rdot (C a) (C b) = if a = b then 1 else 0) {M0 : ℝ} (hM : 0 < M0)
    (hup : ∀ v, rdot v (rmv B v) ≤ M0 * rdot v v) (hg : 0 < rnorm sg) :
    ∃ st', st.calculate O.sub P = .ok st' ∧ ∃ p, PdBase P d B sg nv D M0 st' p := by
  have hnorm := colsum_norm C hor'
  have hMr : chess (ofM B) cs = ofM (reduced B C) := by
    funext a b
    simp only [chess, hC, mulVec_ofM, dot_ofV, ofM_apply, reduced]
  have hgr : cg (ofV sg) cs = ofV fun a => rdot (C a) sg := by
    funext a
    simp only [cg, hC, dot_ofV, ofV_apply]
  have hSr : Sym (reduced B C) := by
    intro a b
    simp only [reduced]
    rw [Sym.rdot_rmv hS, rdot_comm]
  have hpdr : PD (reduced B C) := by
    intro v hv
    rw [reduced_form]
    apply hpd
    intro h0
    apply hv
    have := hnorm v
    rw [h0, rnorm_eq_zero.mpr rfl] at this
    exact rnorm_eq_zero.mp this.symm
  obtain ⟨r, ty, hsol, hmin, hlen⟩ := solveNd_pd O hX (by omega) hSr hpdr (fun a => rdot (C a) sg) hD
  have hrad : FloatOps.sqrt (pyMax (P.delta * P.delta - norm st.ss0 * norm st.ss0) (Fides.lit 0)) = fin D := by
    rw [hP.delta, hss0, vzero_ofV, norm_ofV, rnorm_eq_zero.mpr rfl, fin_mul, fin_mul, fin_sub, lit_def, pyMax_fin]
    have : max (D * D - 0 * 0) ((0 : ℚ) : ℝ) = D * D := by
      rw [max_eq_left (by push_cast; nlinarith)]; ring
    rw [this, fin_sqrt _ (by positivity), Real.sqrt_mul_self hD.le]
  have hcomp : st.computeStep O.sub P = .ok { st with sc := List.ofFn (ofV r), ss := ofV (colsum C r), s := sdot P.scaling (ofV (colsum C r)) } := by
    rw [computeStep_many O.sub P st cs h2l hcols, hrad, hP.shess, hP.sg, hMr, hgr, hsol]
    simp only [subDot_colsum cs C hC]
  obtain ⟨st', h1, h2, h3, h4, h5⟩ := calculate_base hP O.sub st _ hs0 hss0 (colsum C r) hcomp rfl rfl
  refine ⟨st', h1, colsum C r, h2, h3, h4, h5, ?_, ?_⟩
  · obtain ⟨t, ht1, ht2⟩ := cauchy_grad hM hup sg hD hg
    refine le_trans ?_ ht2
    have htc : t • sg = colsum C (t • c1) := by
      rw [hc1, colsum, colsum, Finset.smul_sum]
      simp [smul_smul]
    rw [htc] at ht1 ⊢
    rw [hnorm] at ht1
    rw [← reduced_quad, ← reduced_quad]
    exact hmin _ ht1
  · rcases hlen with h | ⟨h, hl⟩
    · left; rw [hnorm]; exact h
    · right
      refine ⟨?_, by rw [hnorm]; exact hl⟩
      have h5 : rmv (reduced B C) (r - c0) = 0 := by
        have h6 : rmv (reduced B C) c0 = -fun a => rdot (C a) sg := by
          rw [reduced_rmv, ← hc0, hnv]
          funext a; rw [rdot_neg]; rfl
        rw [rmv_sub, h, h6, sub_self]
      have h7 : r - c0 = 0 := by
        by_contra hne
        have := hpdr _ hne
        rw [h5, rdot_zero] at this
        exact lt_irrefl _ this
      rw [hc0, sub_eq_zero.mp h7]

/-- the two orthogonalized directions: if the second one is dropped the gradient is almost parallel to the first one, otherwise they span both vectors -/
theorem orth2d_span (u v : Fin n → ℝ) (hu : u ≠ 0) (cols : List (Vec Num n)) (h : subspace2dOrth (ofV u) (ofV v) = cols) :
    (cols = [ofV ((rnorm u)⁻¹ • u)] ∧ rnorm (v - rdot ((rnorm u)⁻¹ • u) v • ((rnorm u)⁻¹ • u)) ≤ 1 / 4503599627370496) ∨
      ∃ b, cols = [ofV ((rnorm u)⁻¹ • u), ofV b] ∧ rnorm b = 1 ∧ rdot ((rnorm u)⁻¹ • u) b = 0 ∧
        ∃ c : ℝ, v = rdot ((rnorm u)⁻¹ • u) v • ((rnorm u)⁻¹ • u) + c • b := by
  subst h
  rw [subspace2dOrth]
  simp only [normalize_ofV, dot_ofV]
  set a := (rnorm u)⁻¹ • u with ha
  have : (fun i => ofV a i * fin (rdot a v)) = ofV (rdot a v • a) := by
    funext i; simp [mul_comm]
  rw [this, vsub_ofV, normalize_ofV, norm_ofV]
  set w := v - rdot a v • a with hw
  have hsp : (spacing1 : Num) = fin (1 / 4503599627370496) := by norm_num [spacing1]
  rw [hsp]
  by_cases hlt : lt (fin (1 / 4503599627370496)) (fin (rnorm w)) = true
  · rw [if_pos hlt]
    right
    simp only [fin_lt, decide_eq_true_eq] at hlt
    have hw0 : w ≠ 0 := by
      intro h0
      rw [h0, rnorm_eq_zero.mpr rfl] at hlt
      norm_num at hlt
    refine ⟨_, rfl, rnorm_normalized hw0, ?_, rnorm w, ?_⟩
    · rw [rdot_smul, hw, rdot_sub, rdot_smul]
      have h1 : rdot a a = 1 := by
        rw [← rnorm_sq, ha, rnorm_normalized hu, one_mul]
      rw [h1]; ring
    · have : rnorm w • (rnorm w)⁻¹ • w = w := by rw [smul_smul, mul_inv_cancel₀ (rnorm_pos hw0).ne', one_smul]
      rw [this, hw]; abel
  · rw [if_neg hlt]
    left
    simp only [fin_lt, decide_eq_true_eq, not_lt] at hlt
    exact ⟨rfl, hlt⟩

theorem two_base (hP : RealProb P x d sg B D th) (hn : 1 < n) (hS : Sym B) (hpd : PD B) (hD : 0 < D) (O : Oracles Num)
    (hX : ExactRoutines O) (nv : Fin n → ℝ) (hnv : rmv B nv = -sg) {M0 : ℝ} (hM : 0 < M0) (hup : ∀ v, rdot v (rmv B v) ≤ M0 * rdot v v)
    (hg : 1 / 1125899906842624 ≤ rnorm sg) :
    ∃ st', step2d O P = .ok st' ∧ ∃ p, PdBase P d B sg nv D M0 st' p := by
  have hgp : 0 < rnorm sg := lt_of_lt_of_le (by norm_num) hg
  have hg0 : sg ≠ 0 := by rintro rfl; rw [rnorm_eq_zero.mpr rfl] at hgp; exact lt_irrefl _ hgp
  obtain ⟨z, hz, hBz⟩ := exact_lstsq O hX hS sg (-nv) (by rw [rmv_neg, hnv, neg_neg])
  obtain ⟨vals, U, he, hE⟩ := hX.npEig B hS
  have hzn : z = -nv := pd_injective hpd (by rw [hBz, rmv_neg, hnv, neg_neg])
  subst hzn
  have hnv0 : nv ≠ 0 := by
    rintro rfl
    rw [rmv_zero] at hnv
    exact hg0 (by rw [← neg_neg sg, ← hnv, neg_zero])
  have hpdt := exact_posdef vals (by omega) (pd_vals hpd hE)
  have hrn := rnorm_pos hnv0
  have hsc : nv = rnorm nv • ((rnorm nv)⁻¹ • nv) := by rw [smul_smul, mul_inv_cancel₀ hrn.ne', one_smul]
  unfold step2d
  unfold subspace2d
  rw [hP.shess, hP.sg, hz, he]
  simp only
  rw [if_neg (by omega), if_pos hpdt]
  have hvn : vneg (ofV (-nv)) = ofV nv := by rw [vneg_ofV, neg_neg]
  rw [hvn]
  have hu1 : rnorm ((rnorm nv)⁻¹ • nv) = 1 := rnorm_normalized hnv0
  by_cases hlt : lt (norm (ofV nv)) P.delta = true
  · rw [if_pos hlt]
    rw [norm_ofV, hP.delta, fin_lt, decide_eq_true_eq] at hlt
    refine base_one hP hS hD O.sub _ rfl rfl ((rnorm nv)⁻¹ • nv) nv (by show [normalize (ofV nv)] = _; rw [normalize_ofV]) ⟨rnorm nv, ?_, ?_⟩
    · rw [← hsc]; exact hlt.le
    · rw [← hsc]
      obtain ⟨t, _, ht⟩ := cauchy_grad hM hup sg hD hgp
      exact (newton_global hS hpd hnv _).trans ht
  · rw [if_neg hlt]
    rcases orth2d_span nv sg hnv0 _ rfl with ⟨h, hw⟩ | ⟨b, h, hb1, hb2, c, hc⟩
    · refine base_one hP hS hD O.sub _ rfl rfl ((rnorm nv)⁻¹ • nv) nv h (cauchy_line hM hup sg _ hu1 hD hgp ?_)
      set u := (rnorm nv)⁻¹ • nv with hu
      have h1 : sg = rdot u sg • u + (sg - rdot u sg • u) := by abel
      have h2 : rnorm sg ≤ |rdot u sg| + rnorm (sg - rdot u sg • u) := by
        conv_lhs => rw [h1]
        refine (rnorm_add_le _ _).trans ?_
        rw [rnorm_smul, hu1, mul_one]
      rw [rdot_comm sg u]
      linarith
    · refine base_many hP hS hpd hD O hX _ rfl rfl nv hnv [ofV ((rnorm nv)⁻¹ • nv), ofV b] h
        (fun a => if a = 0 then (rnorm nv)⁻¹ • nv else b) ?_ (fun a => if a = 0 then rnorm nv else 0) ?_
        (fun a => if a = 0 then rdot ((rnorm nv)⁻¹ • nv) sg else c) ?_ (by simp) ?_ hM hup hgp
      · intro a
        match a with
        | ⟨0, _⟩ => rfl
        | ⟨1, _⟩ => rfl
      · rw [colsum]
        show nv = ∑ a : Fin 2, _
        rw [Fin.sum_univ_two]
        simp only [Fin.isValue, ↓reduceIte, zero_smul, one_ne_zero, add_zero]
        exact hsc
      · rw [colsum]
        show sg = ∑ a : Fin 2, _
        rw [Fin.sum_univ_two]
        simp only [Fin.isValue, ↓reduceIte, one_ne_zero]
        exact hc
      · have haa : rdot ((rnorm nv)⁻¹ • nv) ((rnorm nv)⁻¹ • nv) = 1 := by rw [← rnorm_sq, hu1]; norm_num
        have hbb : rdot b b = 1 := by rw [← rnorm_sq, hb1]; norm_num
        have key : ∀ a c : Fin 2, rdot (if a = 0 then (rnorm nv)⁻¹ • nv else b) (if c = 0 then (rnorm nv)⁻¹ • nv else b) = if a = c then 1 else 0 := by
          intro a c
          match a, c with
          | 0, 0 => simpa using haa
          | 0, 1 => simpa using hb2
          | 1, 0 => rw [rdot_comm]; simpa using hb2
          | 1, 1 => simpa using hbb
        exact key

theorem full_base (hP : RealProb P x d sg B D th) (hn : 1 < n) (hS : Sym B) (hpd : PD B) (hD : 0 < D) (O : Oracles Num)
    (hX : ExactRoutines O) (nv : Fin n → ℝ) (hnv : rmv B nv = -sg) {M0 : ℝ} (hM : 0 < M0) (hup : ∀ v, rdot v (rmv B v) ≤ M0 * rdot v v)
    (hg : 0 < rnorm sg) :
    ∃ st', stepFull O P = .ok st' ∧ ∃ p, PdBase P d B sg nv D M0 st' p := by
  have hcols : (List.ofFn fun j : Fin n => fun i : Fin n => (meye : Mat Num n n) i j) =
      List.ofFn fun j : Fin n => ofV fun i : Fin n => if i = j then (1 : ℝ) else 0 := by
    congr 1
    funext j i
    rw [meye_ofM]; rfl
  have hl : (List.ofFn fun j : Fin n => (ofV fun i : Fin n => if i = j then (1 : ℝ) else 0 : Vec Num n)).length = n := by simp
  have hcs : ∀ v : Fin n → ℝ, v = colsum (fun a : Fin (List.ofFn fun j : Fin n => (ofV fun i : Fin n => if i = j then (1 : ℝ) else 0 : Vec Num n)).length =>
      fun i => if i = a.cast hl then (1 : ℝ) else 0) (fun a => v (a.cast hl)) := by
    intro v
    funext i
    rw [colsum, Finset.sum_apply]
    rw [Finset.sum_eq_single (i.cast hl.symm)]
    · simp
    · intro b _ hb'
      have : i ≠ b.cast hl := by
        rintro rfl; exact hb' (by simp)
      simp [this]
    · intro h; exact absurd (Finset.mem_univ _) h
  unfold stepFull
  refine base_many hP hS hpd hD O hX _ rfl rfl nv hnv _ hcols
    (fun a => fun i => if i = a.cast hl then (1 : ℝ) else 0) ?_ _ (hcs nv) _ (hcs sg) (by simp; omega) ?_ hM hup hg
  · intro a
    simp [List.get_eq_getElem]
    rfl
  · intro a b
    have : ∀ j k : Fin n, rdot (fun i : Fin n => if i = j then (1 : ℝ) else 0) (fun i => if i = k then (1 : ℝ) else 0) = if j = k then 1 else 0 := by
      intro j k
      simp [rdot, eq_comm]
    rw [this]
    congr 1
    rw [eq_iff_iff]
    exact (Fin.cast_injective _).eq_iff

/-- the base step of the two solvers -/
theorem trStep_pd (hP : RealProb P x d sg B D th) (hn : 1 < n) (hS : Sym B) (hpd : PD B) (hD : 0 < D) (O : Oracles Num) (hX : ExactRoutines O) (fuel : ℕ)
    {dim : SubSpaceDim} (hdim : dim = .two ∨ dim = .full) {M0 : ℝ} (hM : 0 < M0) (hup : ∀ v, rdot v (rmv B v) ≤ M0 * rdot v v)
    (hg : 1 / 1125899906842624 ≤ rnorm sg) (hprec : 1 / 33554432 ≤ rnorm sg / M0) :
    ∃ tr p, trStep O fuel P dim = .ok tr ∧ tr.ogSs = ofV p ∧ tr.ss0 = ofV 0 ∧ Rel d tr ∧ (tr.alpha = fin 1 → tr.qpval = fin (quad B sg p)) ∧
      quad B sg p ≤ -(rnorm sg / 2 * min D (rnorm sg / (2 * M0))) ∧ (D < rnorm sg / (2 * M0) → rnorm p ≤ D) := by
  have hgp : 0 < rnorm sg := lt_of_lt_of_le (by norm_num) hg
  obtain ⟨nv, hnv⟩ := pd_solve hS hpd sg
  have hB : ∀ v, 0 ≤ rdot v (rmv B v) := fun v => by
    by_cases hv : v = 0
    · rw [hv, zero_rdot]
    · exact (hpd v hv).le
  have h1 : ∃ tr p, trStep O fuel P dim = .ok tr ∧ PdBase P d B sg nv D M0 tr p := by
    rcases hdim with rfl | rfl
    · obtain ⟨tr, h, p, h'⟩ := two_base hP hn hS hpd hD O hX nv hnv hM hup hg
      exact ⟨tr, p, h, h'⟩
    · obtain ⟨tr, h, p, h'⟩ := full_base hP hn hS hpd hD O hX nv hnv hM hup hgp
      exact ⟨tr, p, h, h'⟩
  obtain ⟨tr, p, h, hb⟩ := h1
  refine ⟨tr, p, h, hb.og, hb.ss0, hb.rel, hb.full, hb.decrease, fun hsm => ?_⟩
  rcases hb.length with hl | ⟨rfl, hl⟩
  · exact hl
  exfalso
  have h2 := psd_image hS hB hup p
  have h3 := hup p
  have hgg : rdot (rmv B p) (rmv B p) = rnorm sg * rnorm sg := by rw [hnv, rnorm_sq, neg_rdot, rdot_neg, neg_neg]
  rw [hgg] at h2
  rw [← rnorm_sq p] at h3
  have hn0 := rnorm_nonneg p
  have hlen : rnorm sg / M0 ≤ rnorm p := by
    rw [div_le_iff₀ hM]
    by_contra hcon
    push Not at hcon
    have : (rnorm p * M0) * (rnorm p * M0) < rnorm sg * rnorm sg := mul_self_lt_mul_self (by positivity) hcon
    nlinarith
  have e : rnorm sg / (2 * M0) = rnorm sg / M0 / 2 := by rw [div_div, mul_comm]
  rw [e] at hsm
  linarith

end


/-! ## one variable -/

section
variable {P : Prob Num 1} {x d sg : Fin 1 → ℝ} {B : Fin 1 → Fin 1 → ℝ} {delta theta : ℝ}

/-- the base step of the two-dimensional solver in one variable with positive curvature -/
theorem one_two (hP : RealProb P x d sg B delta theta) (hS : Sym B) (hpd : PD B) (hdel : 0 < delta) (hg : sg ≠ 0) (O : Oracles Num) (hX : ExactRoutines O) :
    ∃ st, step2d O P = .ok st ∧ OneBase P x d sg B delta st := by
  obtain ⟨nv, hnv⟩ := pd_solve hS hpd sg
  obtain ⟨z, hz, hBz⟩ := exact_lstsq O hX hS sg (-nv) (by rw [rmv_neg, hnv, neg_neg])
  obtain ⟨vals, U, he, hE⟩ := hX.npEig B hS
  have hB0 : B 0 0 ≠ 0 := by
    have := hpd (fun _ => 1) (by intro h; have := congrFun h 0; norm_num at this)
    simp [rdot, rmv] at this
    exact this.ne'
  have hsg0 : sg 0 ≠ 0 := by
    intro h; apply hg; funext i; rw [Subsingleton.elim i 0, h]; rfl
  unfold step2d subspace2d
  rw [hP.shess, hP.sg, hz, he]
  simp only [if_true]
  refine one_calculate hP hS hdel hg O.sub _ rfl rfl rfl (fun i => -sg i / B i i) ?_ ?_
  · intro h
    have h1 := congrFun h 0
    simp only [Pi.zero_apply, div_eq_zero_iff, neg_eq_zero] at h1
    exact h1.elim hsg0 hB0
  · show [fun i => -(ofV sg i) / ofM B i i] = _
    congr 1
    funext i
    rw [Subsingleton.elim i 0]
    simp only [ofV_apply, ofM_apply, fin_neg]
    rw [fin_div _ _ hB0]

/-- the base step in one variable with positive curvature -/
theorem one_pd (hP : RealProb P x d sg B delta theta) (hS : Sym B) (hpd : PD B) (hdel : 0 < delta) (hg : sg ≠ 0) (O : Oracles Num) (hX : ExactRoutines O)
    (fuel : ℕ) {dim : SubSpaceDim} (hdim : dim = .two ∨ dim = .full) : ∃ st, trStep O fuel P dim = .ok st ∧ OneBase P x d sg B delta st := by
  rcases hdim with rfl | rfl
  · exact one_two hP hS hpd hdel hg O hX
  · exact one_full hP hS hdel hg O

end

/-! ## the proposal -/

section
variable {I : TRIn Num n} {x d g dv : Fin n → ℝ} {H : Fin n → Fin n → ℝ} {delta theta : ℝ}

/-- a candidate whose trial point is a real vector is a real step -/
theorem cand_real {P : Prob Num n} {sg : Fin n → ℝ} {B : Fin n → Fin n → ℝ} (hP : RealProb P x d sg B delta theta) (hn : 1 < n) (hS : Sym B) (hdel : 0 < delta)
    (hg : sg ≠ 0) (hdg : ∀ i, d i = 0 → sg i = 0) (O : Oracles Num) (hO : FiniteOracles O) (fuel : ℕ) (dim : SubSpaceDim) (st : Step Num n)
    (h : Cand O fuel P dim st) (y : Fin n → ℝ) (hy : vadd (vadd P.x st.s) st.s0 = ofV y) :
    ∃ (ss0 og : Fin n → ℝ) (a : ℝ), st.ss0 = ofV ss0 ∧ st.ogSs = ofV og ∧ st.alpha = fin a ∧ 0 ≤ a ∧ a ≤ 1 ∧
      vadd st.ss st.ss0 = ofV (ss0 + a • og) ∧ st.qpval = fin (quad B sg (ss0 + a • og)) := by
  have hf := cand_finStep hP hn O hO fuel dim st h
  obtain ⟨ss0, hss0⟩ := hf.ss0
  obtain ⟨a, ha, ha0, ha1⟩ := hf.alpha
  have hogS : (∃ r, st.ogSs = ofV r) ∨ st.ogS = sdot P.scaling st.ogSs := by
    have h' := h
    rcases h' with ⟨_, h'⟩ | ⟨_, h'⟩ | ⟨cur, _, _, _, h'⟩ | ⟨cur, _, _, _, h'⟩ | ⟨cur, _, _, h'⟩
    · exact Or.inl (base_og hP hS hdel hn O hO fuel dim (fun _ => hg) st h')
    · exact calculate_ogS _ _ _ h'
    · exact calculate_ogS _ _ _ h'
    · exact calculate_ogS _ _ _ h'
    · right
      simp only [stepRefined] at h'
      split at h'
      · cases h'
      · cases h'; rfl
  have hog : ∃ r, st.ogSs = ofV r := by
    rcases hogS with h1 | h1
    · exact h1
    rcases hf.og with ⟨_, h2⟩ | ⟨_, h2, _⟩
    · exact h2
    exfalso
    apply hg
    funext i
    apply hdg
    have h3 := congrFun hy i
    obtain ⟨b, c, h4, _⟩ := add_fin_iff _ _ _ h3
    obtain ⟨b', c', _, h5, _⟩ := add_fin_iff _ _ _ h4
    rw [hf.s] at h5
    obtain ⟨e, _, h6, _⟩ := mul_fin_iff _ _ _ h5
    rw [h1, hP.scaling] at h6
    by_contra hdi
    simp only [sdot, ofV_apply, lit_def, Rat.cast_zero, fin_feq, decide_eq_true_eq, hdi, if_false, h2] at h6
    simp at h6
  obtain ⟨og, hog⟩ := hog
  have hp : vadd st.ss st.ss0 = ofV (ss0 + a • og) := by
    funext i
    rw [hf.ss, hog, hss0, ha]
    simp only [vadd, ofV_apply, fin_mul, fin_add, Pi.add_apply, Pi.smul_apply, smul_eq_mul]
    congr 1; ring
  refine ⟨ss0, og, a, hss0, hog, ha, ha0, ha1, hp, ?_⟩
  rw [cand_qpval O fuel dim st h, hp, hP.shess, hP.sg, quadraticForm_ofV]

/-- proposals for a small radius stay in the trust region, and their displacement is the scaled step -/
theorem pd_small {sg : Fin n → ℝ} {B : Fin n → Fin n → ℝ} (hP : RealProb I.prob x d sg B delta theta)
    (hn : 1 < n) (hS : Sym B) (hpd : PD B) (hdel : 0 < delta) (O : Oracles Num) (hX : ExactRoutines O) (hO : FiniteOracles O) (fuel : ℕ)
    {dim : SubSpaceDim} (hdim : dim = .two ∨ dim = .full) {M0 : ℝ} (hM : 0 < M0) (hup : ∀ v, rdot v (rmv B v) ≤ M0 * rdot v v)
    (hg : 1 / 1125899906842624 ≤ rnorm sg) (hprec : 1 / 33554432 ≤ rnorm sg / M0) (hsm : delta < rnorm sg / (2 * M0))
    {strat : StepBackStrategy} (hst : strat ≠ .truncate ∧ strat ≠ .mixed) (href : strat = .refine → RefinesInBall O)
    (st : Step Num n) (h : trustRegion O fuel dim strat I = .ok st) : InBall delta st ∧ Rel d st := by
  obtain ⟨tr', p, htr', hog, hss0, hrel, -, -, hlen⟩ := trStep_pd hP hn hS hpd hdel O hX fuel hdim hM hup hg hprec
  obtain ⟨tr, htr, hcase⟩ := trustRegion_chain _ _ _ _ _ _ h
  rw [htr'] at htr
  cases htr
  have hc : Cand O fuel I.prob dim tr' := .base tr' htr'
  have hball : InBall delta tr' := by
    refine ⟨fun q hq => ?_, fun q og hq ho => ?_⟩
    · rw [hss0, ofV_inj] at hq; rw [← hq, rnorm_eq_zero.mpr rfl]; exact hdel.le
    · rw [hss0, ofV_inj] at hq
      rw [hog, ofV_inj] at ho
      rw [← hq, ← ho, zero_add]; exact hlen hsm
  rcases hcase with ⟨h1, hx⟩ | ⟨_, h1⟩ | ⟨_, h2, _⟩ | ⟨_, h2, _, h1⟩
  · refine ⟨?_, (chain_rel hP.scaling _ hrel).1 h1⟩
    clear h hx
    induction h1 with
    | base => exact hball
    | next cur st h1 ha h ih => exact reflect_inBall1 hP hn hdel.le O hO fuel dim cur st (h1.cand hc) ha h ih
  · exact ⟨grad_inBall1 hP hdel.le _ st h1, calculate_rel _ _ d hP.scaling _ _ (scaledBy_zero d) h1⟩
  · rcases h2 with h2 | h2
    · exact absurd h2 hst.1
    · exact absurd h2 hst.2
  · obtain ⟨cs, hcs, hin⟩ := href h2 I.prob tr' delta hdel hP.delta
    simp only [stepRefined, hcs] at h1
    cases h1
    refine ⟨⟨fun q hq => ?_, fun q og hq ho => ?_⟩, ?_⟩
    · have hq' : (vzero : Vec Num n) = ofV q := hq
      rw [vzero_ofV, ofV_inj] at hq'
      rw [← hq', rnorm_eq_zero.mpr rfl]; exact hdel.le
    · have hq' : (vzero : Vec Num n) = ofV q := hq
      rw [vzero_ofV, ofV_inj] at hq'
      rw [← hq', zero_add]
      exact hin og ho
    · refine stepBack_rel I.prob d _ (scaledBy_zero d) ?_ _
      show ScaledBy d (sdot I.prob.scaling _) _
      rw [hP.scaling]
      exact scaledBy_sdot d _

/-- the proposal on a bounded problem in two or more variables with a positive definite scaled Hessian: how much it reduces the model, and how long it is -/
theorem pd_proposal_many (h : RealData I x d g dv H delta theta) (hn : 1 < n) (hdel : 0 < delta) (h0 : 0 < theta) (h1 : theta ≤ 1)
    (hbox : InBox I.lb I.ub x) {M0 Mh G : ℝ} (hM0 : 0 < M0) (hMM : 2 * M0 ≤ Mh) (hG : 0 < G)
    (hpd : PD fun i j => d i * H i j * d j + if i = j then |g i| * dv i else 0)
    (hup : ∀ v, rdot v (rmv (fun i j => d i * H i j * d j + if i = j then |g i| * dv i else 0) v) ≤ M0 * rdot v v)
    (hroom : ∀ r : ℝ, 0 ≤ r → r * G ≤ 1 → InBox I.lb I.ub (x - r • fun i => d i * (d i * g i)))
    (hg : 1 / 1125899906842624 ≤ rnorm (fun i => d i * g i)) (hprec : 1 / 33554432 ≤ rnorm (fun i => d i * g i) / M0)
    (O : Oracles Num) (hX : ExactRoutines O) (hO : FiniteOracles O) (fuel : ℕ) {dim : SubSpaceDim} (hdim : dim = .two ∨ dim = .full)
    {strat : StepBackStrategy} (hst : strat ≠ .truncate ∧ strat ≠ .mixed) (href : strat = .refine → RefinesInBall O)
    (st : Step Num n) (htr : trustRegion O fuel dim strat I = .ok st) (y : Fin n → ℝ) (hy : vadd (vadd I.x st.s) st.s0 = ofV y) :
    ∃ p, vadd st.ss st.ss0 = ofV p ∧ InBox I.lb I.ub y ∧
      (let sg := fun i => d i * g i
       let B := fun i j => d i * H i j * d j + if i = j then |g i| * dv i else 0
       let b := rnorm sg * min (1 / Mh) (theta / G)
       st.qpval = fin (quad B sg p) ∧ quad B sg p ≤ -(rnorm sg / 2 * min delta b) ∧
       ((rnorm p ≤ delta ∧ y = x + fun i => d i * p i) ∨ (b / 3 ≤ rnorm p ∧ b ≤ delta))) := by
  have hP := RealData.prob h h0 h1 hbox
  have hSB := sym_scaled d (fun i => |g i| * dv i) h.sym
  have hcand := trustRegion_cand _ _ _ _ _ _ htr
  have hMh : 0 < Mh := by linarith
  have hNp' : 0 < rnorm (fun i => d i * g i) := lt_of_lt_of_le (by norm_num) hg
  have hsg0 : (fun i => d i * g i) ≠ 0 := by
    intro h0; rw [h0, rnorm_eq_zero.mpr rfl] at hNp'; exact lt_irrefl _ hNp'
  have hup' : ∀ v, rdot v (rmv (fun i j => d i * H i j * d j + if i = j then |g i| * dv i else 0) v) ≤ Mh * rdot v v := fun v =>
    (hup v).trans (mul_le_mul_of_nonneg_right (by linarith) (rdot_self_nonneg v))
  have hgrad := gradStep_decrease O h hdel h0 hbox hMh hG hup' hroom hsg0
  obtain ⟨ss0, og, a, hss0, hog, ha, ha0, ha1, hp, hq⟩ := cand_real hP hn hSB hdel hsg0 (fun i hi => by show d i * g i = 0; rw [hi, zero_mul]) O hO fuel dim st hcand y hy
  generalize hBd : (fun i j => d i * H i j * d j + if i = j then |g i| * dv i else 0) = B at hP hSB hup hup' hgrad hq hpd
  generalize hgd : (fun i => d i * g i) = sg at hP hg hgrad hq hprec hNp' hsg0
  obtain ⟨tr0, p0, htr0, hog0, hss00, hrel0, hfull0, hdec0, -⟩ := trStep_pd hP hn hSB hpd hdel O hX fuel hdim hM0 hup hg hprec
  have hNp : 0 < rnorm sg := hNp'
  have hbox' : InBox I.lb I.ub y := by
    have hf := cand_feas hP.x hP.theta hP.th0 hP.th1 hP.box _ fuel dim st hcand
    intro i
    have h3 : I.x i + st.s i + st.s0 i = fin (y i) := congrFun hy i
    rcases hf.trial i with h4 | ⟨r, h4, h5⟩
    · have h4' : I.x i + st.s i + st.s0 i = nan := h4
      rw [h3] at h4'; cases h4'
    · have h4' : I.x i + st.s i + st.s0 i = fin r := h4
      rw [h3, fin_inj] at h4'; rw [h4']; exact h5
  have e1 : rnorm sg * min (1 / Mh) (theta / G) ≤ rnorm sg / (2 * M0) := by
    have := mul_le_mul_of_nonneg_left (min_le_left (1 / Mh) (theta / G)) hNp.le
    rw [mul_one_div] at this
    exact this.trans (div_le_div_of_nonneg_left hNp.le (by positivity) hMM)
  have hbp : 0 < min (1 / Mh) (theta / G) := lt_min (by positivity) (div_pos h0 hG)
  have hdec : quad B sg (ss0 + a • og) ≤ -(rnorm sg / 2 * min delta (rnorm sg * min (1 / Mh) (theta / G))) := by
    have hcs : ∃ tr rest, candidates O fuel I.prob dim strat = .ok (tr, rest) := by
      rw [trustRegion] at htr
      split at htr
      · cases htr
      · rename_i tr rest hc; exact ⟨tr, rest, hc⟩
    obtain ⟨tr, rest, hc⟩ := hcs
    have hle := chosen_le _ fuel dim strat I tr rest st hc htr _ hq
    rw [candidates, htr0] at hc
    simp only at hc
    split at hc
    · obtain ⟨gs, qg, hg1, hg2, hg3⟩ := hgrad
      rw [hg1] at hc
      simp only at hc
      split at hc
      · cases hc
      · rename_i rs hrs
        cases hc
        exact (hle gs (by simp) qg hg2).trans hg3
    · rename_i hcut
      cases hc
      have hf := cand_finStep hP hn O hO fuel dim tr0 (.base tr0 htr0)
      obtain ⟨a', ha', _, ha1'⟩ := hf.alpha
      have ha1 : a' = 1 := by
        rw [ha'] at hcut
        simp only [lit_def, Rat.cast_one, fin_lt, hn, decide_true, Bool.and_true, decide_eq_true_eq, not_lt] at hcut
        exact le_antisymm ha1' hcut
      rw [ha1] at ha'
      refine (hle tr0 (by simp) _ (hfull0 ha')).trans (hdec0.trans ?_)
      have := mul_le_mul_of_nonneg_left (min_le_min_left delta e1) (by linarith : 0 ≤ rnorm sg / 2)
      linarith
  refine ⟨ss0 + a • og, hp, hbox', hq, hdec, ?_⟩
  rcases lt_or_ge delta (rnorm sg / (2 * M0)) with hsm | hsm
  · left
    obtain ⟨hball, hrel⟩ := pd_small hP hn hSB hpd hdel O hX hO fuel hdim hM0 hup hg hprec hsm hst href st htr
    refine ⟨hball.taken a ha0 ha1 ss0 og hss0 hog, ?_⟩
    have hx : I.x = ofV x := h.x
    funext i
    have h3 := congrFun hy i
    have hs0 := hrel.s0 i (ss0 i) (by rw [hss0]; rfl)
    have hs := hrel.s i (a * og i) (by
      rw [cand_ss _ fuel dim st hcand, hog, ha]
      simp only [ofV_apply, fin_mul]; congr 1; ring)
    simp only [vadd, hs0, hs, hx, ofV_apply, fin_add, fin_inj] at h3
    simp only [Pi.add_apply, Pi.smul_apply, smul_eq_mul]
    rw [← h3]; ring
  · right
    have hbd : rnorm sg * min (1 / Mh) (theta / G) ≤ delta := e1.trans hsm
    refine ⟨?_, hbd⟩
    rw [min_eq_right hbd] at hdec
    set p := ss0 + a • og with hpdef
    set b := min (1 / Mh) (theta / G) with hb
    by_contra hcon
    push Not at hcon
    have h5 : 0 ≤ rdot p (rmv B p) := by
      by_cases hv : p = 0
      · rw [hv, zero_rdot]
      · exact (hpd p hv).le
    have h6 : -(rnorm sg * rnorm p) ≤ rdot sg p := by
      have := abs_le.mp (abs_rdot_le sg p)
      exact this.1
    unfold quad at hdec
    have hl0 := rnorm_nonneg p
    set l := rnorm p
    set N := rnorm sg
    have h9 : N * l ≤ N * (N * b / 3) := mul_le_mul_of_nonneg_left hcon.le hNp.le
    have h10 : 0 < N * N * b := by positivity
    nlinarith

/-- the proposal on a bounded problem with a positive definite scaled Hessian: how much it reduces the model, and how long it is -/
theorem pd_proposal (h : RealData I x d g dv H delta theta) (hdel : 0 < delta) (h0 : 0 < theta) (h1 : theta ≤ 1)
    (hbox : InBox I.lb I.ub x) {M0 Mh G : ℝ} (hM0 : 0 < M0) (hMM : 2 * M0 ≤ Mh) (hG : 0 < G)
    (hpd : PD fun i j => d i * H i j * d j + if i = j then |g i| * dv i else 0)
    (hup : ∀ v, rdot v (rmv (fun i j => d i * H i j * d j + if i = j then |g i| * dv i else 0) v) ≤ M0 * rdot v v)
    (hroom : ∀ r : ℝ, 0 ≤ r → r * G ≤ 1 → InBox I.lb I.ub (x - r • fun i => d i * (d i * g i)))
    (hg : 1 / 1125899906842624 ≤ rnorm (fun i => d i * g i)) (hprec : 1 / 33554432 ≤ rnorm (fun i => d i * g i) / M0)
    (O : Oracles Num) (hX : ExactRoutines O) (hO : FiniteOracles O) (fuel : ℕ) {dim : SubSpaceDim} (hdim : dim = .two ∨ dim = .full)
    {strat : StepBackStrategy} (hst : strat ≠ .truncate ∧ strat ≠ .mixed) (href : strat = .refine → RefinesInBall O)
    (st : Step Num n) (htr : trustRegion O fuel dim strat I = .ok st) (y : Fin n → ℝ) (hy : vadd (vadd I.x st.s) st.s0 = ofV y) :
    ∃ p, vadd st.ss st.ss0 = ofV p ∧ InBox I.lb I.ub y ∧
      (let sg := fun i => d i * g i
       let B := fun i j => d i * H i j * d j + if i = j then |g i| * dv i else 0
       let b := rnorm sg * min (1 / Mh) (theta / G)
       st.qpval = fin (quad B sg p) ∧ quad B sg p ≤ -(rnorm sg / 2 * min delta b) ∧
       ((rnorm p ≤ delta ∧ y = x + fun i => d i * p i) ∨ (b / 3 ≤ rnorm p ∧ b ≤ delta))) := by
  rcases Nat.lt_or_ge 1 n with hn | hn
  · exact pd_proposal_many h hn hdel h0 h1 hbox hM0 hMM hG hpd hup hroom hg hprec O hX hO fuel hdim hst href st htr y hy
  have hsg0 : (fun i => d i * g i) ≠ 0 := by
    intro h0; rw [h0, rnorm_eq_zero.mpr rfl] at hg; norm_num at hg
  obtain rfl | rfl : n = 0 ∨ n = 1 := by omega
  · exact absurd (Subsingleton.elim _ _) hsg0
  refine one_proposal O h hdel h0 h1 hbox (by linarith) hG (fun v => (hup v).trans (mul_le_mul_of_nonneg_right (by linarith) (rdot_self_nonneg v))) hroom hsg0
    fuel dim (fun st hst => ?_) strat st htr y hy
  obtain ⟨st', h2, h3⟩ := one_pd (RealData.prob h h0 h1 hbox) (sym_scaled d (fun i => |g i| * dv i) h.sym) hpd hdel hsg0 O hX fuel hdim
  rw [hst] at h2
  cases h2
  exact h3

end

end Fides
