import Verif.Lemmas.Line
import Verif.Spec.Proposal
import Verif.Props.Subproblem
import Verif.Props.StepBack

/-! Helper lemmas: finite problem data and the gradient step. -/

set_option linter.unusedSectionVars false

namespace Fides
open Num Spec
variable {n : ℕ}

variable {I : TRIn Num n} {x d g dv : Fin n → ℝ} {H : Fin n → Fin n → ℝ} {delta theta : ℝ}

theorem Spec.RealData.sg (h : RealData I x d g dv H delta theta) : I.prob.sg = ofV fun i => d i * g i := by
  show sdot I.scaling I.g = _
  rw [h.scaling, h.g]; funext i; exact sdot_fin d _ i (g i) rfl

theorem Spec.RealData.shess (h : RealData I x d g dv H delta theta) :
    I.prob.shess = ofM fun i j => d i * H i j * d j + if i = j then |g i| * dv i else 0 := by
  have hgd : I.prob.gDscaling = ofV fun i => |g i| * dv i := by
    funext i
    show FloatOps.abs (I.g i) * I.dv i = _
    rw [h.g, h.dv]; simp
  exact shess_real I.prob d _ H h.scaling h.hess hgd

theorem sym_scaled (d e : Fin n → ℝ) {H : Fin n → Fin n → ℝ} (hS : Sym H) :
    Sym (fun i j => d i * H i j * d j + if i = j then e i else 0) := by
  intro i j
  by_cases hij : i = j
  · subst hij; rfl
  · simp only [hij, Ne.symm hij, if_false, hS i j]; ring

theorem quad_smul (B : Fin n → Fin n → ℝ) (g p : Fin n → ℝ) (a : ℝ) : quad B g (a • p) = a * (rdot g p + a * (rdot p (rmv B p) / 2)) := by
  simp only [quad, rdot_smul, smul_rdot, rmv_smul]; ring

theorem quad_zero (B : Fin n → Fin n → ℝ) (g : Fin n → ℝ) : quad B g 0 = 0 := by
  simp [quad, rdot_zero, zero_rdot]

theorem pyrnorm_neg (v : Fin n → ℝ) : rnorm (-v) = rnorm v := by
  have := rnorm_smul (-1) v
  simpa using this

theorem rdot_normalized (g : Fin n → ℝ) : rdot g ((rnorm g)⁻¹ • g) = rnorm g := by
  rw [rdot_smul, ← rnorm_sq]
  by_cases h : rnorm g = 0
  · rw [h]; simp
  · field_simp

/-- from a point strictly inside the bounds a step keeps a positive share of its length -/
theorem inside_factor {lb ub : Vec Num n} {x s : Fin n → ℝ} {a theta : ℝ} (h0 : 0 < theta) (ha0 : 0 ≤ a) (hins : Inside lb ub x)
    (hcase : (a = 1 ∧ ∀ t : ℝ, 0 ≤ t → InBox lb ub (x + t • s)) ∨
        ∃ T, 0 ≤ T ∧ a = min 1 (theta * T) ∧ ∀ t : ℝ, 0 ≤ t → (InBox lb ub (x + t • s) ↔ t ≤ T)) : 0 < a := by
  rcases hcase with ⟨h1, _⟩ | ⟨T, hT, hTa, hTi⟩
  · rw [h1]; norm_num
  · -- an interior point can move a little in any direction
    by_contra hna
    have hTz : T = 0 := by
      have : a = 0 := le_antisymm (not_lt.mp hna) ha0
      rw [this] at hTa
      rcases min_eq_iff.mp hTa.symm with ⟨h, _⟩ | ⟨h, _⟩
      · norm_num at h
      · rcases mul_eq_zero.mp h with h | h
        · exact absurd h h0.ne'
        · exact h
    subst hTz
    have hall : ∀ i, ∃ e : ℝ, 0 < e ∧ ∀ r : ℝ, 0 ≤ r → r ≤ e → InBox1 (lb i) (ub i) (x i + r * s i) := by
      intro i
      obtain ⟨hl, hr⟩ := hins i
      set w := s i with hw
      have hup : ∃ e : ℝ, 0 < e ∧ ∀ y : ℝ, y < x i + e → le (fin y) (ub i) = true := by
        generalize ub i = b at hr ⊢
        cases b with
        | fin b =>
          simp only [fin_lt, decide_eq_true_eq] at hr
          exact ⟨b - x i, by linarith, fun y hy => by simp only [fin_le, decide_eq_true_eq]; linarith⟩
        | pinf => exact ⟨1, by norm_num, fun y _ => rfl⟩
        | ninf => simp at hr
        | nan => simp at hr
      have hlo : ∃ e : ℝ, 0 < e ∧ ∀ y : ℝ, x i - e < y → le (lb i) (fin y) = true := by
        generalize lb i = b at hl ⊢
        cases b with
        | fin b =>
          simp only [fin_lt, decide_eq_true_eq] at hl
          exact ⟨x i - b, by linarith, fun y hy => by simp only [fin_le, decide_eq_true_eq]; linarith⟩
        | pinf => simp at hl
        | ninf => exact ⟨1, by norm_num, fun y _ => rfl⟩
        | nan => simp at hl
      obtain ⟨e1, he1, h1⟩ := hup
      obtain ⟨e2, he2, h2⟩ := hlo
      refine ⟨min e1 e2 / (|w| + 1), by positivity, fun r hr0 hr1 => ?_⟩
      have hwr : |r * w| < min e1 e2 := by
        rw [abs_mul, abs_of_nonneg hr0]
        have hm : 0 < min e1 e2 := lt_min he1 he2
        have hp : 0 < |w| + 1 := by positivity
        calc r * |w| ≤ min e1 e2 / (|w| + 1) * |w| := mul_le_mul_of_nonneg_right hr1 (abs_nonneg _)
          _ < min e1 e2 := by
            rw [div_mul_eq_mul_div, div_lt_iff₀ hp]
            nlinarith [abs_nonneg w]
      have := abs_lt.mp hwr
      constructor
      · exact h2 _ (by have := min_le_right e1 e2; linarith [this, (abs_lt.mp hwr).1])
      · exact h1 _ (by have := min_le_left e1 e2; linarith [this, (abs_lt.mp hwr).2])
    choose e he hr using hall
    obtain ⟨e0, he0, hle⟩ : ∃ e0 : ℝ, 0 < e0 ∧ ∀ i, e0 ≤ e i := by
      classical
      by_cases hn : Nonempty (Fin n)
      · obtain ⟨i, hi⟩ := Finite.exists_min e
        exact ⟨e i, he i, hi⟩
      · exact ⟨1, one_pos, fun i => absurd ⟨i⟩ hn⟩
    have := (hTi e0 he0.le).mp (fun i => hr i e0 he0.le (hle i))
    linarith

/-- the gradient step in the scaled variables: the best point of the ball on the line of the gradient, shortened at the bounds -/
theorem gradStep_spec (O : Oracles Num) (h : RealData I x d g dv H delta theta) (hdel : 0 ≤ delta) (h0 : 0 < theta)
    (hbox : InBox I.lb I.ub x) :
    ∃ (st : Step Num n) (t a : ℝ), stepGradient O I.prob = .ok st ∧ 0 ≤ a ∧ a ≤ 1 ∧ st.alpha = fin a ∧
      (let sg := fun i => d i * g i
       let B := fun i j => d i * H i j * d j + if i = j then |g i| * dv i else 0
       let u := (rnorm sg)⁻¹ • sg
       rnorm (t • u) ≤ delta ∧ (∀ t' : ℝ, rnorm (t' • u) ≤ delta → quad B sg (t • u) ≤ quad B sg (t' • u)) ∧
       st.ss = ofV (a • t • u) ∧ st.ss0 = ofV 0 ∧ st.qpval = fin (quad B sg (a • t • u)) ∧ (Inside I.lb I.ub x → 0 < a)) := by
  have hSB := sym_scaled d (fun i => |g i| * dv i) h.sym
  have hB := h.shess
  have hsg := h.sg
  generalize hBd : (fun i j => d i * H i j * d j + if i = j then |g i| * dv i else 0) = B at hSB hB
  generalize hgd : (fun i => d i * g i) = sg at hsg
  set u := (rnorm sg)⁻¹ • sg with hu
  have hex : rnorm (0 : Fin n → ℝ) < delta ∨ rdot 0 u ≠ 0 ∨ u = 0 ∨ delta = 0 := by
    rcases hdel.lt_or_eq with h | h
    · left; rwa [rnorm_eq_zero.mpr rfl]
    · right; right; right; exact h.symm
  obtain ⟨t, ht, hin, hmin⟩ := C20_solve1d hSB sg u 0 delta hdel (by rw [rnorm_eq_zero.mpr rfl]; exact hdel) hex
  simp only [zero_add] at hin hmin
  set st1 : Step Num n := { Step.init I.prob .g [normalize I.prob.sg] with sc := [fin t], ss := ofV (t • u), s := sdot I.prob.scaling (ofV (t • u)) } with hst1
  have hcs : (Step.init I.prob .g [normalize I.prob.sg]).computeStep O.sub I.prob = .ok st1 := by
    simp only [Step.computeStep, Step.init, hst1]
    rw [hsg, normalize_ofV, hB, vzero_ofV, show I.prob.delta = fin delta from h.delta, ht, subDot_one]
  have hs : st1.s = ofV (fun i => d i * (t • u) i) := by
    show sdot I.scaling (ofV (t • u)) = _
    rw [h.scaling]; funext i; exact sdot_fin d _ i _ rfl
  obtain ⟨a, ha, ha0, ha1, hsa, hssa, _, _, hcase⟩ := C23_factor I.prob st1 x _ theta h.x hs h.theta h0 hbox
  have hssv : (st1.stepBack I.prob).ss = ofV (a • t • u) := by
    rw [hssa]; funext i
    show fin ((t • u) i) * fin a = _
    rw [fin_mul]; show fin _ = fin _
    rw [fin_inj]; simp only [Pi.smul_apply, smul_eq_mul]; ring
  have hss0 : (st1.stepBack I.prob).ss0 = ofV 0 := by
    show (vzero : Vec Num n) = _
    rw [vzero_ofV]
  refine ⟨{ st1.stepBack I.prob with qpval := quadraticForm I.prob.shess I.prob.sg (vadd (st1.stepBack I.prob).ss (st1.stepBack I.prob).ss0) },
    t, a, by rw [stepGradient, Step.calculate, hcs], ha0, ha1, ha, hin, hmin, hssv, hss0, ?_, ?_⟩
  · show quadraticForm I.prob.shess I.prob.sg (vadd (st1.stepBack I.prob).ss (st1.stepBack I.prob).ss0) = _
    rw [hssv, hss0, hB, hsg, vadd_ofV, add_zero, quadraticForm_ofV]
  · intro hins
    exact inside_factor h0 ha0 hins hcase

/-- a point of a line through 0 that is best within a symmetric interval: shortening it keeps the model nonpositive -/
theorem short_nonpos (B : Fin n → Fin n → ℝ) (g p : Fin n → ℝ) (a : ℝ) (ha0 : 0 ≤ a) (ha1 : a ≤ 1) (h0 : quad B g p ≤ 0)
    (hm : quad B g p ≤ quad B g (-p)) : quad B g (a • p) ≤ 0 := by
  rw [quad_smul]
  have e1 : quad B g p = rdot g p + rdot p (rmv B p) / 2 := rfl
  have e2 : quad B g (-p) = - rdot g p + rdot p (rmv B p) / 2 := by
    simp only [quad, rdot_neg, neg_rdot, rmv_neg, neg_neg]
  rw [e1, e2] at hm
  rw [e1] at h0
  have hg : rdot g p ≤ 0 := by linarith
  have : rdot g p + a * (rdot p (rmv B p) / 2) ≤ 0 := by nlinarith
  nlinarith

theorem short_neg (B : Fin n → Fin n → ℝ) (g p : Fin n → ℝ) (a : ℝ) (ha0 : 0 < a) (ha1 : a ≤ 1) (h0 : quad B g p < 0)
    (hg : rdot g p < 0) : quad B g (a • p) < 0 := by
  rw [quad_smul]
  have e1 : quad B g p = rdot g p + rdot p (rmv B p) / 2 := rfl
  rw [e1] at h0
  have : rdot g p + a * (rdot p (rmv B p) / 2) < 0 := by nlinarith
  nlinarith

end Fides
