import Verif.Lemmas.GradStep
import Verif.Lemmas.OneColumn
import Verif.Lemmas.OneVariable
import Verif.Props.Finite

/-! Helper lemmas: how much the gradient step and Steihaug's step reduce the model of a bounded problem. -/

namespace Fides
open Num Spec
variable {n : ℕ}

/-- a minimizer of `-tau N + tau² kappa / 2` on `[0, D]`, shortened by a factor `a` -/
theorem line_min {N kappa Mh D tau a : ℝ} (hN : 0 < N) (hM : 0 < Mh) (hk : kappa ≤ Mh) (hD : 0 < D) (ht0 : 0 ≤ tau) (htD : tau ≤ D)
    (hmin : ∀ t, 0 ≤ t → t ≤ D → -(tau * N) + tau * tau * kappa / 2 ≤ -(t * N) + t * t * kappa / 2) (ha0 : 0 ≤ a) (ha1 : a ≤ 1) :
    min D (N / Mh) ≤ tau ∧ a * (-(tau * N) + a * (tau * tau * kappa / 2)) ≤ -(a * tau * N / 2) := by
  have hm0 : 0 < min D (N / Mh) := lt_min hD (div_pos hN hM)
  constructor
  · by_contra hcon
    push Not at hcon
    set t := min D (N / Mh) with ht
    have h1 := hmin t hm0.le (min_le_left _ _)
    have h2 : t * Mh ≤ N := by
      have := min_le_right D (N / Mh)
      rw [← ht, le_div_iff₀ hM] at this; exact this
    have h3 : (t - tau) * (-N + (t + tau) * kappa / 2) ≥ 0 := by nlinarith
    have h4 : 0 < t - tau := by linarith
    have h5 : (t + tau) * kappa / 2 < N := by
      rcases le_or_gt kappa 0 with hk0 | hk0
      · nlinarith
      · have : (t + tau) * kappa < 2 * t * kappa := by nlinarith
        have : t * kappa ≤ t * Mh := mul_le_mul_of_nonneg_left hk hm0.le
        linarith
    nlinarith
  · have hkey : tau * kappa ≤ N := by
      rcases le_or_gt kappa 0 with hk0 | hk0
      · nlinarith
      · by_contra hcon
        push Not at hcon
        have h1 : N / kappa < tau := by rw [div_lt_iff₀ hk0]; exact hcon
        have h2 := hmin (N / kappa) (div_pos hN hk0).le (by linarith)
        set t := N / kappa with ht
        have h3 : t * kappa = N := div_mul_cancel₀ _ hk0.ne'
        have h4 : 0 < tau - t := by linarith
        nlinarith [mul_pos h4 h4]
    have h1 : a * (tau * kappa) ≤ N := by
      rcases le_or_gt (tau * kappa) 0 with h | h
      · nlinarith
      · nlinarith
    have h2 := mul_nonneg ha0 ht0
    nlinarith

variable {I : TRIn Num n} {x d g dv : Fin n → ℝ} {H : Fin n → Fin n → ℝ} {delta theta : ℝ}

/-- a step to the minimizer of the model on the line of the scaled gradient, shortened by `step_back`, reduces the model by at least half of
`‖sg‖ min(delta, ‖sg‖/M, theta ‖sg‖/G)` if the line stays in the box for a while -/
theorem line_decrease (h : RealData I x d g dv H delta theta) (hdel : 0 < delta) (h0 : 0 < theta)
    (hbox : InBox I.lb I.ub x) {Mh G : ℝ} (hM : 0 < Mh) (hG : 0 < G)
    (hcurv : ∀ v, rdot v (rmv (fun i j => d i * H i j * d j + if i = j then |g i| * dv i else 0) v) ≤ Mh * rdot v v)
    (hroom : ∀ r : ℝ, 0 ≤ r → r * G ≤ 1 → InBox I.lb I.ub (x - r • fun i => d i * (d i * g i))) (hg : (fun i => d i * g i) ≠ 0)
    (st1 : Step Num n) (t : ℝ) (hx1 : st1.x = ofV x) (hss1 : st1.ss = ofV (t • (rnorm fun i => d i * g i)⁻¹ • fun i => d i * g i))
    (hs : st1.s = ofV (fun i => d i * (t • (rnorm fun i => d i * g i)⁻¹ • fun i => d i * g i) i))
    (hin : rnorm (t • (rnorm fun i => d i * g i)⁻¹ • fun i => d i * g i) ≤ delta)
    (hmin : ∀ r : ℝ, rnorm (r • (rnorm fun i => d i * g i)⁻¹ • fun i => d i * g i) ≤ delta →
      quad (fun i j => d i * H i j * d j + if i = j then |g i| * dv i else 0) (fun i => d i * g i) (t • (rnorm fun i => d i * g i)⁻¹ • fun i => d i * g i) ≤
      quad (fun i j => d i * H i j * d j + if i = j then |g i| * dv i else 0) (fun i => d i * g i) (r • (rnorm fun i => d i * g i)⁻¹ • fun i => d i * g i)) :
    ∃ a : ℝ, 0 ≤ a ∧ a ≤ 1 ∧ (st1.stepBack I.prob).alpha = fin a ∧
      (st1.stepBack I.prob).ss = ofV (a • t • (rnorm fun i => d i * g i)⁻¹ • fun i => d i * g i) ∧
      (st1.stepBack I.prob).s = ofV (a • fun i => d i * (t • (rnorm fun i => d i * g i)⁻¹ • fun i => d i * g i) i) ∧
      quad (fun i j => d i * H i j * d j + if i = j then |g i| * dv i else 0) (fun i => d i * g i)
        (a • t • (rnorm fun i => d i * g i)⁻¹ • fun i => d i * g i) ≤
        -(rnorm (fun i => d i * g i) / 2 * min delta (rnorm (fun i => d i * g i) * min (1 / Mh) (theta / G))) := by
  have hSB := sym_scaled d (fun i => |g i| * dv i) h.sym
  have hroom' : ∀ r : ℝ, 0 ≤ r → r * G ≤ 1 → InBox I.lb I.ub (x - r • fun i => d i * (fun i => d i * g i) i) := hroom
  generalize hBd : (fun i j => d i * H i j * d j + if i = j then |g i| * dv i else 0) = B at hSB hcurv hmin ⊢
  generalize hgd : (fun i => d i * g i) = sg at hg hroom' hss1 hs hin hmin ⊢
  set N := rnorm sg with hN
  have hNp : 0 < N := lt_of_le_of_ne (rnorm_nonneg _) (fun h => hg (rnorm_eq_zero.mp h.symm))
  set u := N⁻¹ • sg with hu
  have hun : rnorm u = 1 := by rw [hu, rnorm_smul, abs_of_pos (inv_pos.mpr hNp), ← hN, inv_mul_cancel₀ hNp.ne']
  have hsu : rdot sg u = N := rdot_normalized sg
  obtain ⟨a, ha, ha0, ha1, hsa, hssa, _, _, hcase⟩ := C23_factor I.prob st1 x _ theta hx1 hs h.theta h0 hbox
  have hssv : (st1.stepBack I.prob).ss = ofV (a • t • u) := by
    rw [hssa, hss1]; funext i
    show fin ((t • u) i) * fin a = _
    rw [fin_mul]; show fin _ = fin _
    rw [fin_inj]; simp only [Pi.smul_apply, smul_eq_mul]; ring
  refine ⟨a, ha0, ha1, ha, hssv, hsa, ?_⟩
  -- the line
  set kappa := rdot u (rmv B u) with hkap
  have hq : ∀ r : ℝ, quad B sg (r • u) = r * N + r * r * kappa / 2 := by
    intro r
    rw [quad_smul, hsu]; ring
  have hkM : kappa ≤ Mh := by
    have := hcurv u
    rw [← rnorm_sq, hun] at this
    linarith
  have htneg : t ≤ 0 := by
    have := hmin (-t) (by rw [neg_smul, pyrnorm_neg]; exact hin)
    rw [hq, hq] at this
    nlinarith
  have htD : -t ≤ delta := by
    rw [rnorm_smul, hun, mul_one, abs_of_nonpos htneg] at hin; exact hin
  have hlm := line_min hNp hM hkM hdel (by linarith) htD (a := a) (fun r hr0 hr1 => by
    have := hmin (-r) (by rw [rnorm_smul, hun, mul_one, abs_neg, abs_of_nonneg hr0]; exact hr1)
    rw [hq, hq] at this
    linarith) ha0 ha1
  have hqa : quad B sg (a • t • u) = a * (-(-t * N) + a * (-t * -t * kappa / 2)) := by
    rw [smul_smul, hq]; ring
  rw [hqa]
  refine hlm.2.trans ?_
  have hmul : min delta (N * min (1 / Mh) (theta / G)) ≤ a * -t := by
    have e1 : N * min (1 / Mh) (theta / G) ≤ N / Mh := by
      have := mul_le_mul_of_nonneg_left (min_le_left (1 / Mh) (theta / G)) hNp.le
      rwa [mul_one_div] at this
    have e2 : N * min (1 / Mh) (theta / G) ≤ theta * N / G := by
      have := mul_le_mul_of_nonneg_left (min_le_right (1 / Mh) (theta / G)) hNp.le
      rw [mul_comm theta N, mul_div_assoc]; exact this
    have hfull : min delta (N * min (1 / Mh) (theta / G)) ≤ -t := (min_le_min_left _ e1).trans hlm.1
    rcases hcase with ⟨h1, _⟩ | ⟨T, hT, hTa, hTi⟩
    · rw [h1, one_mul]; exact hfull
    · rw [hTa]
      rcases min_cases 1 (theta * T) with ⟨e, _⟩ | ⟨e, _⟩
      · rw [e, one_mul]; exact hfull
      · rw [e]
        have htp : 0 < -t := lt_of_lt_of_le (lt_min hdel (div_pos hNp hM)) hlm.1
        refine (min_le_right _ _).trans (e2.trans ?_)
        have hrT : N / (-t * G) ≤ T := by
          refine (hTi _ (by positivity)).mp ?_
          have := hroom' (1 / G) (by positivity) (by rw [one_div, inv_mul_cancel₀ hG.ne'])
          have e : x - (1 / G) • (fun i => d i * sg i) = x + (N / (-t * G)) • fun i => d i * (t • u) i := by
            funext i
            simp only [Pi.add_apply, Pi.smul_apply, Pi.sub_apply, smul_eq_mul, hu]
            have htn : t ≠ 0 := by intro h; rw [h] at htp; simp at htp
            field_simp
            ring
          rw [e] at this
          exact this
        rw [div_le_iff₀ (by positivity)] at hrT
        rw [div_le_iff₀ hG]
        nlinarith
  nlinarith [mul_le_mul_of_nonneg_right hmul hNp.le]

/-- the gradient step reduces the model by at least half of `‖sg‖ min(delta, ‖sg‖/M, theta ‖sg‖/G)` if the line of the scaled gradient stays in the
box for a while -/
theorem gradStep_decrease (O : Oracles Num) (h : RealData I x d g dv H delta theta) (hdel : 0 < delta) (h0 : 0 < theta)
    (hbox : InBox I.lb I.ub x) {Mh G : ℝ} (hM : 0 < Mh) (hG : 0 < G)
    (hcurv : ∀ v, rdot v (rmv (fun i j => d i * H i j * d j + if i = j then |g i| * dv i else 0) v) ≤ Mh * rdot v v)
    (hroom : ∀ r : ℝ, 0 ≤ r → r * G ≤ 1 → InBox I.lb I.ub (x - r • fun i => d i * (d i * g i))) (hg : (fun i => d i * g i) ≠ 0) :
    ∃ (st : Step Num n) (q : ℝ), stepGradient O I.prob = .ok st ∧ st.qpval = fin q ∧
      q ≤ -(rnorm (fun i => d i * g i) / 2 * min delta (rnorm (fun i => d i * g i) * min (1 / Mh) (theta / G))) := by
  have hline := line_decrease h hdel h0 hbox hM hG hcurv hroom hg
  have hSB := sym_scaled d (fun i => |g i| * dv i) h.sym
  have hB := h.shess
  have hsg := h.sg
  generalize hBd : (fun i j => d i * H i j * d j + if i = j then |g i| * dv i else 0) = B at hSB hB hcurv hline
  generalize hgd : (fun i => d i * g i) = sg at hsg hg hline ⊢
  set N := rnorm sg with hN
  have hNp : 0 < N := lt_of_le_of_ne (rnorm_nonneg _) (fun h => hg (rnorm_eq_zero.mp h.symm))
  set u := N⁻¹ • sg with hu
  have hun : rnorm u = 1 := by rw [hu, rnorm_smul, abs_of_pos (inv_pos.mpr hNp), ← hN, inv_mul_cancel₀ hNp.ne']
  have hsu : rdot sg u = N := rdot_normalized sg
  have hex : rnorm (0 : Fin n → ℝ) < delta ∨ rdot 0 u ≠ 0 ∨ u = 0 ∨ delta = 0 := by
    left; rwa [rnorm_eq_zero.mpr rfl]
  obtain ⟨t, ht, hin, hmin⟩ := C20_solve1d hSB sg u 0 delta hdel.le (by rw [rnorm_eq_zero.mpr rfl]; exact hdel.le) hex
  simp only [zero_add] at hin hmin
  set st1 : Step Num n := { Step.init I.prob .g [normalize I.prob.sg] with sc := [fin t], ss := ofV (t • u), s := sdot I.prob.scaling (ofV (t • u)) } with hst1
  have hcs : (Step.init I.prob .g [normalize I.prob.sg]).computeStep O.sub I.prob = .ok st1 := by
    simp only [Step.computeStep, Step.init, hst1]
    rw [hsg, normalize_ofV, hB, vzero_ofV, show I.prob.delta = fin delta from h.delta, ht, subDot_one]
  have hs : st1.s = ofV (fun i => d i * (t • u) i) := by
    show sdot I.scaling (ofV (t • u)) = _
    rw [h.scaling]; funext i; exact sdot_fin d _ i _ rfl
  obtain ⟨a, -, -, -, hssv, -, hdec⟩ := hline st1 t h.x (by rfl) hs hin hmin
  have hss0 : (st1.stepBack I.prob).ss0 = ofV 0 := by
    show (vzero : Vec Num n) = _
    rw [vzero_ofV]
  refine ⟨{ st1.stepBack I.prob with qpval := quadraticForm I.prob.shess I.prob.sg (vadd (st1.stepBack I.prob).ss (st1.stepBack I.prob).ss0) },
    quad B sg (a • t • u), by rw [stepGradient, Step.calculate, hcs], ?_, hdec⟩
  · show quadraticForm I.prob.shess I.prob.sg (vadd (st1.stepBack I.prob).ss (st1.stepBack I.prob).ss0) = _
    rw [hssv, hss0, hB, hsg, vadd_ofV, add_zero, quadraticForm_ofV]

/-- the value of the chosen candidate is at most that of any other finite candidate -/
theorem chosen_le (O : Oracles Num) (fuel : ℕ) (dim : SubSpaceDim) (strat : StepBackStrategy) (I : TRIn Num n) (tr : Step Num n)
    (rest : List (Step Num n)) (best : Step Num n) (hc : candidates O fuel I.prob dim strat = .ok (tr, rest))
    (h : trustRegion O fuel dim strat I = .ok best) (q : ℝ) (hq : best.qpval = fin q) (st : Step Num n) (hst : st ∈ tr :: rest) (q' : ℝ)
    (hq' : st.qpval = fin q') : q ≤ q' := by
  have hnn : ∀ st ∈ tr :: rest, isNaN st.qpval = false := by
    intro s hs
    by_contra hcon
    have := C24_nan_preferred O fuel dim strat I tr rest best hc ⟨s, hs, isNaN_eq (by simpa using hcon)⟩ h
    rw [hq] at this; cases this
  obtain ⟨pre, post, h1, h2, h3⟩ := C24_best O fuel dim strat I tr rest best hc hnn h
  rw [h1] at hst
  rcases List.mem_append.mp hst with hm | hm
  · have := h2 st hm
    rw [hq, hq', fin_lt, decide_eq_true_eq] at this
    exact this.le
  · rcases List.mem_cons.mp hm with rfl | hm
    · rw [hq, fin_inj] at hq'; exact hq'.le
    · have := h3 st hm
      rw [hq, hq', fin_le, decide_eq_true_eq] at this
      exact this

section
variable {P : Prob Num n} {sg : Fin n → ℝ} {B : Fin n → Fin n → ℝ}

theorem calculate_ogS (O : SubOracles Num) (st st' : Step Num n) (h : st.calculate O P = .ok st') :
    (∃ r, st'.ogSs = ofV r) ∨ st'.ogS = sdot P.scaling st'.ogSs := by
  unfold Step.calculate at h
  split at h
  · cases h
  · rename_i st1 hc
    cases h
    show (∃ r, st1.ss = ofV r) ∨ st1.s = sdot P.scaling st1.ss
    unfold Step.computeStep at hc
    split at hc
    · cases hc; left; exact ⟨_, vzero_ofV⟩
    · cases hc; right; rfl
    · simp only at hc
      split at hc
      · cases hc
      · cases hc; right; rfl

theorem steihaug_ogS (hP : RealProb P x d sg B delta theta) (hn : 1 < n) (hS : Sym B) (hd : 0 < delta) (hg : sg ≠ 0) (fuel : ℕ) (st : Step Num n)
    (h : Cand (noOracles Num) fuel P .steihaug st) : (∃ r, st.ogSs = ofV r) ∨ st.ogS = sdot P.scaling st.ogSs := by
  rcases h with ⟨_, h⟩ | ⟨_, h⟩ | ⟨cur, _, _, _, h⟩ | ⟨cur, _, _, _, h⟩ | ⟨cur, _, _, h⟩
  · exact Or.inl (base_og hP hS hd hn _ noOracles_finite fuel .steihaug (fun _ => hg) st h)
  · exact calculate_ogS _ _ _ h
  · exact calculate_ogS _ _ _ h
  · exact calculate_ogS _ _ _ h
  · simp only [stepRefined, noOracles] at h
    cases h

/-- a candidate whose trial point is a real vector is a real step -/
theorem steihaug_real (hP : RealProb P x d sg B delta theta) (hn : 1 < n) (hS : Sym B) (hdel : 0 < delta) (hg : sg ≠ 0) (hdg : ∀ i, d i = 0 → sg i = 0)
    (fuel : ℕ) (st : Step Num n) (h : Cand (noOracles Num) fuel P .steihaug st) (y : Fin n → ℝ) (hy : vadd (vadd P.x st.s) st.s0 = ofV y) :
    ∃ (ss0 og : Fin n → ℝ) (a : ℝ), st.ss0 = ofV ss0 ∧ st.ogSs = ofV og ∧ st.alpha = fin a ∧ 0 ≤ a ∧ a ≤ 1 ∧
      vadd st.ss st.ss0 = ofV (ss0 + a • og) ∧ st.qpval = fin (quad B sg (ss0 + a • og)) := by
  have hf := cand_finStep hP hn _ noOracles_finite fuel .steihaug st h
  obtain ⟨ss0, hss0⟩ := hf.ss0
  obtain ⟨a, ha, ha0, ha1⟩ := hf.alpha
  have hog : ∃ r, st.ogSs = ofV r := by
    rcases steihaug_ogS hP hn hS hdel hg fuel st h with h1 | h1
    · exact h1
    rcases hf.og with ⟨_, h2⟩ | ⟨_, h2, _⟩
    · exact h2
    exfalso
    apply hg
    funext i
    apply hdg
    have h3 := congrFun hy i
    obtain ⟨b, c, h4, _⟩ := add_fin_iff _ _ _ h3
    obtain ⟨b', c', _, h5, _⟩ := add_fin_iff _ _ _ h4
    rw [hf.s] at h5
    obtain ⟨e, _, h6, _⟩ := mul_fin_iff _ _ _ h5
    rw [h1, hP.scaling] at h6
    by_contra hdi
    simp only [sdot, ofV_apply, lit_def, Rat.cast_zero, fin_feq, decide_eq_true_eq, hdi, if_false, h2] at h6
    simp at h6
  obtain ⟨og, hog⟩ := hog
  have hp : vadd st.ss st.ss0 = ofV (ss0 + a • og) := by
    funext i
    rw [hf.ss, hog, hss0, ha]
    simp only [vadd, ofV_apply, fin_mul, fin_add, Pi.add_apply, Pi.smul_apply, smul_eq_mul]
    congr 1; ring
  refine ⟨ss0, og, a, hss0, hog, ha, ha0, ha1, hp, ?_⟩
  rw [cand_qpval _ fuel .steihaug st h, hp, hP.shess, hP.sg, quadraticForm_ofV]

/-- Steihaug's step when the bounds do not shorten it -/
theorem stepSteihaug_full (hP : RealProb P x d sg B delta theta) (hS : Sym B) (hdel : 0 < delta) {M : ℝ} (hM : 0 < M)
    (hB : ∀ v, rdot v (rmv B v) ≤ M * rdot v v) (hg : sg ≠ 0) (fuel : ℕ) (st : Step Num n) (h : stepSteihaug fuel P = .ok st) (ha : st.alpha = fin 1) :
    ∃ q, st.qpval = fin q ∧ q ≤ -(rnorm sg * min delta (rnorm sg / M) / 2) := by
  obtain ⟨c, hc0, hc1, hc2, hc3⟩ := steihaug_eps sg
  simp only [stepSteihaug] at h
  split at h
  · cases h
  · split at h
    · cases h
    · rename_i o ho
      cases h
      rw [hP.sg, hc3, vzero_ofV, vneg_ofV] at ho
      obtain ⟨q, p, h1, h2, h3, h4⟩ := steihaugLoop_cauchy hP hS hdel M hM hB hg (c * rnorm sg)
        (mul_pos (hc2 (rnorm_pos hg)) (rnorm_pos hg)) fuel o ho
      set st1 : Step Num n := { Step.init P .cgs o.subspace with sc := o.sc, ss := o.ss, ss0 := o.ss0, s := sdot P.scaling (vadd o.ss o.ss0) } with hst1
      have ha' : (st1.stepBack P).alpha = fin 1 := ha
      have hss : (st1.stepBack P).ss = ofV p := by
        funext i
        show st1.ss i * (st1.stepBack P).alpha = _
        rw [ha', show st1.ss = ofV p from h2]; simp
      have hss0 : (st1.stepBack P).ss0 = ofV q := h1
      refine ⟨quad B sg (q + p), ?_, h3⟩
      show quadraticForm P.shess P.sg (vadd (st1.stepBack P).ss (st1.stepBack P).ss0) = _
      rw [hss, hss0, vadd_ofV, hP.shess, hP.sg, quadraticForm_ofV, add_comm p q]

end

/-- the proposal of Steihaug's solver on a bounded problem in two or more variables -/
theorem steihaug_proposal_many (O : Oracles Num) (h : RealData I x d g dv H delta theta) (hn : 1 < n) (hdel : 0 < delta) (h0 : 0 < theta) (h1 : theta ≤ 1)
    (hbox : InBox I.lb I.ub x) {Mh G : ℝ} (hM : 0 < Mh) (hG : 0 < G)
    (hcurv : ∀ v, rdot v (rmv (fun i j => d i * H i j * d j + if i = j then |g i| * dv i else 0) v) ≤ Mh * rdot v v)
    (hlow : ∀ v, -(Mh * rdot v v) ≤ rdot v (rmv (fun i j => d i * H i j * d j + if i = j then |g i| * dv i else 0) v))
    (hroom : ∀ r : ℝ, 0 ≤ r → r * G ≤ 1 → InBox I.lb I.ub (x - r • fun i => d i * (d i * g i))) (hg : (fun i => d i * g i) ≠ 0)
    (fuel : ℕ) (strat : StepBackStrategy) (st : Step Num n) (htr : trustRegion O fuel .steihaug strat I = .ok st) (y : Fin n → ℝ)
    (hy : vadd (vadd I.x st.s) st.s0 = ofV y) :
    ∃ p, vadd st.ss st.ss0 = ofV p ∧ InBox I.lb I.ub y ∧
      (let sg := fun i => d i * g i
       let B := fun i j => d i * H i j * d j + if i = j then |g i| * dv i else 0
       let b := rnorm sg * min (1 / Mh) (theta / G)
       st.qpval = fin (quad B sg p) ∧ quad B sg p ≤ -(rnorm sg / 2 * min delta b) ∧
       ((rnorm p ≤ delta ∧ y = x + fun i => d i * p i) ∨ (b / 3 ≤ rnorm p ∧ b ≤ delta))) := by
  have hP := RealData.prob h h0 h1 hbox
  have hSB := sym_scaled d (fun i => |g i| * dv i) h.sym
  rw [steihaug_oracle O (noOracles Num)] at htr
  have hcand := trustRegion_cand _ _ _ _ _ _ htr
  have hgrad := gradStep_decrease (noOracles Num) h hdel h0 hbox hM hG hcurv hroom hg
  obtain ⟨ss0, og, a, hss0, hog, ha, ha0, ha1, hp, hq⟩ := steihaug_real hP hn hSB hdel hg (fun i hi => by show d i * g i = 0; rw [hi, zero_mul]) fuel st hcand y hy
  generalize hBd : (fun i j => d i * H i j * d j + if i = j then |g i| * dv i else 0) = B at hP hSB hcurv hlow hgrad hq
  generalize hgd : (fun i => d i * g i) = sg at hP hg hgrad hq
  have hNp : 0 < rnorm sg := rnorm_pos hg
  have hbox' : InBox I.lb I.ub y := by
    have hf := cand_feas hP.x hP.theta hP.th0 hP.th1 hP.box _ fuel .steihaug st hcand
    intro i
    have h3 : I.x i + st.s i + st.s0 i = fin (y i) := congrFun hy i
    rcases hf.trial i with h4 | ⟨r, h4, h5⟩
    · have h4' : I.x i + st.s i + st.s0 i = nan := h4
      rw [h3] at h4'; cases h4'
    · have h4' : I.x i + st.s i + st.s0 i = fin r := h4
      rw [h3, fin_inj] at h4'; rw [h4']; exact h5
  have e1 : rnorm sg * min (1 / Mh) (theta / G) ≤ rnorm sg / Mh := by
    have := mul_le_mul_of_nonneg_left (min_le_left (1 / Mh) (theta / G)) hNp.le
    rwa [mul_one_div] at this
  have hbp : 0 < min (1 / Mh) (theta / G) := lt_min (by positivity) (div_pos h0 hG)
  have hdec : quad B sg (ss0 + a • og) ≤ -(rnorm sg / 2 * min delta (rnorm sg * min (1 / Mh) (theta / G))) := by
    have hcs : ∃ tr rest, candidates (noOracles Num) fuel I.prob .steihaug strat = .ok (tr, rest) := by
      rw [trustRegion] at htr
      split at htr
      · cases htr
      · rename_i tr rest hc; exact ⟨tr, rest, hc⟩
    obtain ⟨tr, rest, hc⟩ := hcs
    have hle := chosen_le _ fuel .steihaug strat I tr rest st hc htr _ hq
    have hc0 := hc
    rw [candidates] at hc
    split at hc
    · cases hc
    · rename_i tr' htr'
      split at hc
      · obtain ⟨gs, qg, hg1, hg2, hg3⟩ := hgrad
        rw [hg1] at hc
        simp only at hc
        split at hc
        · cases hc
        · rename_i rs hrs
          cases hc
          exact (hle gs (by simp) qg hg2).trans hg3
      · rename_i hcut
        cases hc
        have hf := cand_finStep hP hn _ noOracles_finite fuel .steihaug tr (.base tr htr')
        obtain ⟨a', ha', _, ha1'⟩ := hf.alpha
        have ha1 : a' = 1 := by
          rw [ha'] at hcut
          simp only [lit_def, Rat.cast_one, fin_lt, hn, decide_true, Bool.and_true, decide_eq_true_eq, not_lt] at hcut
          exact le_antisymm ha1' hcut
        rw [ha1] at ha'
        obtain ⟨q, hq1, hq2⟩ := stepSteihaug_full hP hSB hdel hM hcurv hg fuel tr htr' ha'
        refine (hle tr (by simp) q hq1).trans (hq2.trans ?_)
        have := mul_le_mul_of_nonneg_left (min_le_min_left delta e1) hNp.le
        linarith
  refine ⟨ss0 + a • og, hp, hbox', hq, hdec, ?_⟩
  rcases le_or_gt delta (rnorm sg / Mh) with hsm | hsm
  · left
    obtain ⟨hball, hrel⟩ := steihaug_small hP hn hdel.le hM hcurv hg hsm (noOracles Num) fuel strat st htr
    refine ⟨hball.taken a ha0 ha1 ss0 og hss0 hog, ?_⟩
    have hx : I.x = ofV x := h.x
    funext i
    have h3 := congrFun hy i
    have hs0 := hrel.s0 i (ss0 i) (by rw [hss0]; rfl)
    have hs := hrel.s i (a * og i) (by
      rw [cand_ss _ fuel .steihaug st hcand, hog, ha]
      simp only [ofV_apply, fin_mul]; congr 1; ring)
    simp only [vadd, hs0, hs, hx, ofV_apply, fin_add, fin_inj] at h3
    simp only [Pi.add_apply, Pi.smul_apply, smul_eq_mul]
    rw [← h3]; ring
  · right
    have hbd : rnorm sg * min (1 / Mh) (theta / G) ≤ delta := e1.trans hsm.le
    refine ⟨?_, hbd⟩
    rw [min_eq_right hbd] at hdec
    set p := ss0 + a • og with hpdef
    set b := min (1 / Mh) (theta / G) with hb
    by_contra hcon
    push Not at hcon
    have hbM : b * Mh ≤ 1 := by
      have := min_le_left (1 / Mh) (theta / G)
      rw [← hb, le_div_iff₀ hM] at this; exact this
    have h5 := hlow p
    have h6 : -(rnorm sg * rnorm p) ≤ rdot sg p := by
      have := abs_le.mp (abs_rdot_le sg p)
      exact this.1
    rw [← rnorm_sq] at h5
    unfold quad at hdec
    have hl0 := rnorm_nonneg p
    set l := rnorm p
    set N := rnorm sg
    have h7 : l * l ≤ N * b / 3 * (N * b / 3) := mul_le_mul hcon.le hcon.le hl0 (by positivity)
    have h8 : Mh * (l * l) ≤ N * N * b / 9 := by
      calc Mh * (l * l) ≤ Mh * (N * b / 3 * (N * b / 3)) := mul_le_mul_of_nonneg_left h7 hM.le
        _ = N * N * b / 9 * (b * Mh) := by ring
        _ ≤ N * N * b / 9 * 1 := mul_le_mul_of_nonneg_left hbM (by positivity)
        _ = N * N * b / 9 := mul_one _
    have h9 : N * l ≤ N * (N * b / 3) := mul_le_mul_of_nonneg_left hcon.le hNp.le
    have h10 : 0 < N * N * b := by positivity
    nlinarith

/-- in one variable the proposal is the base step -/
theorem one_candidate {I : TRIn Num 1} (O : Oracles Num) (fuel : ℕ) (dim : SubSpaceDim) (strat : StepBackStrategy) (st : Step Num 1)
    (htr : trustRegion O fuel dim strat I = .ok st) : trStep O fuel I.prob dim = .ok st := by
  rw [trustRegion, candidates] at htr
  cases hs : trStep O fuel I.prob dim with
  | error e => rw [hs] at htr; cases htr
  | ok tr =>
    rw [hs] at htr
    simp only [lt_irrefl, decide_false, Bool.and_false, Bool.false_eq_true, if_false] at htr
    cases htr; rfl

/-- in one variable the trial point is a real number -/
theorem one_real {I : TRIn Num 1} {x d sg : Fin 1 → ℝ} {B : Fin 1 → Fin 1 → ℝ} {delta theta : ℝ} (hP : RealProb I.prob x d sg B delta theta)
    {st : Step Num 1} (h : OneBase I.prob x d sg B delta st) : ∃ y : Fin 1 → ℝ, vadd (vadd I.x st.s) st.s0 = ofV y := by
  obtain ⟨st1, t, e1, e2, e3, e4, e5, -, -, e8⟩ := h
  obtain ⟨a, -, -, -, h1, -⟩ := C23_factor I.prob st1 x _ theta e1 e5 hP.theta hP.th0 hP.box
  have hs : st.s = (st1.stepBack I.prob).s := by rw [e8]
  have hs0 : st.s0 = ofV 0 := by rw [e8]; exact e3
  have hx : I.x = ofV x := hP.x
  rw [hx, hs, h1, hs0, vadd_ofV, vadd_ofV]
  exact ⟨_, rfl⟩

/-- the proposal in one variable -/
theorem one_proposal {I : TRIn Num 1} {x d g dv : Fin 1 → ℝ} {H : Fin 1 → Fin 1 → ℝ} {delta theta : ℝ} (O : Oracles Num) (h : RealData I x d g dv H delta theta) (hdel : 0 < delta) (h0 : 0 < theta) (h1 : theta ≤ 1)
    (hbox : InBox I.lb I.ub x) {Mh G : ℝ} (hM : 0 < Mh) (hG : 0 < G)
    (hcurv : ∀ v, rdot v (rmv (fun i j => d i * H i j * d j + if i = j then |g i| * dv i else 0) v) ≤ Mh * rdot v v)
    (hroom : ∀ r : ℝ, 0 ≤ r → r * G ≤ 1 → InBox I.lb I.ub (x - r • fun i => d i * (d i * g i))) (hg : (fun i => d i * g i) ≠ 0)
    (fuel : ℕ) (dim : SubSpaceDim)
    (hbase : ∀ st, trStep O fuel I.prob dim = .ok st → OneBase I.prob x d (fun i => d i * g i)
      (fun i j => d i * H i j * d j + if i = j then |g i| * dv i else 0) delta st) (strat : StepBackStrategy) (st : Step Num 1) (htr : trustRegion O fuel dim strat I = .ok st) (y : Fin 1 → ℝ)
    (hy : vadd (vadd I.x st.s) st.s0 = ofV y) :
    ∃ p, vadd st.ss st.ss0 = ofV p ∧ InBox I.lb I.ub y ∧
      (let sg := fun i => d i * g i
       let B := fun i j => d i * H i j * d j + if i = j then |g i| * dv i else 0
       let b := rnorm sg * min (1 / Mh) (theta / G)
       st.qpval = fin (quad B sg p) ∧ quad B sg p ≤ -(rnorm sg / 2 * min delta b) ∧
       ((rnorm p ≤ delta ∧ y = x + fun i => d i * p i) ∨ (b / 3 ≤ rnorm p ∧ b ≤ delta))) := by
  have hP := RealData.prob h h0 h1 hbox
  have hst := one_candidate O fuel dim strat st htr
  obtain ⟨st1, t, e1, e2, e3, e4, e5, e6, e7, e8⟩ := hbase st hst
  obtain ⟨a, a0, a1, -, e9, e10, hdec⟩ := line_decrease h hdel h0 hbox hM hG hcurv hroom hg st1 t e1 e4 e5 e6 e7
  have hss : st.ss = ofV (a • t • (rnorm fun i => d i * g i)⁻¹ • fun i => d i * g i) := by rw [e8]; exact e9
  have hss0 : st.ss0 = ofV 0 := by rw [e8]; exact e2
  have hs : st.s = ofV (a • fun i => d i * (t • (rnorm fun i => d i * g i)⁻¹ • fun i => d i * g i) i) := by rw [e8]; exact e10
  have hs0 : st.s0 = ofV 0 := by rw [e8]; exact e3
  have hbox' : InBox I.lb I.ub y := by
    have hf := cand_feas hP.x hP.theta hP.th0 hP.th1 hP.box O fuel dim st (.base st hst)
    intro i
    have h3 : I.x i + st.s i + st.s0 i = fin (y i) := congrFun hy i
    rcases hf.trial i with h4 | ⟨r, h4, h5⟩
    · have h4' : I.x i + st.s i + st.s0 i = nan := h4
      rw [h3] at h4'; cases h4'
    · have h4' : I.x i + st.s i + st.s0 i = fin r := h4
      rw [h3, fin_inj] at h4'; rw [h4']; exact h5
  have hp : vadd st.ss st.ss0 = ofV (a • t • (rnorm fun i => d i * g i)⁻¹ • fun i => d i * g i) := by rw [hss, hss0, vadd_ofV, add_zero]
  refine ⟨_, hp, hbox', ?_, hdec, Or.inl ⟨?_, ?_⟩⟩
  · have : st.qpval = quadraticForm I.prob.shess I.prob.sg (vadd st.ss st.ss0) := by rw [e8]
    rw [this, hp, h.shess, h.sg, quadraticForm_ofV]
  · rw [rnorm_smul, abs_of_nonneg a0]
    exact (mul_le_of_le_one_left (rnorm_nonneg _) a1).trans e6
  · have hx : I.x = ofV x := h.x
    rw [hx, hs, hs0, vadd_ofV, vadd_ofV, ofV_inj] at hy
    rw [← hy]
    funext i
    simp only [Pi.add_apply, Pi.smul_apply, smul_eq_mul, Pi.zero_apply]
    ring

/-- the proposal of Steihaug's solver on a bounded problem: how much it reduces the model, and how long it is -/
theorem steihaug_proposal (O : Oracles Num) (h : RealData I x d g dv H delta theta) (hdel : 0 < delta) (h0 : 0 < theta) (h1 : theta ≤ 1)
    (hbox : InBox I.lb I.ub x) {Mh G : ℝ} (hM : 0 < Mh) (hG : 0 < G)
    (hcurv : ∀ v, rdot v (rmv (fun i j => d i * H i j * d j + if i = j then |g i| * dv i else 0) v) ≤ Mh * rdot v v)
    (hlow : ∀ v, -(Mh * rdot v v) ≤ rdot v (rmv (fun i j => d i * H i j * d j + if i = j then |g i| * dv i else 0) v))
    (hroom : ∀ r : ℝ, 0 ≤ r → r * G ≤ 1 → InBox I.lb I.ub (x - r • fun i => d i * (d i * g i))) (hg : (fun i => d i * g i) ≠ 0)
    (fuel : ℕ) (strat : StepBackStrategy) (st : Step Num n) (htr : trustRegion O fuel .steihaug strat I = .ok st) (y : Fin n → ℝ)
    (hy : vadd (vadd I.x st.s) st.s0 = ofV y) :
    ∃ p, vadd st.ss st.ss0 = ofV p ∧ InBox I.lb I.ub y ∧
      (let sg := fun i => d i * g i
       let B := fun i j => d i * H i j * d j + if i = j then |g i| * dv i else 0
       let b := rnorm sg * min (1 / Mh) (theta / G)
       st.qpval = fin (quad B sg p) ∧ quad B sg p ≤ -(rnorm sg / 2 * min delta b) ∧
       ((rnorm p ≤ delta ∧ y = x + fun i => d i * p i) ∨ (b / 3 ≤ rnorm p ∧ b ≤ delta))) := by
  rcases Nat.lt_or_ge 1 n with hn | hn
  · exact steihaug_proposal_many O h hn hdel h0 h1 hbox hM hG hcurv hlow hroom hg fuel strat st htr y hy
  · obtain rfl | rfl : n = 0 ∨ n = 1 := by omega
    · exact absurd (Subsingleton.elim _ _) hg
    · exact one_proposal O h hdel h0 h1 hbox hM hG hcurv hroom hg fuel .steihaug
        (fun st hst => one_steihaug (RealData.prob h h0 h1 hbox) (sym_scaled d (fun i => |g i| * dv i) h.sym) hdel hg fuel st hst) strat st htr y hy

end Fides
