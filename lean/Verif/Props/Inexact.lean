import Verif.Lemmas.InexactRun
import Verif.Props.Convex

/-!
# C91: the truncated-CG (Steihaug) solver converges superlinearly

Near a minimum with positive curvature, and on strongly convex problems from every starting point: unbounded problem, exact Hessian, `subspace_dim = scg`, exact arithmetic.
-/

namespace Fides
open Num Spec
variable {n : ℕ} {E : Env Num n} {f : (Fin n → ℝ) → ℝ} {g : (Fin n → ℝ) → Fin n → ℝ} {H : (Fin n → ℝ) → Fin n → Fin n → ℝ} {xs : Fin n → ℝ} {r m M L R mu eta g1 g2 D0 : ℝ}

/-- **C91, every iteration.** Unbounded problem, truncated-CG solver, exact Hessian.  Once the run has arrived (after `k` iterations, with trust radius `Dk`) in the basin of a minimum with
positive curvature, then in every later iteration: the objective is reduced, by at least `eta` times the predicted reduction, the step is accepted, the new point is in the basin, the trust
radius does not shrink and the step is at most `‖g‖ / m` long; and, as soon as `‖g‖ < m D`, the step solves Newton's equation up to a residual smaller than `min (1/2) (√‖g‖) ‖g‖`, so the
new gradient is of size `‖g‖^(3/2)`. -/
theorem C91_step (hE : TRParams E mu eta g1 g2 D0) (hU : NoBounds E.lb E.ub) (hT : UsesTrustRegion E) (hdim : E.opts.subspaceDim = .steihaug)
    (hR : Returns E f g H) (hC : CurvedMinimum r m L f g H xs) (hM0 : 0 < M) (hM : ∀ x, rnorm (x - xs) ≤ r → ∀ v, rdot v (rmv (H x) v) ≤ M * rdot v v)
    (hB : InexactSize r m M L eta R) (x0 : Fin n → ℝ) (startId : String) (hess0 : Hess0 Num) (st0 : St Num n) (happ : st0.happ = none)
    (ga : ℝ) (hga : E.opts.gatol = fin ga) (hga0 : 0 ≤ ga) (hstart : ga < rnorm (g x0))
    (k : ℕ) (stk : St Num n) (curk : Funout Num n) (xk : Fin n → ℝ) (Dk : ℝ) (hk : LoopHead E (ofV x0) startId hess0 st0 k stk curk)
    (hxk : stk.x = ofV xk) (hdk : stk.delta = fin Dk) (hDk : 0 < Dk) (hin : Basin r m R f xs xk)
    (j : ℕ) (prev next : St Num n) (cur cur' new : Funout Num n) (step : Step Num n)
    (h : LoopHead E (ofV x0) startId hess0 st0 (k + j) prev cur) (hp : Pass E prev cur step new next cur') :
    ∃ (x y : Fin n → ℝ) (D D' rho : ℝ), prev.x = ofV x ∧ next.x = ofV y ∧ trialPoint prev step = ofV y ∧ f y < f x ∧ Basin r m R f xs x ∧ Basin r m R f xs y ∧
      next.trRatio = fin rho ∧ eta ≤ rho ∧ prev.delta = fin D ∧ next.delta = fin D' ∧ Dk ≤ D ∧ (D' = D ∨ D' = g2 * D) ∧ m * rnorm (y - x) ≤ rnorm (g x) ∧
      (rnorm (g x) < m * D →
        rnorm (g x + rmv (H x) (y - x)) < min (1 / 2) (Real.sqrt (rnorm (g x))) * rnorm (g x) ∧
        rnorm (g y) ≤ min (1 / 2) (Real.sqrt (rnorm (g x))) * rnorm (g x) + L / (2 * (m * m)) * rnorm (g x) ^ 2) := by
  have hev := hR.evaluates
  have hm := hC.m_pos
  obtain ⟨x, D, h1, h2, h3, h4, h5, h6, h7⟩ := inexact_head hE hU hT hdim hR hC hM0 hM hB x0 startId hess0 st0 happ ga hga hga0 hstart k stk curk xk Dk hk hxk hdk hDk hin j prev cur h
  have hD : 0 < D := hDk.trans_le h6
  have hg0 := gnz hga0 (local_live hU hR x0 startId hess0 st0 ga hga hstart (k + j) prev cur h (continues_live E _ _ hp.continues) x h3)
  obtain ⟨p, -, a0, a1, -, -, b1, b2, b3, b4, a5, b5, b6⟩ := inexact_pass hE hU hT hdim hev hC hM0 hM hB hp x D h1 h2 h3 h4 h5 hD h7 hg0
  have hsub : x + p - x = p := add_sub_cancel_left x p
  have hq : rnorm (g x) < m * D →
      rnorm (g x + rmv (H x) (x + p - x)) < min (1 / 2) (Real.sqrt (rnorm (g x))) * rnorm (g x) ∧
      rnorm (g (x + p)) ≤ min (1 / 2) (Real.sqrt (rnorm (g x))) * rnorm (g x) + L / (2 * (m * m)) * rnorm (g x) ^ 2 := by
    intro hK
    have h8 := b6 hK
    rw [hsub]
    refine ⟨h8, ?_⟩
    have h9 := hC.grad_step h7.1 b4.1
    have h10 : rnorm p ≤ rnorm (g x) / m := by rw [le_div_iff₀ hm]; linarith
    have h11 : rnorm p * rnorm p ≤ rnorm (g x) / m * (rnorm (g x) / m) := mul_self_le_mul_self (rnorm_nonneg _) h10
    have h12 : L / 2 * (rnorm p * rnorm p) ≤ L / 2 * (rnorm (g x) / m * (rnorm (g x) / m)) :=
      mul_le_mul_of_nonneg_left h11 (by have := hC.L_nonneg; linarith)
    have h13 : L / 2 * (rnorm (g x) / m * (rnorm (g x) / m)) = L / (2 * (m * m)) * rnorm (g x) ^ 2 := by
      field_simp
    linarith
  rcases a5 with hd | hd
  · exact ⟨x, x + p, D, D, _, h1, a1, a0, b3, h7, b4, b1, b2, h5, hd, h6, Or.inl rfl, by rw [hsub]; exact b5, hq⟩
  · exact ⟨x, x + p, D, g2 * D, _, h1, a1, a0, b3, h7, b4, b1, b2, h5, hd, h6, Or.inr rfl, by rw [hsub]; exact b5, hq⟩

/-- one step of the recursion for the scaled gradient length -/
theorem rate_step (hm : 0 < m) (hL : 0 ≤ L) {G G' a : ℝ} (hG : 0 ≤ G) (ha : 0 ≤ a) (ha4 : a ≤ 1 / 4) (hGa : rateConst m L ^ 2 * G ≤ a)
    (hG' : G' ≤ min (1 / 2) (Real.sqrt G) * G + L / (2 * (m * m)) * G ^ 2) : rateConst m L ^ 2 * G' ≤ a * Real.sqrt a := by
  set C := rateConst m L with hCdef
  have hC1 : 1 ≤ C := by
    rw [hCdef, rateConst]
    have : 0 ≤ L / (4 * (m * m)) := by positivity
    linarith
  have hC2 : 1 ≤ C ^ 2 := one_le_pow₀ hC1
  have hG4 : G ≤ 1 / 4 := by
    have := mul_le_mul_of_nonneg_right hC2 hG
    linarith
  set s := Real.sqrt G with hs
  have hs0 : 0 ≤ s := Real.sqrt_nonneg _
  have hss : s * s = G := Real.mul_self_sqrt hG
  have hs2 : s ≤ 1 / 2 := by nlinarith
  have hmin : min (1 / 2) s * G ≤ s * G := mul_le_mul_of_nonneg_right (min_le_right _ _) hG
  have h1 : L / (2 * (m * m)) * G ^ 2 ≤ L / (4 * (m * m)) * (s * G) := by
    have e : L / (2 * (m * m)) * G ^ 2 = L / (4 * (m * m)) * (2 * s * (s * G)) := by rw [← hss]; field_simp; ring
    rw [e]
    refine mul_le_mul_of_nonneg_left ?_ (by positivity)
    nlinarith [mul_nonneg hs0 hG]
  have h2 : G' ≤ C * (s * G) := by
    rw [hCdef, rateConst]; linarith
  have hC0 : 0 ≤ C := by linarith
  have h3 : (C * s) ^ 2 ≤ a := by
    rw [mul_pow, pow_two s, hss]; exact hGa
  have h4 : C * s ≤ Real.sqrt a := Real.le_sqrt_of_sq_le h3
  calc C ^ 2 * G' ≤ C ^ 2 * (C * (s * G)) := mul_le_mul_of_nonneg_left h2 (sq_nonneg _)
    _ = (C ^ 2 * G) * (C * s) := by ring
    _ ≤ a * Real.sqrt a := mul_le_mul hGa h4 (mul_nonneg hC0 hs0) ha

theorem rate_pow (t : ℝ) : ((1 : ℝ) / 4) ^ t * Real.sqrt ((1 / 4) ^ t) = (1 / 4) ^ (3 / 2 * t) := by
  rw [Real.sqrt_eq_rpow, ← Real.rpow_mul (by norm_num), ← Real.rpow_add (by norm_num)]
  congr 1
  ring

theorem rate_le (j : ℕ) : ((1 : ℝ) / 4) ^ ((3 / 2 : ℝ) ^ j) ≤ 1 / 4 := by
  have h : (1 : ℝ) ≤ (3 / 2) ^ j := one_le_pow₀ (by norm_num)
  calc ((1 : ℝ) / 4) ^ ((3 / 2 : ℝ) ^ j) ≤ (1 / 4) ^ (1 : ℝ) := Real.rpow_le_rpow_of_exponent_ge (by norm_num) (by norm_num) h
    _ = 1 / 4 := Real.rpow_one _

/-- **C91, rate.** Under the assumptions of `C91_step`, from the moment when the gradient is shorter than `m Dk` and than `1 / (4 C²)`, where `C = 1 + L / (4 m²)`: after `j` more
iterations `C² ‖g‖` is at most `(1/4)^((3/2)^j)`, and the distance from the minimizer is at most `‖g‖ / m`. -/
theorem C91_rate (hE : TRParams E mu eta g1 g2 D0) (hU : NoBounds E.lb E.ub) (hT : UsesTrustRegion E) (hdim : E.opts.subspaceDim = .steihaug)
    (hR : Returns E f g H) (hC : CurvedMinimum r m L f g H xs) (hM0 : 0 < M) (hM : ∀ x, rnorm (x - xs) ≤ r → ∀ v, rdot v (rmv (H x) v) ≤ M * rdot v v)
    (hB : InexactSize r m M L eta R) (x0 : Fin n → ℝ) (startId : String) (hess0 : Hess0 Num) (st0 : St Num n) (happ : st0.happ = none)
    (ga : ℝ) (hga : E.opts.gatol = fin ga) (hga0 : 0 ≤ ga) (hstart : ga < rnorm (g x0))
    (k : ℕ) (stk : St Num n) (curk : Funout Num n) (xk : Fin n → ℝ) (Dk : ℝ) (hk : LoopHead E (ofV x0) startId hess0 st0 k stk curk)
    (hxk : stk.x = ofV xk) (hdk : stk.delta = fin Dk) (hDk : 0 < Dk) (hin : Basin r m R f xs xk)
    (hsmall : rnorm (g xk) < m * Dk) (hfast : rateConst m L ^ 2 * rnorm (g xk) ≤ 1 / 4)
    (j : ℕ) (st : St Num n) (cur : Funout Num n) (h : LoopHead E (ofV x0) startId hess0 st0 (k + j) st cur) :
    ∃ x : Fin n → ℝ, st.x = ofV x ∧ rateConst m L ^ 2 * rnorm (g x) ≤ (1 / 4) ^ ((3 / 2 : ℝ) ^ j) ∧ m * rnorm (x - xs) ≤ rnorm (g x) := by
  have hm := hC.m_pos
  have hL := hC.L_nonneg
  have hC1 : 1 ≤ rateConst m L := by
    rw [rateConst]
    have : 0 ≤ L / (4 * (m * m)) := by positivity
    linarith
  have key : ∀ (st : St Num n) (cur : Funout Num n), LoopHead E (ofV x0) startId hess0 st0 (k + j) st cur →
      ∃ x : Fin n → ℝ, st.x = ofV x ∧ rateConst m L ^ 2 * rnorm (g x) ≤ (1 / 4) ^ ((3 / 2 : ℝ) ^ j) ∧ rnorm (g x) ≤ rnorm (g xk) ∧ rnorm (x - xs) ≤ r := by
    clear h st cur
    induction j with
    | zero =>
      intro st cur h
      obtain ⟨rfl, rfl⟩ := loopHead_unique E _ startId hess0 st0 k _ _ _ _ hk h
      refine ⟨xk, hxk, ?_, le_rfl, hin.1⟩
      rw [pow_zero, Real.rpow_one]; exact hfast
    | succ j ih =>
      intro st cur h
      obtain ⟨prev, cur0, step, new, hh, hp⟩ := loopHead_pass E _ startId hess0 st0 (k + j) st cur h
      obtain ⟨x', h1, h2, h3, -⟩ := ih prev cur0 hh
      obtain ⟨x, y, D, D', rho, a1, a2, -, -, -, a7, -, -, -, -, a5, -, -, a3⟩ := C91_step hE hU hT hdim hR hC hM0 hM hB x0 startId hess0 st0 happ ga hga hga0 hstart
        k stk curk xk Dk hk hxk hdk hDk hin j prev st cur0 cur new step hh hp
      obtain rfl : x = x' := ofV_inj.mp (a1.symm.trans h1)
      obtain ⟨-, a4⟩ := a3 (by
        have := mul_le_mul_of_nonneg_left a5 hm.le
        linarith)
      have ha0 : (0 : ℝ) ≤ (1 / 4) ^ ((3 / 2 : ℝ) ^ j) := Real.rpow_nonneg (by norm_num) _
      have h5 := rate_step hm hL (rnorm_nonneg _) ha0 (rate_le j) h2 a4
      have h6 := rate_step hm hL (rnorm_nonneg _) (mul_nonneg (sq_nonneg _) (rnorm_nonneg _)) (h2.trans (rate_le j)) le_rfl a4
      rw [rate_pow] at h5
      refine ⟨y, a2, ?_, ?_, a7.1⟩
      · rw [pow_succ (3 / 2 : ℝ), mul_comm ((3 / 2 : ℝ) ^ j)]; exact h5
      · refine le_trans ?_ h3
        have h7 : Real.sqrt (rateConst m L ^ 2 * rnorm (g x)) ≤ 1 := by
          rw [Real.sqrt_le_one]
          linarith [h2.trans (rate_le j)]
        have h8 : rateConst m L ^ 2 * rnorm (g y) ≤ rateConst m L ^ 2 * rnorm (g x) :=
          h6.trans (mul_le_of_le_one_right (mul_nonneg (sq_nonneg _) (rnorm_nonneg _)) h7)
        exact le_of_mul_le_mul_left h8 (by positivity)
  obtain ⟨x, h1, h2, -, h3⟩ := key st cur h
  exact ⟨x, h1, h2, hC.strong h3⟩

/-- the loop heads of a run on a strongly convex problem: either all gradients so far are at least `eps` long, or one was shorter and the radius was then at least `radiusFloor` -/
theorem inexact_first (hE : TRParams E mu eta g1 g2 D0) (hU : NoBounds E.lb E.ub) (hT : UsesTrustRegion E) (hdim : E.opts.subspaceDim = .steihaug)
    (hR : Returns E f g H) (hS : StronglyConvex m M L f g H) (hs : g xs = 0) (x0 : Fin n → ℝ) (startId : String) (hess0 : Hess0 Num) (st0 : St Num n) (happ : st0.happ = none)
    (eps : ℝ) (he : 0 < eps) (k : ℕ) (st : St Num n) (cur : Funout Num n) (h : LoopHead E (ofV x0) startId hess0 st0 k st cur) :
    (k < iterBound mu g1 g2 D0 M M (f x0 - f xs) eps ∧ ∃ x D, st.x = ofV x ∧ st.delta = fin D ∧ radiusFloor mu g1 D0 M M eps ≤ D) ∨
      ∃ k0 ≤ k, k0 < iterBound mu g1 g2 D0 M M (f x0 - f xs) eps ∧ ∃ stk curk xk Dk, LoopHead E (ofV x0) startId hess0 st0 k0 stk curk ∧ stk.x = ofV xk ∧ stk.delta = fin Dk ∧
        radiusFloor mu g1 D0 M M eps ≤ Dk ∧ rnorm (g xk) < eps := by
  classical
  have hM0 : 0 < M := hS.m_pos.trans_le hS.m_le
  have hev := hR.evaluates
  have habs : ∀ x, Sym (H x) ∧ ∀ v, |rdot v (rmv (H x) v)| ≤ M * rdot v v := fun x => ⟨hS.symmetric x, fun v => by
    rw [abs_of_nonneg (le_trans (mul_nonneg hS.m_pos.le (rdot_self_nonneg v)) (hS.lower x v))]
    exact hS.upper x v⟩
  have hdec : Decreasing E g M (eps / 2) (eps / M) (eps / M) eps x0 startId hess0 st0 := fun j prev cur step new next cur' hh hp =>
    steihaug_decrease hE hU hT hdim hM0 he hp (fun x hx => ⟨H x, returned_hess hU hR _ startId hess0 st0 happ j prev cur hh x hx, habs x⟩)
  have hvis := fun k st cur hh hk => visits_of hE hU hev hS.smooth (f xs) (steihaugConst M M eps hM0.le hM0 he) (hS.min hs) x0 startId hess0 st0 eps hdec k st cur hh
    (iterBound mu g1 g2 D0 M M (f x0 - f xs) eps) (iterBound_eq _ _ _ _) hk
  have hcnt := run_counted hE hU hev M M hS.smooth (steihaugConst M M eps hM0.le hM0 he) x0 startId hess0 st0 hdec
  let P : ℕ → Prop := fun j => ∃ st' cur' x', LoopHead E (ofV x0) startId hess0 st0 j st' cur' ∧ st'.x = ofV x' ∧ rnorm (g x') < eps
  by_cases hex : ∃ j, j ≤ k ∧ P j
  · right
    have hfind := Nat.find_spec hex
    set k0 := Nat.find hex with hk0
    have hmin : ∀ j < k0, ¬ P j := fun j hj hP => Nat.find_min hex hj ⟨by omega, hP⟩
    obtain ⟨hk0k, stk, curk, xk, b1, b2, b3⟩ := hfind
    have hlt : k0 < iterBound mu g1 g2 D0 M M (f x0 - f xs) eps := by
      by_contra hcon
      push Not at hcon
      obtain ⟨j, hj, st', cur', x', c1, c2, c3⟩ := hvis k0 stk curk b1 hcon
      exact hmin j (by omega) ⟨st', cur', x', c1, c2, c3⟩
    obtain ⟨x, D, G, K, hc⟩ := hcnt k0 stk curk b1 (fun j hj st' cur' x' c1 c2 => by
      by_contra hcon
      exact hmin j hj ⟨st', cur', x', c1, c2, not_le.mp hcon⟩)
    exact ⟨k0, hk0k, hlt, stk, curk, xk, D, b1, b2, hc.delta, hc.lower, b3⟩
  · left
    push Not at hex
    obtain ⟨x, D, G, K, hc⟩ := hcnt k st cur h (fun j hj st' cur' x' c1 c2 => by
      by_contra hcon
      exact hex j hj.le ⟨st', cur', x', c1, c2, not_le.mp hcon⟩)
    refine ⟨?_, x, D, hc.hx, hc.delta, hc.lower⟩
    by_contra hcon
    push Not at hcon
    obtain ⟨j, hj, st', cur', x', c1, c2, c3⟩ := hvis k st cur h hcon
    exact hex j (by omega) ⟨st', cur', x', c1, c2, c3⟩

theorem inexact_entry (hS : StronglyConvex m M L f g H) (hs : g xs = 0) (hR0 : 0 < R) {x : Fin n → ℝ} (h : rnorm (g x) < m * R) : Basin ((1 + M / m) * R) m R f xs x := by
  have hm := hS.m_pos
  have hM0 : 0 < M := hm.trans_le hS.m_le
  constructor
  · have h1 := (hS.curved hs (rnorm (x - xs))).strong le_rfl
    have h2 : rnorm (x - xs) ≤ R := le_of_mul_le_mul_left (h1.trans h.le) hm
    have : 0 ≤ M / m * R := by positivity
    linarith
  · have h1 := hS.gap x xs
    have h2 : rnorm (g x) * rnorm (g x) ≤ m * R * (m * R) := mul_self_le_mul_self (rnorm_nonneg _) h.le
    refine h1.trans ?_
    rw [div_le_iff₀ (by linarith)]
    nlinarith

theorem radiusFloor_pos (hE : TRParams E mu eta g1 g2 D0) (hm : 0 < m) (hmM : m ≤ M) (hR0 : 0 < R) : 0 < radiusFloor mu g1 D0 M M (m * R) :=
  (steihaugConst M M (m * R) (hm.trans_le hmM).le (hm.trans_le hmM) (mul_pos hm hR0)).lo_pos hE

/-- every loop head of such a run, with the floor of the radius -/
theorem inexact_live (hE : TRParams E mu eta g1 g2 D0) (hU : NoBounds E.lb E.ub) (hT : UsesTrustRegion E) (hdim : E.opts.subspaceDim = .steihaug)
    (hR : Returns E f g H) (hS : StronglyConvex m M L f g H) (hs : g xs = 0) (hB : InexactSize ((1 + M / m) * R) m M L eta R)
    (x0 : Fin n → ℝ) (startId : String) (hess0 : Hess0 Num) (st0 : St Num n) (happ : st0.happ = none)
    (ga : ℝ) (hga : E.opts.gatol = fin ga) (hga0 : 0 ≤ ga) (hstart : ga < rnorm (g x0))
    (k : ℕ) (st : St Num n) (cur : Funout Num n) (h : LoopHead E (ofV x0) startId hess0 st0 k st cur) :
    ∃ x D, st.x = ofV x ∧ cur.x = ofV x ∧ st.fval = fin (f x) ∧ st.grad = ofV (g x) ∧ st.delta = fin D ∧ radiusFloor mu g1 D0 M M (m * R) ≤ D ∧ 0 < D ∧
      (rnorm (g x) < m * R → Basin ((1 + M / m) * R) m R f xs x) := by
  have hlo := radiusFloor_pos (R := R) hE hS.m_pos hS.m_le hB.pos
  have hM0 : 0 < M := hS.m_pos.trans_le hS.m_le
  have hev := hR.evaluates
  have hfin : ∀ x D, st.x = ofV x → st.delta = fin D → radiusFloor mu g1 D0 M M (m * R) ≤ D →
      ∃ x D, st.x = ofV x ∧ cur.x = ofV x ∧ st.fval = fin (f x) ∧ st.grad = ofV (g x) ∧ st.delta = fin D ∧ radiusFloor mu g1 D0 M M (m * R) ≤ D ∧ 0 < D ∧
        (rnorm (g x) < m * R → Basin ((1 + M / m) * R) m R f xs x) := by
    intro x D h1 h2 h3
    obtain ⟨a1, a2, a3⟩ := head_values hU hev _ startId hess0 st0 k st cur h x h1
    exact ⟨x, D, h1, a1, a2, a3, h2, h3, hlo.trans_le h3, inexact_entry hS hs hB.pos⟩
  rcases inexact_first hE hU hT hdim hR hS hs x0 startId hess0 st0 happ (m * R) (mul_pos hS.m_pos hB.pos) _ st cur h with
    ⟨-, x, D, h1, h2, h3⟩ | ⟨k0, hk0k, hk0, stk, curk, xk, Dk, b1, b2, b3, b4, b5⟩
  · exact hfin x D h1 h2 h3
  · obtain ⟨d, rfl⟩ := Nat.exists_eq_add_of_le hk0k
    obtain ⟨x, D, h1, -, -, -, h5, h6, -⟩ := inexact_head hE hU hT hdim hR (hS.curved hs ((1 + M / m) * R)) hM0 (fun x _ => hS.upper x) hB x0 startId hess0 st0 happ ga hga hga0 hstart
      k0 stk curk xk Dk b1 b2 b3 (hlo.trans_le b4) (inexact_entry hS hs hB.pos b5) d st cur h
    exact hfin x D h1 h5 (b4.trans h6)

/-- **C91, global rate.** Let the objective be strongly convex (curvatures between `m > 0` and `M`, Lipschitz continuous Hessian) with minimizer `xs`, and the problem have no bounds and be solved
with the truncated-CG solver.  Then from every starting point, whatever the tolerances and limits: after `iterBound + j` iterations (if the run is that long) `C² ‖g‖` is at most
`(1/4)^((3/2)^j)` and the distance from the minimizer is at most `‖g‖ / m`. -/
theorem C91_global (hE : TRParams E mu eta g1 g2 D0) (hU : NoBounds E.lb E.ub) (hT : UsesTrustRegion E) (hdim : E.opts.subspaceDim = .steihaug)
    (hR : Returns E f g H) (hS : StronglyConvex m M L f g H) (hs : g xs = 0) (hB : InexactSize ((1 + M / m) * R) m M L eta R)
    (x0 : Fin n → ℝ) (startId : String) (hess0 : Hess0 Num) (st0 : St Num n) (happ : st0.happ = none)
    (ga : ℝ) (hga : E.opts.gatol = fin ga) (hga0 : 0 ≤ ga) (hstart : ga < rnorm (g x0))
    (eps : ℝ) (he : 0 < eps) (he1 : eps ≤ m * R) (he2 : eps ≤ m * radiusFloor mu g1 D0 M M (m * R)) (he3 : rateConst m L ^ 2 * eps ≤ 1 / 4)
    (j : ℕ) (st : St Num n) (cur : Funout Num n)
    (h : LoopHead E (ofV x0) startId hess0 st0 (iterBound mu g1 g2 D0 M M (f x0 - f xs) eps + j) st cur) :
    ∃ x : Fin n → ℝ, st.x = ofV x ∧ rateConst m L ^ 2 * rnorm (g x) ≤ (1 / 4) ^ ((3 / 2 : ℝ) ^ j) ∧ m * rnorm (x - xs) ≤ rnorm (g x) := by
  have hM0 : 0 < M := hS.m_pos.trans_le hS.m_le
  rcases inexact_first hE hU hT hdim hR hS hs x0 startId hess0 st0 happ eps he _ st cur h with ⟨hk, -⟩ | ⟨k0, -, hk0, stk, curk, xk, -, b1, b2, -, -, b5⟩
  · omega
  · obtain ⟨d, hd⟩ := Nat.exists_eq_add_of_le hk0.le
    obtain ⟨x', D, c1, -, -, -, c5, c6, c7, c8⟩ := inexact_live hE hU hT hdim hR hS hs hB x0 startId hess0 st0 happ ga hga hga0 hstart k0 stk curk b1
    obtain rfl : x' = xk := ofV_inj.mp (c1.symm.trans b2)
    have hmD : m * radiusFloor mu g1 D0 M M (m * R) ≤ m * D := mul_le_mul_of_nonneg_left c6 hS.m_pos.le
    obtain ⟨x, h1, h2, h3⟩ := C91_rate hE hU hT hdim hR (hS.curved hs ((1 + M / m) * R)) hM0 (fun x _ => hS.upper x) hB x0 startId hess0 st0 happ ga hga hga0 hstart
      k0 stk curk x' D b1 b2 c5 c7 (c8 (b5.trans_le he1)) (by linarith) (le_trans (mul_le_mul_of_nonneg_left b5.le (sq_nonneg _)) he3) (d + j) st cur
      (by rw [← add_assoc, ← hd]; exact h)
    refine ⟨x, h1, h2.trans ?_, h3⟩
    refine Real.rpow_le_rpow_of_exponent_ge (by norm_num) (by norm_num) ?_
    exact pow_le_pow_right₀ (by norm_num) (by omega)

/-- **C91, number of iterations.** Such a run makes at most `iterBound + J` iterations, for every `J` with `(1/4)^((3/2)^J) ≤ C² gatol`: the part that depends on the tolerance grows like the
logarithm of the logarithm of `1 / gatol`. -/
theorem C91_iterations (hE : TRParams E mu eta g1 g2 D0) (hU : NoBounds E.lb E.ub) (hT : UsesTrustRegion E) (hdim : E.opts.subspaceDim = .steihaug)
    (hR : Returns E f g H) (hS : StronglyConvex m M L f g H) (hs : g xs = 0) (hB : InexactSize ((1 + M / m) * R) m M L eta R)
    (x0 : Fin n → ℝ) (startId : String) (hess0 : Hess0 Num) (st0 : St Num n) (happ : st0.happ = none)
    (ga : ℝ) (hga : E.opts.gatol = fin ga) (hga0 : 0 ≤ ga) (hstart : ga < rnorm (g x0))
    (eps : ℝ) (he : 0 < eps) (he1 : eps ≤ m * R) (he2 : eps ≤ m * radiusFloor mu g1 D0 M M (m * R)) (he3 : rateConst m L ^ 2 * eps ≤ 1 / 4)
    (J : ℕ) (hJ : (1 / 4) ^ ((3 / 2 : ℝ) ^ J) ≤ rateConst m L ^ 2 * ga)
    (k : ℕ) (st : St Num n) (cur : Funout Num n) (h : LoopHead E (ofV x0) startId hess0 st0 k st cur) :
    k ≤ iterBound mu g1 g2 D0 M M (f x0 - f xs) eps + J := by
  by_contra hcon
  push Not at hcon
  have hC1 : 1 ≤ rateConst m L := by
    rw [rateConst]
    have := hS.m_pos
    have := hS.L_nonneg
    have : 0 ≤ L / (4 * (m * m)) := by positivity
    linarith
  obtain ⟨st1, cur1, h1⟩ := loopHead_prefix E _ startId hess0 st0 k st cur h (iterBound mu g1 g2 D0 M M (f x0 - f xs) eps + J + 1) (by omega)
  obtain ⟨prev, cur0, step, new, hh, hp⟩ := loopHead_pass E _ startId hess0 st0 _ st1 cur1 h1
  obtain ⟨x, a1, a2, -⟩ := C91_global hE hU hT hdim hR hS hs hB x0 startId hess0 st0 happ ga hga hga0 hstart eps he he1 he2 he3 J prev cur0 hh
  obtain ⟨-, -, a3⟩ := head_values hU hR.evaluates _ startId hess0 st0 _ prev cur0 hh x a1
  have hlive := local_live hU hR x0 startId hess0 st0 ga hga hstart _ prev cur0 hh (continues_live E _ _ hp.continues) x a3
  have : rnorm (g x) ≤ ga := le_of_mul_le_mul_left (a2.trans hJ) (by positivity)
  linarith

theorem inexact_form (hE : TRParams E mu eta g1 g2 D0) (hU : NoBounds E.lb E.ub) (hT : UsesTrustRegion E) (hdim : E.opts.subspaceDim = .steihaug)
    (hR : Returns E f g H) (hS : StronglyConvex m M L f g H) (x0 : Fin n → ℝ) (startId : String) (hess0 : Hess0 Num) (st0 : St Num n) (happ : st0.happ = none)
    (k : ℕ) (prev : St Num n) (cur : Funout Num n) (step : Step Num n) (new : Funout Num n) (next : St Num n) (cur' : Funout Num n)
    (hh : LoopHead E (ofV x0) startId hess0 st0 k prev cur) (hp : Pass E prev cur step new next cur')
    (x : Fin n → ℝ) (D : ℝ) (hx : prev.x = ofV x) (hg : prev.grad = ofV (g x)) (hd : prev.delta = fin D) (hD : 0 < D) (hg0 : g x ≠ 0) :
    ∃ p : Fin n → ℝ, vadd step.ss step.ss0 = ofV p ∧ vadd (vadd prev.x step.s) step.s0 = ofV (x + p) := by
  have hM0 : 0 < M := hS.m_pos.trans_le hS.m_le
  have hpr := hp.proposal
  obtain ⟨O, fuel, hO⟩ := hT
  rw [hO, hdim] at hpr
  obtain ⟨th, hP⟩ := unbounded_data hE hU { prev with iteration := prev.iteration + 1, deltaIter := prev.delta, ticks := prev.ticks + 1 } x (g x) (H x) D hx hg
    (returned_hess hU hR _ startId hess0 st0 happ k prev cur hh x hx) hd
  rw [C51_one_candidate _ _ _ _ _ hU th hP.theta hP.th0] at hpr
  obtain ⟨p, h1, h2, -⟩ := stepSteihaug_unbounded hP hU (hS.symmetric x) hD hM0 (hS.upper x) hg0 fuel step hpr
  exact ⟨p, h1, by rw [hx]; exact h2⟩

/-- the evaluations of such a run: at every loop head there is at least one, and all are real values of the objective -/
theorem inexact_evals (hE : TRParams E mu eta g1 g2 D0) (hU : NoBounds E.lb E.ub) (hT : UsesTrustRegion E) (hdim : E.opts.subspaceDim = .steihaug)
    (hR : Returns E f g H) (hS : StronglyConvex m M L f g H) (hs : g xs = 0) (hB : InexactSize ((1 + M / m) * R) m M L eta R)
    (x0 : Fin n → ℝ) (startId : String) (hess0 : Hess0 Num) (st0 : St Num n) (happ : st0.happ = none)
    (ga : ℝ) (hga : E.opts.gatol = fin ga) (hga0 : 0 ≤ ga) (hstart : ga < rnorm (g x0))
    (k : ℕ) (st : St Num n) (cur : Funout Num n) (h : LoopHead E (ofV x0) startId hess0 st0 k st cur) :
    ∃ (c : EvalRec Num n) (l : List (EvalRec Num n)), st.evals = (c :: l) ++ st0.evals ∧
      ∀ r ∈ c :: l, ∃ (z : Fin n → ℝ) (fo : Funout Num n), r = { arg := ofV z, out := .ok fo } ∧ fo.x = ofV z ∧ fo.fval = fin (f z) ∧ fo.grad = ofV (g z) := by
  have hev := hR.evaluates
  induction k generalizing st cur with
  | zero =>
    obtain ⟨l, fo0, h1, h2, h3, -, -, h4, -⟩ := (headInv E _ startId hess0 st0 0 st cur h).evals
    obtain rfl : l = [] := List.length_eq_zero_iff.mp h2
    obtain ⟨m', raw, h5, h6⟩ := head_evaluated E _ startId hess0 st0 0 st cur h
    simp only [List.nil_append, List.mem_singleton, EvalRec.mk.injEq, Except.ok.injEq] at h4
    obtain ⟨h7, rfl⟩ := h4
    rw [C51_nudge _ _ _ hU] at h7
    rw [h7] at h5 h6
    obtain ⟨h8, h9⟩ := hev m' x0 _ raw cur h5 h6
    refine ⟨{ arg := ofV x0, out := .ok cur }, [], by rw [h1, C51_nudge _ _ _ hU]; rfl, ?_⟩
    intro r hr
    simp only [List.mem_singleton] at hr
    exact ⟨x0, cur, hr, h7, h8, h9⟩
  | succ k ih =>
    obtain ⟨prev, cur0, step, new, hh, hp⟩ := loopHead_pass E _ startId hess0 st0 k st cur h
    obtain ⟨c, l, h1, h2⟩ := ih prev cur0 hh
    obtain ⟨x, D, hx, -, -, hg, hd, -, hD, -⟩ := inexact_live hE hU hT hdim hR hS hs hB x0 startId hess0 st0 happ ga hga hga0 hstart k prev cur0 hh
    have hgr := local_live hU hR x0 startId hess0 st0 ga hga hstart k prev cur0 hh (continues_live E prev _ hp.continues) x hg
    obtain ⟨p, -, a3⟩ := inexact_form hE hU hT hdim hR hS x0 startId hess0 st0 happ k prev cur0 step new st cur hh hp x D hx hg hd hD (gnz hga0 hgr)
    obtain ⟨b3, b4, b5⟩ := pass_evaluates hev hp _ a3
    refine ⟨{ arg := ofV (x + p), out := .ok new }, c :: l, by rw [hp.evaluated, h1, a3]; rfl, ?_⟩
    intro r hr
    rcases List.mem_cons.mp hr with rfl | hr
    · exact ⟨x + p, new, rfl, b3, b4, b5⟩
    · exact h2 r hr

/-- **C91, total correctness.** With the other tolerances switched off, no time limit, an iteration limit of at least the bound and a radius floor above machine precision: from every starting
point that does not already satisfy the gradient tolerance `minimize` returns normally with flag `gtol`, after at most `iterBound + J` iterations.  The value of the best point `xMin`
exceeds the minimum by at most `gatol² / (2 m)`, and it is within `gatol / m` of the minimizer. -/
theorem C91_minimizer (hn : 0 < n) (hE : TRParams E mu eta g1 g2 D0) (hU : NoBounds E.lb E.ub) (O : ℕ → Oracles Num)
    (hO : ∀ k I, E.tr k I = trustRegion (O k) n E.opts.subspaceDim E.opts.stepbackStrat I) (hdim : E.opts.subspaceDim = .steihaug)
    (hR : Returns E f g H) (hS : StronglyConvex m M L f g H) (hs : g xs = 0) (hB : InexactSize ((1 + M / m) * R) m M L eta R)
    (x0 : Fin n → ℝ) (startId : String) (hess0 : Hess0 Num) (st0 : St Num n) (happ : st0.happ = none)
    (hevs : ∀ m, ∃ r, E.evs m = .ok r) (hcond : ∀ m, ∃ r, E.cond m = .ok r) (hfile : ∀ grp ∈ st0.file, grp.1 ≠ startId)
    (ga : ℝ) (hga : E.opts.gatol = fin ga) (hga0 : 0 < ga) (hstart : ga < rnorm (g x0))
    (hgr : E.opts.grtol = fin 0) (hfa : E.opts.fatol = fin 0) (hfr : E.opts.frtol = fin 0) (hxt : E.opts.xtol = fin 0)
    (eps : ℝ) (he : 0 < eps) (he1 : eps ≤ m * R) (he2 : eps ≤ m * radiusFloor mu g1 D0 M M (m * R)) (he3 : rateConst m L ^ 2 * eps ≤ 1 / 4)
    (J : ℕ) (hJ : (1 / 4) ^ ((3 / 2 : ℝ) ^ J) ≤ rateConst m L ^ 2 * ga)
    (loops : ℕ) (hloops : iterBound mu g1 g2 D0 M M (f x0 - f xs) eps + J + 1 ≤ loops)
    (hiter : ((iterBound mu g1 g2 D0 M M (f x0 - f xs) eps + J + 1 : ℕ) : ℤ) ≤ E.opts.maxiter) (htime : E.opts.maxtime = pinf)
    (hclock : ∀ k, ∃ t : ℝ, E.clock k = fin t) (hfloor : 1 / 4503599627370496 ≤ radiusFloor mu g1 D0 M M (m * R)) :
    ∃ st', minimize E loops (ofV x0) startId hess0 st0 = .ok st' ∧ st'.exitflag = .gtol ∧ st'.iteration ≤ iterBound mu g1 g2 D0 M M (f x0 - f xs) eps + J ∧
      ∃ x : Fin n → ℝ, st'.xMin = ofV x ∧ st'.fvalMin = fin (f x) ∧ st'.gradMin = ofV (g x) ∧ f x - f xs ≤ ga * ga / (2 * m) ∧ rnorm (x - xs) ≤ ga / m := by
  have hev := hR.evaluates
  have hM0 : 0 < M := hS.m_pos.trans_le hS.m_le
  have hT : UsesTrustRegion E := ⟨O, n, hO⟩
  have habs : ∀ x, Sym (H x) ∧ ∀ v, |rdot v (rmv (H x) v)| ≤ M * rdot v v := fun x => ⟨hS.symmetric x, fun v => by
    rw [abs_of_nonneg (le_trans (mul_nonneg hS.m_pos.le (rdot_self_nonneg v)) (hS.lower x v))]
    exact hS.upper x v⟩
  have hstop := C91_iterations hE hU hT hdim hR hS hs hB x0 startId hess0 st0 happ ga hga hga0.le hstart eps he he1 he2 he3 J hJ
  have hlive : ∀ k st cur, LoopHead E (ofV x0) startId hess0 st0 k st cur →
      ∃ x D, st.x = ofV x ∧ cur.x = ofV x ∧ st.fval = fin (f x) ∧ st.grad = ofV (g x) ∧ st.delta = fin D ∧ radiusFloor mu g1 D0 M M (m * R) ≤ D ∧ 0 < D := by
    intro k st cur hh
    obtain ⟨x, D, h1, h2, h3, h4, h5, h6, h7, -⟩ := inexact_live hE hU hT hdim hR hS hs hB x0 startId hess0 st0 happ ga hga hga0.le hstart k st cur hh
    exact ⟨x, D, h1, h2, h3, h4, h5, h6, h7⟩
  have hprop : ∀ k st cur, LoopHead E (ofV x0) startId hess0 st0 k st cur → ProposesAt E g H ga st := by
    intro k st cur _
    exact steihaug_proposes hE hU hn O hO hdim H M hM0 habs ga hga0 st
  obtain ⟨st', hmin, hfl, x, y, fo, hlast, h4, h5, h6⟩ := flag_core hn hU H hR x0 startId hess0 st0 _ ga hprop hga hstart (iterBound mu g1 g2 D0 M M (f x0 - f xs) eps + J + 1)
    (fun k st cur hh => Nat.lt_succ_of_le (hstop k st cur hh)) hlive
    (fun k prev cur step new next cur' hh hp x D hx hg hd hD hgr =>
      inexact_form hE hU hT hdim hR hS x0 startId hess0 st0 happ k prev cur step new next cur' hh hp x D hx hg hd hD (gnz hga0.le hgr))
    happ hevs hcond hfile loops hloops hiter htime hclock hfloor
  have hgt : st'.exitflag = .gtol := by
    rcases hfl with hfl | hfl | hfl
    · exfalso
      have h := h5 hfl
      rw [hfa, hfr] at h
      simp at h
      linarith [abs_nonneg (f y - f x)]
    · exfalso
      have h := h6 hfl
      rw [hxt] at h
      simp at h
      linarith [rnorm_nonneg (y - x)]
    · exact hfl
  have hgy : rnorm (g y) ≤ ga := by
    rcases h4 hgt with h | h
    · exact h
    · rw [hgr] at h
      have : rnorm (g y) ≤ 0 := by simpa using h
      linarith
  refine ⟨st', hmin, hgt, ?_, ?_⟩
  · obtain ⟨k, st1, cur, st2, fl, -, hh, hc, rfl⟩ := run_end E (ofV x0) startId hess0 st0 loops st' hmin
    have hi := headInv E _ startId hess0 st0 k st1 cur hh
    have h2 : st2.iteration = st1.iteration := by
      rcases checkContinue_false E st1 st2 hc with ⟨_, rfl⟩ | ⟨_, _, rfl⟩ | ⟨_, _, _, rfl⟩ | ⟨_, _, _, rfl⟩ <;> rfl
    show st2.iteration ≤ _
    rw [h2, hi.iteration]
    exact hstop k st1 cur hh
  · obtain ⟨k, st1, cur, st2, fl, -, hh, hc, rfl⟩ := run_end E (ofV x0) startId hess0 st0 loops st' hmin
    have hevl : st2.evals = st1.evals := by
      rcases checkContinue_false E st1 st2 hc with ⟨_, rfl⟩ | ⟨_, _, rfl⟩ | ⟨_, _, _, rfl⟩ | ⟨_, _, _, rfl⟩ <;> rfl
    obtain ⟨c, l, e1, e2⟩ := inexact_evals hE hU hT hdim hR hS hs hB x0 startId hess0 st0 happ ga hga hga0.le hstart k st1 cur hh
    have hlast' : st2.evals.head? = some { arg := ofV y, out := .ok fo } := hlast
    rw [hevl, e1] at hlast'
    simp only [List.cons_append, List.head?_cons, Option.some.injEq] at hlast'
    subst hlast'
    obtain ⟨z, fo', q1, q2, q3, q4⟩ := e2 _ (List.mem_cons_self ..)
    simp only [EvalRec.mk.injEq, Except.ok.injEq] at q1
    obtain ⟨q0, rfl⟩ := q1
    obtain rfl : y = z := ofV_inj.mp q0
    obtain ⟨l1, b, c1, c2, c3, c4, c5, -⟩ := C05_best E (ofV x0) startId hess0 st0 loops _ hmin
    obtain ⟨l2, b', d1, d2, d3, d4, d5⟩ := C06_xmin E (ofV x0) startId hess0 st0 loops _ hmin
    have hl1 : l1 = { arg := ofV y, out := .ok fo } :: l := by
      have : l1 ++ st0.evals = ({ arg := ofV y, out := .ok fo } :: l) ++ st0.evals := by
        rw [← c1, ← e1, ← hevl]
      exact List.append_cancel_right this
    have hl2 : l2 = { arg := ofV y, out := .ok fo } :: l := by
      have : l2 ++ st0.evals = ({ arg := ofV y, out := .ok fo } :: l) ++ st0.evals := by
        rw [← d1, ← e1, ← hevl]
      exact List.append_cancel_right this
    obtain ⟨later, earlier, f1, -⟩ := d2
    obtain ⟨w, fb, w1, w2, w3, w4⟩ := e2 { arg := b'.x, out := .ok b' } (by rw [← hl2, f1]; simp)
    simp only [EvalRec.mk.injEq, Except.ok.injEq] at w1
    obtain ⟨w0, rfl⟩ := w1
    have hle := c5 _ (by rw [hl1]; exact List.mem_cons_self ..) fo rfl (by rw [q3]; rfl)
    rw [d3, w3, q3] at hle
    have hwy : f w ≤ f y := by simpa using hle
    have hxm : st2.xMin = ofV w := by
      rcases d5 with h | ⟨_, h⟩
      · rw [← w0]; exact h
      · rw [C51_nudge _ _ _ hU, w0] at h; exact h
    have hgap := hS.gap y xs
    have hm := hS.m_pos
    have hbound : f w - f xs ≤ ga * ga / (2 * m) := by
      have h1 : rnorm (g y) * rnorm (g y) / (2 * m) ≤ ga * ga / (2 * m) :=
        div_le_div_of_nonneg_right (mul_self_le_mul_self (rnorm_nonneg _) hgy) (by linarith)
      linarith
    refine ⟨w, hxm, d3.trans w3, d4.trans w4, hbound, ?_⟩
    have hgrow := hS.growth hs w
    have h0 := rnorm_nonneg (w - xs)
    have h2 : (m * rnorm (w - xs)) ^ 2 ≤ ga ^ 2 := by
      rw [le_div_iff₀ (by linarith)] at hbound
      nlinarith
    have h3 : m * rnorm (w - xs) ≤ ga := by
      exact (sq_le_sq₀ (mul_nonneg hm.le h0) hga0.le).mp h2
    rw [le_div_iff₀ hm]; linarith

end Fides
