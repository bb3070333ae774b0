import Verif.Lemmas.LocalRun

/-!
# C73: fast convergence near a minimum

Near a minimum with positive curvature the default and the full-space solver never reject a step and never shrink the trust region; after a
number of iterations that depends on the logarithm of the ratio of the region's size and the radius every step is a Newton step, and the
distance to the minimizer is squared in every iteration.
-/

namespace Fides
open Num Spec
variable {n : ℕ} {E : Env Num n} {f : (Fin n → ℝ) → ℝ} {g : (Fin n → ℝ) → Fin n → ℝ} {H : (Fin n → ℝ) → Fin n → Fin n → ℝ} {xs : Fin n → ℝ} {r m L R mu eta g1 g2 D0 : ℝ}

theorem curved_pd (hC : CurvedMinimum r m L f g H xs) {x : Fin n → ℝ} (hx : rnorm (x - xs) ≤ r) : PD (H x) :=
  fun v hv => lt_of_lt_of_le (mul_pos hC.m_pos (rdot_self_pos hv)) (hC.curved x hx v)

theorem curved_newton (hC : CurvedMinimum r m L f g H xs) {x : Fin n → ℝ} (hx : rnorm (x - xs) ≤ r) : ∃ nv, rmv (H x) nv = -g x :=
  pd_solve (hC.symmetric x hx) (curved_pd hC hx) (g x)

/-- the gradient of a live loop head is not zero -/
theorem local_live (hU : NoBounds E.lb E.ub) (hR : Returns E f g H) (x0 : Fin n → ℝ) (startId : String) (hess0 : Hess0 Num) (st0 : St Num n)
    (ga : ℝ) (hga : E.opts.gatol = fin ga) (hstart : ga < rnorm (g x0)) (k : ℕ) (st : St Num n) (cur : Funout Num n)
    (h : LoopHead E (ofV x0) startId hess0 st0 k st cur) (hc : st.converged = false) (x : Fin n → ℝ) (hg : st.grad = ofV (g x)) : ga < rnorm (g x) :=
  head_gradient (ofV x0) startId hess0 st0 ga hga (fun s c gr hs hg => by
    have h2 := (start_values hU hR.evaluates x0 startId hess0 st0 s c hs).2.2
    rw [hg, ofV_inj] at h2
    rw [h2]; exact hstart) k st cur h hc _ hg

theorem gnz {x : Fin n → ℝ} {ga : ℝ} (hga0 : 0 ≤ ga) (h : ga < rnorm (g x)) : g x ≠ 0 := by
  intro h0
  rw [h0, rnorm_eq_zero.mpr rfl] at h
  linarith

/-- the loop heads after one in the basin -/
theorem local_head (hE : TRParams E mu eta g1 g2 D0) (hU : NoBounds E.lb E.ub) (O : ℕ → Oracles Num) (hX : ∀ k, ExactRoutines (O k)) (fuel : ℕ)
    (hO : ∀ k I, E.tr k I = trustRegion (O k) fuel E.opts.subspaceDim E.opts.stepbackStrat I)
    (hdim : E.opts.subspaceDim = .two ∨ E.opts.subspaceDim = .full) (hR : Returns E f g H) (hC : CurvedMinimum r m L f g H xs) (hB : BasinSize r m L eta R)
    (x0 : Fin n → ℝ) (startId : String) (hess0 : Hess0 Num) (st0 : St Num n) (happ : st0.happ = none)
    (ga : ℝ) (hga : E.opts.gatol = fin ga) (hga0 : 0 ≤ ga) (hstart : ga < rnorm (g x0))
    (k : ℕ) (Dk : ℝ) (hDk : 0 < Dk) (hbase : ∀ st cur, LoopHead E (ofV x0) startId hess0 st0 k st cur → ∃ x, st.x = ofV x ∧ st.delta = fin Dk ∧ Basin r m R f xs x)
    (j : ℕ) (st : St Num n) (cur : Funout Num n) (h : LoopHead E (ofV x0) startId hess0 st0 (k + j) st cur) :
    ∃ (x : Fin n → ℝ) (D : ℝ), st.x = ofV x ∧ st.fval = fin (f x) ∧ st.grad = ofV (g x) ∧ st.hess = ofM (H x) ∧ st.delta = fin D ∧ Dk ≤ D ∧
      Basin r m R f xs x ∧ (D = Dk * g2 ^ j ∨ ∀ nv, rmv (H x) nv = -g x → rnorm nv ≤ D) := by
  have hev := hR.evaluates
  induction j generalizing st cur with
  | zero =>
    obtain ⟨x, h1, h2, h3⟩ := hbase st cur h
    obtain ⟨-, hf, hg⟩ := head_values hU hev _ startId hess0 st0 k st cur h x h1
    exact ⟨x, Dk, h1, hf, hg, returned_hess hU hR _ startId hess0 st0 happ k st cur h x h1, h2, le_rfl, h3, Or.inl (by simp)⟩
  | succ j ih =>
    obtain ⟨prev, cur0, step, new, hh, hp⟩ := loopHead_pass E _ startId hess0 st0 (k + j) st cur h
    obtain ⟨x, D, h1, h2, h3, h4, h5, h6, h7, h8⟩ := ih prev cur0 hh
    have hD : 0 < D := hDk.trans_le h6
    have hg0 := gnz hga0 (local_live hU hR x0 startId hess0 st0 ga hga hstart (k + j) prev cur0 hh (continues_live E _ _ hp.continues) x h3)
    obtain ⟨nv, hnv⟩ := curved_newton hC h7.1
    obtain ⟨p, -, -, a1, a2, a3, -, -, -, a4, a5, a6, a7⟩ := local_pass hE hU O hX fuel hO hdim hev hC hB hp x D h1 h2 h3 h4 h5 hD h7 hg0 nv hnv
    have hH := returned_hess hU hR _ startId hess0 st0 happ (k + (j + 1)) st cur h _ a1
    have hgD : D ≤ g2 * D := by
      have := hE.g2_ge
      nlinarith
    have hfit : rnorm nv ≤ D → ∀ nv', rmv (H (x + p)) nv' = -g (x + p) → rnorm nv' ≤ D := by
      intro hn nv' hnv'
      obtain ⟨b1, b2, b3⟩ := hC.newton_len hB h7 hnv
      obtain ⟨c1, c2, c3⟩ := hC.newton_len hB a4 hnv'
      rw [a5 hn] at c2
      have := rnorm_nonneg (x - xs)
      linarith
    rcases le_or_gt (rnorm nv) D with hn | hn
    · rcases a7 with hd | hd
      · exact ⟨x + p, D, a1, a2, a3, hH, hd, h6, a4, Or.inr (hfit hn)⟩
      · exact ⟨x + p, g2 * D, a1, a2, a3, hH, hd, by linarith, a4, Or.inr fun nv' h' => (hfit hn nv' h').trans hgD⟩
    · have hd := a6 hn
      refine ⟨x + p, g2 * D, a1, a2, a3, hH, hd, by linarith, a4, Or.inl ?_⟩
      rcases h8 with h8 | h8
      · rw [h8, pow_succ]; ring
      · exact absurd (h8 nv hnv) (not_le.mpr hn)

/-- **C73, every iteration.** Unbounded problem, default or full-space solver, exact arithmetic and linear algebra, exact Hessian.  Once the run has
arrived (after `k` iterations, with trust radius `Dk`) in the basin of a minimum with positive curvature, then in every later iteration: the
objective is reduced, by at least `eta` times the predicted reduction, the step is accepted, the new point is in the basin, and the trust radius
does not shrink; and, as soon as `Dk * gamma2 ^ j` is at least `5/4 R` (where `R` is the size of the basin), the new point is that of Newton's
method and its distance to the minimizer is at most `L / (2 m)` times the squared distance of the old point. -/
theorem C73_step (hE : TRParams E mu eta g1 g2 D0) (hU : NoBounds E.lb E.ub) (O : ℕ → Oracles Num) (hX : ∀ k, ExactRoutines (O k)) (fuel : ℕ)
    (hO : ∀ k I, E.tr k I = trustRegion (O k) fuel E.opts.subspaceDim E.opts.stepbackStrat I)
    (hdim : E.opts.subspaceDim = .two ∨ E.opts.subspaceDim = .full) (hR : Returns E f g H) (hC : CurvedMinimum r m L f g H xs) (hB : BasinSize r m L eta R)
    (x0 : Fin n → ℝ) (startId : String) (hess0 : Hess0 Num) (st0 : St Num n) (happ : st0.happ = none)
    (ga : ℝ) (hga : E.opts.gatol = fin ga) (hga0 : 0 ≤ ga) (hstart : ga < rnorm (g x0))
    (k : ℕ) (stk : St Num n) (curk : Funout Num n) (xk : Fin n → ℝ) (Dk : ℝ) (hk : LoopHead E (ofV x0) startId hess0 st0 k stk curk)
    (hxk : stk.x = ofV xk) (hdk : stk.delta = fin Dk) (hDk : 0 < Dk) (hin : Basin r m R f xs xk)
    (j : ℕ) (prev next : St Num n) (cur cur' new : Funout Num n) (step : Step Num n)
    (h : LoopHead E (ofV x0) startId hess0 st0 (k + j) prev cur) (hp : Pass E prev cur step new next cur') :
    ∃ (x y : Fin n → ℝ) (D D' rho : ℝ), prev.x = ofV x ∧ next.x = ofV y ∧ trialPoint prev step = ofV y ∧ f y < f x ∧ Basin r m R f xs x ∧ Basin r m R f xs y ∧
      next.trRatio = fin rho ∧ eta ≤ rho ∧ prev.delta = fin D ∧ next.delta = fin D' ∧ Dk ≤ D ∧ (D' = D ∨ D' = g2 * D) ∧
      (5 / 4 * R ≤ Dk * g2 ^ j → rmv (H x) (y - x) = -g x ∧ rnorm (y - xs) ≤ L / (2 * m) * rnorm (x - xs) ^ 2) := by
  have hev := hR.evaluates
  obtain ⟨x, D, h1, h2, h3, h4, h5, h6, h7, h8⟩ := local_head hE hU O hX fuel hO hdim hR hC hB x0 startId hess0 st0 happ ga hga hga0 hstart k Dk hDk
    (fun st cur hh => by
      obtain ⟨rfl, rfl⟩ := loopHead_unique E _ startId hess0 st0 k _ _ _ _ hk hh
      exact ⟨xk, hxk, hdk, hin⟩) j prev cur h
  have hD : 0 < D := hDk.trans_le h6
  have hg0 := gnz hga0 (local_live hU hR x0 startId hess0 st0 ga hga hstart (k + j) prev cur h (continues_live E _ _ hp.continues) x h3)
  obtain ⟨nv, hnv⟩ := curved_newton hC h7.1
  obtain ⟨p, -, a0, a1, a2, a3, b1, b2, b3, a4, a5, a6, a7⟩ := local_pass hE hU O hX fuel hO hdim hev hC hB hp x D h1 h2 h3 h4 h5 hD h7 hg0 nv hnv
  have hfit : 5 / 4 * R ≤ Dk * g2 ^ j → rnorm nv ≤ D := by
    intro hK
    rcases h8 with h8 | h8
    · obtain ⟨-, c2, -⟩ := hC.newton_len hB h7 hnv
      have := hC.close hB h7
      rw [h8]; linarith
    · exact h8 nv hnv
  have hpx : x + p - x = p := by funext i; simp
  have hq : 5 / 4 * R ≤ Dk * g2 ^ j → rmv (H x) (x + p - x) = -g x ∧ rnorm (x + p - xs) ≤ L / (2 * m) * rnorm (x - xs) ^ 2 := by
    intro hK
    obtain rfl := a5 (hfit hK)
    rw [hpx]
    refine ⟨hnv, ?_⟩
    have := hC.newton h7.1 hnv
    have hm := hC.m_pos
    rw [show L / (2 * m) * rnorm (x - xs) ^ 2 = (L / 2 * (rnorm (x - xs) * rnorm (x - xs))) / m by field_simp, le_div_iff₀ hm]
    linarith
  rcases a7 with hd | hd
  · exact ⟨x, x + p, D, D, _, h1, a1, a0, b3, h7, a4, b1, b2, h5, hd, h6, Or.inl rfl, hq⟩
  · exact ⟨x, x + p, D, g2 * D, _, h1, a1, a0, b3, h7, a4, b1, b2, h5, hd, h6, Or.inr rfl, hq⟩

/-- **C73, rate.** Under the assumptions of `C73_step`, if `K` iterations suffice for the radius to reach the size of the basin, then after
`k + K + j` iterations the distance to the minimizer is at most `R / 4^(2^j - 1)`. -/
theorem C73_rate (hE : TRParams E mu eta g1 g2 D0) (hU : NoBounds E.lb E.ub) (O : ℕ → Oracles Num) (hX : ∀ k, ExactRoutines (O k)) (fuel : ℕ)
    (hO : ∀ k I, E.tr k I = trustRegion (O k) fuel E.opts.subspaceDim E.opts.stepbackStrat I)
    (hdim : E.opts.subspaceDim = .two ∨ E.opts.subspaceDim = .full) (hR : Returns E f g H) (hC : CurvedMinimum r m L f g H xs) (hB : BasinSize r m L eta R)
    (x0 : Fin n → ℝ) (startId : String) (hess0 : Hess0 Num) (st0 : St Num n) (happ : st0.happ = none)
    (ga : ℝ) (hga : E.opts.gatol = fin ga) (hga0 : 0 ≤ ga) (hstart : ga < rnorm (g x0))
    (k : ℕ) (stk : St Num n) (curk : Funout Num n) (xk : Fin n → ℝ) (Dk : ℝ) (hk : LoopHead E (ofV x0) startId hess0 st0 k stk curk)
    (hxk : stk.x = ofV xk) (hdk : stk.delta = fin Dk) (hDk : 0 < Dk) (hin : Basin r m R f xs xk) (K : ℕ) (hK : 5 / 4 * R ≤ Dk * g2 ^ K)
    (j : ℕ) (st : St Num n) (cur : Funout Num n) (h : LoopHead E (ofV x0) startId hess0 st0 (k + K + j) st cur) :
    ∃ x : Fin n → ℝ, st.x = ofV x ∧ rnorm (x - xs) ≤ R / 4 ^ (2 ^ j - 1) := by
  induction j generalizing st cur with
  | zero =>
    obtain ⟨x, D, h1, -, -, -, -, -, h7, -⟩ := local_head hE hU O hX fuel hO hdim hR hC hB x0 startId hess0 st0 happ ga hga hga0 hstart k Dk hDk
      (fun st cur hh => by
        obtain ⟨rfl, rfl⟩ := loopHead_unique E _ startId hess0 st0 k _ _ _ _ hk hh
        exact ⟨xk, hxk, hdk, hin⟩) K st cur h
    exact ⟨x, h1, by simpa using hC.close hB h7⟩
  | succ j ih =>
    obtain ⟨prev, cur0, step, new, hh, hp⟩ := loopHead_pass E _ startId hess0 st0 (k + K + j) st cur h
    obtain ⟨x', h1, h2⟩ := ih prev cur0 hh
    obtain ⟨x, y, D, D', rho, a1, a2, -, -, -, -, -, -, -, -, -, -, a3⟩ := C73_step hE hU O hX fuel hO hdim hR hC hB x0 startId hess0 st0 happ ga hga hga0 hstart
      k stk curk xk Dk hk hxk hdk hDk hin (K + j) prev st cur0 cur new step (by rw [← add_assoc]; exact hh) hp
    obtain rfl : x = x' := ofV_inj.mp (a1.symm.trans h1)
    have hg2 := hE.g2_ge
    obtain ⟨-, a4⟩ := a3 (hK.trans (by
      rw [pow_add]
      have h3 : 1 ≤ g2 ^ j := one_le_pow₀ hg2
      have h4 : 0 < Dk * g2 ^ K := mul_pos hDk (pow_pos (by linarith) _)
      nlinarith))
    refine ⟨y, a2, a4.trans ?_⟩
    have hm := hC.m_pos
    have h3 : L / (2 * m) * rnorm (x - xs) ^ 2 ≤ L / (2 * m) * (R / 4 ^ (2 ^ j - 1)) ^ 2 :=
      mul_le_mul_of_nonneg_left (pow_le_pow_left₀ (rnorm_nonneg _) h2 2) (div_nonneg hC.L_nonneg (by linarith))
    refine h3.trans ?_
    have h5 : 2 ^ (j + 1) - 1 = 2 * (2 ^ j - 1) + 1 := by
      have := Nat.one_le_two_pow (n := j)
      rw [pow_succ]; omega
    rw [h5]
    have h6 : L * R / (2 * m) ≤ 1 / 4 := by
      rw [div_le_iff₀ (by linarith)]
      have := hB.newton
      linarith
    have h7 : L / (2 * m) * (R / 4 ^ (2 ^ j - 1)) ^ 2 = (L * R / (2 * m)) * (R / 4 ^ (2 * (2 ^ j - 1))) := by
      rw [pow_mul']; field_simp
    have h9 : R / 4 ^ (2 * (2 ^ j - 1) + 1) = R / 4 ^ (2 * (2 ^ j - 1)) / 4 := by rw [pow_succ 4, div_div]
    rw [h7, h9]
    have h8 : 0 ≤ R / 4 ^ (2 * (2 ^ j - 1)) := div_nonneg hB.pos.le (by positivity)
    have := mul_le_mul_of_nonneg_right h6 h8
    linarith

/-! ## whole runs -/

section
variable {M : ℝ}

theorem curved_gradient (hC : CurvedMinimum r m L f g H xs) (hB : BasinSize r m L eta R) (hM0 : 0 ≤ M)
    (hM : ∀ x, rnorm (x - xs) ≤ r → ∀ v, rdot v (rmv (H x) v) ≤ M * rdot v v) {x : Fin n → ℝ} (hx : Basin r m R f xs x) : rnorm (g x) ≤ 5 / 4 * M * rnorm (x - xs) := by
  obtain ⟨nv, hnv⟩ := curved_newton hC hx.1
  obtain ⟨-, h2, -⟩ := hC.newton_len hB hx hnv
  have h3 := psd_image (hC.symmetric x hx.1) (fun v => le_trans (mul_nonneg hC.m_pos.le (rdot_self_nonneg v)) (hC.curved x hx.1 v)) (hM x hx.1) nv
  have h4 := hM x hx.1 nv
  have hng : rnorm (rmv (H x) nv) = rnorm (g x) := by rw [hnv, rnorm, rnorm, neg_rdot, rdot_neg, neg_neg]
  have h5 : rnorm (g x) ≤ M * rnorm nv := by
    rw [← hng, rnorm_le_iff (mul_nonneg hM0 (rnorm_nonneg _))]
    have h6 := mul_le_mul_of_nonneg_left h4 hM0
    have h7 := rnorm_sq nv
    calc rdot (rmv (H x) nv) (rmv (H x) nv) ≤ M * (M * rdot nv nv) := h3.trans h6
      _ = M * rnorm nv * (M * rnorm nv) := by rw [← h7]; ring
  have := mul_le_mul_of_nonneg_left h2 hM0
  linarith

theorem local_stops (hE : TRParams E mu eta g1 g2 D0) (hU : NoBounds E.lb E.ub) (O : ℕ → Oracles Num) (hX : ∀ k, ExactRoutines (O k)) (fuel : ℕ)
    (hO : ∀ k I, E.tr k I = trustRegion (O k) fuel E.opts.subspaceDim E.opts.stepbackStrat I)
    (hdim : E.opts.subspaceDim = .two ∨ E.opts.subspaceDim = .full) (hR : Returns E f g H) (hC : CurvedMinimum r m L f g H xs) (hB : BasinSize r m L eta R)
    (hM0 : 0 ≤ M) (hM : ∀ x, rnorm (x - xs) ≤ r → ∀ v, rdot v (rmv (H x) v) ≤ M * rdot v v)
    (x0 : Fin n → ℝ) (startId : String) (hess0 : Hess0 Num) (st0 : St Num n) (happ : st0.happ = none)
    (ga : ℝ) (hga : E.opts.gatol = fin ga) (hga0 : 0 ≤ ga) (hstart : ga < rnorm (g x0))
    (k : ℕ) (stk : St Num n) (curk : Funout Num n) (xk : Fin n → ℝ) (Dk : ℝ) (hk : LoopHead E (ofV x0) startId hess0 st0 k stk curk)
    (hxk : stk.x = ofV xk) (hdk : stk.delta = fin Dk) (hDk : 0 < Dk) (hin : Basin r m R f xs xk) (K : ℕ) (hK : 5 / 4 * R ≤ Dk * g2 ^ K)
    (J : ℕ) (hJ : 5 / 4 * M * (R / 4 ^ (2 ^ J - 1)) ≤ ga) (j : ℕ) (st : St Num n) (cur : Funout Num n) (h : LoopHead E (ofV x0) startId hess0 st0 j st cur) : j < k + K + J + 1 := by
  by_contra hcon
  push Not at hcon
  obtain ⟨st1, cur1, h1⟩ := loopHead_prefix E _ startId hess0 st0 j st cur h (k + K + J + 1) hcon
  obtain ⟨prev, cur0, step, new, hh, hp⟩ := loopHead_pass E _ startId hess0 st0 (k + K + J) st1 cur1 h1
  obtain ⟨x, D, a1, -, a3, -, -, -, a7, -⟩ := local_head hE hU O hX fuel hO hdim hR hC hB x0 startId hess0 st0 happ ga hga hga0 hstart k Dk hDk
    (fun st cur hh => by
      obtain ⟨rfl, rfl⟩ := loopHead_unique E _ startId hess0 st0 k _ _ _ _ hk hh
      exact ⟨xk, hxk, hdk, hin⟩) (K + J) prev cur0 (by rw [← add_assoc]; exact hh)
  obtain ⟨x', b1, b2⟩ := C73_rate hE hU O hX fuel hO hdim hR hC hB x0 startId hess0 st0 happ ga hga hga0 hstart k stk curk xk Dk hk hxk hdk hDk hin K hK J prev cur0 hh
  obtain rfl : x = x' := ofV_inj.mp (a1.symm.trans b1)
  have h2 := local_live hU hR x0 startId hess0 st0 ga hga hstart _ prev cur0 hh (continues_live E _ _ hp.continues) x a3
  have h3 := curved_gradient hC hB hM0 hM a7
  have h4 := mul_le_mul_of_nonneg_left b2 (mul_nonneg (by norm_num : (0 : ℝ) ≤ 5 / 4) hM0)
  linarith

/-- **C73, number of iterations.** If the curvatures near the minimum are at most `M` and `gatol > 0`, then a run that has arrived in the basin after `k`
iterations makes at most `K + J` more, for every `K` with `5/4 R ≤ Dk gamma2^K` and `J` with `5/4 M R / 4^(2^J - 1) ≤ gatol`: `J` grows like the
logarithm of the logarithm of `1 / gatol`. -/
theorem C73_iterations (hE : TRParams E mu eta g1 g2 D0) (hU : NoBounds E.lb E.ub) (O : ℕ → Oracles Num) (hX : ∀ k, ExactRoutines (O k)) (fuel : ℕ)
    (hO : ∀ k I, E.tr k I = trustRegion (O k) fuel E.opts.subspaceDim E.opts.stepbackStrat I)
    (hdim : E.opts.subspaceDim = .two ∨ E.opts.subspaceDim = .full) (hR : Returns E f g H) (hC : CurvedMinimum r m L f g H xs) (hB : BasinSize r m L eta R)
    (hM0 : 0 ≤ M) (hM : ∀ x, rnorm (x - xs) ≤ r → ∀ v, rdot v (rmv (H x) v) ≤ M * rdot v v)
    (x0 : Fin n → ℝ) (startId : String) (hess0 : Hess0 Num) (st0 : St Num n) (happ : st0.happ = none)
    (ga : ℝ) (hga : E.opts.gatol = fin ga) (hga0 : 0 ≤ ga) (hstart : ga < rnorm (g x0))
    (k : ℕ) (stk : St Num n) (curk : Funout Num n) (xk : Fin n → ℝ) (Dk : ℝ) (hk : LoopHead E (ofV x0) startId hess0 st0 k stk curk)
    (hxk : stk.x = ofV xk) (hdk : stk.delta = fin Dk) (hDk : 0 < Dk) (hin : Basin r m R f xs xk) (K : ℕ) (hK : 5 / 4 * R ≤ Dk * g2 ^ K)
    (J : ℕ) (hJ : 5 / 4 * M * (R / 4 ^ (2 ^ J - 1)) ≤ ga) (loops : ℕ) (st' : St Num n) (hmin : minimize E loops (ofV x0) startId hess0 st0 = .ok st') :
    st'.iteration ≤ k + (K + J) := by
  obtain ⟨j, st1, cur, st2, fl, -, hh, hc, rfl⟩ := run_end E (ofV x0) startId hess0 st0 loops st' hmin
  have hi := headInv E _ startId hess0 st0 j st1 cur hh
  have := local_stops hE hU O hX fuel hO hdim hR hC hB hM0 hM x0 startId hess0 st0 happ ga hga hga0 hstart k stk curk xk Dk hk hxk hdk hDk hin K hK J hJ j st1 cur hh
  have h2 : st2.iteration = st1.iteration := by
    rcases checkContinue_false E st1 st2 hc with ⟨_, rfl⟩ | ⟨_, _, rfl⟩ | ⟨_, _, _, rfl⟩ | ⟨_, _, _, rfl⟩ <;> rfl
  show st2.iteration ≤ _
  rw [h2, hi.iteration]; omega

/-- the evaluations of a run in the basin: the last one is the best -/
theorem local_evals (hE : TRParams E mu eta g1 g2 D0) (hU : NoBounds E.lb E.ub) (O : ℕ → Oracles Num) (hX : ∀ k, ExactRoutines (O k)) (fuel : ℕ)
    (hO : ∀ k I, E.tr k I = trustRegion (O k) fuel E.opts.subspaceDim E.opts.stepbackStrat I)
    (hdim : E.opts.subspaceDim = .two ∨ E.opts.subspaceDim = .full) (hR : Returns E f g H) (hC : CurvedMinimum r m L f g H xs) (hB : BasinSize r m L eta R)
    (x0 : Fin n → ℝ) (startId : String) (hess0 : Hess0 Num) (st0 : St Num n) (happ : st0.happ = none)
    (ga : ℝ) (hga : E.opts.gatol = fin ga) (hga0 : 0 ≤ ga) (hstart : ga < rnorm (g x0)) (hin : Basin r m R f xs x0)
    (k : ℕ) (st : St Num n) (cur : Funout Num n) (h : LoopHead E (ofV x0) startId hess0 st0 k st cur) :
    ∃ (x : Fin n → ℝ) (fo : Funout Num n) (l : List (EvalRec Num n)), st.x = ofV x ∧ st.evals = ({ arg := ofV x, out := .ok fo } :: l) ++ st0.evals ∧
      fo.x = ofV x ∧ fo.fval = fin (f x) ∧ fo.grad = ofV (g x) ∧ ∀ r ∈ l, ∀ fo', r.out = .ok fo' → ∃ y : ℝ, fo'.fval = fin y ∧ f x < y := by
  have hev := hR.evaluates
  induction k generalizing st cur with
  | zero =>
    obtain ⟨l, fo0, h1, h2, h3, -, -, h4, -⟩ := (headInv E _ startId hess0 st0 0 st cur h).evals
    obtain rfl : l = [] := List.length_eq_zero_iff.mp h2
    obtain ⟨m', raw, h5, h6⟩ := head_evaluated E _ startId hess0 st0 0 st cur h
    simp only [List.nil_append, List.mem_singleton, EvalRec.mk.injEq, Except.ok.injEq] at h4
    obtain ⟨h7, rfl⟩ := h4
    rw [C51_nudge _ _ _ hU] at h7
    rw [h7] at h5 h6
    obtain ⟨h8, h9⟩ := hev m' x0 _ raw cur h5 h6
    obtain ⟨hx, -, -⟩ := start_values hU hev x0 startId hess0 st0 st cur h
    exact ⟨x0, cur, [], hx, by rw [h1, C51_nudge _ _ _ hU]; rfl, h7, h8, h9, by simp⟩
  | succ k ih =>
    obtain ⟨prev, cur0, step, new, hh, hp⟩ := loopHead_pass E _ startId hess0 st0 k st cur h
    obtain ⟨x, fo, l, h1, h2, h3, h4, h5, h6⟩ := ih prev cur0 hh
    obtain ⟨st00, cur00, hh0⟩ := loopHead_prefix E _ startId hess0 st0 k prev cur0 hh 0 (Nat.zero_le _)
    obtain ⟨hx00, -, -⟩ := start_values hU hev x0 startId hess0 st0 st00 cur00 hh0
    have hd00 : st00.delta = fin D0 := by rw [← hE.deltaInit]; exact start_delta E _ startId hess0 st0 st00 cur00 hh0
    obtain ⟨x', y, D, D', rho, a1, a2, a3, a4, -⟩ := C73_step hE hU O hX fuel hO hdim hR hC hB x0 startId hess0 st0 happ ga hga hga0 hstart
      0 st00 cur00 x0 D0 hh0 hx00 hd00 hE.D0_pos hin k prev st cur0 cur new step (by rw [Nat.zero_add]; exact hh) hp
    obtain rfl : x = x' := ofV_inj.mp (h1.symm.trans a1)
    have a3' : vadd (vadd prev.x step.s) step.s0 = ofV y := a3
    obtain ⟨b3, b4, b5⟩ := pass_evaluates hev hp y a3'
    refine ⟨y, new, { arg := ofV x, out := .ok fo } :: l, a2, by rw [hp.evaluated, h2, a3']; rfl, b3, b4, b5, ?_⟩
    intro r hr fo' hfo
    rcases List.mem_cons.mp hr with rfl | hr
    · cases hfo; exact ⟨f x, h4, a4⟩
    · obtain ⟨z, hz1, hz2⟩ := h6 r hr fo' hfo
      exact ⟨z, hz1, a4.trans hz2⟩

/-- the solver makes a proposal at every loop head in the basin -/
theorem local_proposes (hE : TRParams E mu eta g1 g2 D0) (hU : NoBounds E.lb E.ub) (O : ℕ → Oracles Num) (hX : ∀ k, ExactRoutines (O k)) (fuel : ℕ)
    (hO : ∀ k I, E.tr k I = trustRegion (O k) fuel E.opts.subspaceDim E.opts.stepbackStrat I)
    (hdim : E.opts.subspaceDim = .two ∨ E.opts.subspaceDim = .full) (hC : CurvedMinimum r m L f g H xs) (ga : ℝ) (hga0 : 0 ≤ ga) (st1 : St Num n)
    (hin : ∃ x, st1.x = ofV x ∧ rnorm (x - xs) ≤ r) : ProposesAt E g H ga st1 := by
  intro x D hx hg hH hd hDp hgr
  obtain ⟨x', hx', hn⟩ := hin
  obtain rfl : x' = x := ofV_inj.mp (hx'.symm.trans hx)
  obtain ⟨nv, hnv⟩ := curved_newton hC hn
  obtain ⟨step, hs', p, hN⟩ := newton_step (g := g) hE hU (O st1.proposals) (hX _) fuel E.opts.stepbackStrat hdim
    (preIter { st1 with ticks := st1.ticks + 1 }) x' D hx hg hd hDp (H x') hH (hC.symmetric _ hn) (curved_pd hC hn) (gnz hga0 hgr) nv hnv
  exact ⟨step, p, by rw [hO]; exact hs', by rw [trialPoint, hx]; exact hN.trial⟩

/-- **C73, total correctness.** A run that starts in the basin of a minimum with positive curvature (and not already at a point satisfying the gradient
tolerance), with the other tolerances switched off, no time limit and an iteration limit that is not reached: `minimize` returns normally, with flag `gtol`,
after at most `K + J` iterations (with `K` and `J` as in `C73_iterations`); the point it ends at is the one reported as best, its gradient is at most
`gatol` long, and it is within `gatol / m` of the minimizer. -/
theorem C73_minimizer (hn : 0 < n) (hE : TRParams E mu eta g1 g2 D0) (hU : NoBounds E.lb E.ub) (O : ℕ → Oracles Num) (hX : ∀ k, ExactRoutines (O k)) (fuel : ℕ)
    (hO : ∀ k I, E.tr k I = trustRegion (O k) fuel E.opts.subspaceDim E.opts.stepbackStrat I)
    (hdim : E.opts.subspaceDim = .two ∨ E.opts.subspaceDim = .full) (hR : Returns E f g H) (hC : CurvedMinimum r m L f g H xs) (hB : BasinSize r m L eta R)
    (hM0 : 0 ≤ M) (hM : ∀ x, rnorm (x - xs) ≤ r → ∀ v, rdot v (rmv (H x) v) ≤ M * rdot v v)
    (x0 : Fin n → ℝ) (startId : String) (hess0 : Hess0 Num) (st0 : St Num n) (happ : st0.happ = none)
    (hevs : ∀ m, ∃ r, E.evs m = .ok r) (hcond : ∀ m, ∃ r, E.cond m = .ok r) (hfile : ∀ grp ∈ st0.file, grp.1 ≠ startId)
    (ga : ℝ) (hga : E.opts.gatol = fin ga) (hga0 : 0 ≤ ga) (hstart : ga < rnorm (g x0)) (hin : Basin r m R f xs x0)
    (hgr : E.opts.grtol = fin 0) (hfa : E.opts.fatol = fin 0) (hfr : E.opts.frtol = fin 0) (hxt : E.opts.xtol = fin 0)
    (K : ℕ) (hK : 5 / 4 * R ≤ D0 * g2 ^ K) (J : ℕ) (hJ : 5 / 4 * M * (R / 4 ^ (2 ^ J - 1)) ≤ ga) (loops : ℕ) (hloops : K + J + 1 ≤ loops)
    (hiter : (K : ℤ) + J + 1 ≤ E.opts.maxiter) (htime : E.opts.maxtime = pinf) (hclock : ∀ k, ∃ t : ℝ, E.clock k = fin t) (hD0 : 1 / 4503599627370496 ≤ D0) :
    ∃ st', minimize E loops (ofV x0) startId hess0 st0 = .ok st' ∧ st'.exitflag = .gtol ∧ st'.iteration ≤ K + J ∧
      ∃ x : Fin n → ℝ, st'.x = ofV x ∧ st'.xMin = ofV x ∧ st'.fvalMin = fin (f x) ∧ st'.gradMin = ofV (g x) ∧ rnorm (g x) ≤ ga ∧ rnorm (x - xs) ≤ ga / m := by
  have hev := hR.evaluates
  have hbase : ∀ st cur, LoopHead E (ofV x0) startId hess0 st0 0 st cur → ∃ x, st.x = ofV x ∧ st.delta = fin D0 ∧ Basin r m R f xs x := by
    intro st cur hh
    obtain ⟨hx, -, -⟩ := start_values hU hev x0 startId hess0 st0 st cur hh
    exact ⟨x0, hx, by rw [← hE.deltaInit]; exact start_delta E _ startId hess0 st0 st cur hh, hin⟩
  have hhead := fun k st cur (hh : LoopHead E (ofV x0) startId hess0 st0 k st cur) =>
    local_head hE hU O hX fuel hO hdim hR hC hB x0 startId hess0 st0 happ ga hga hga0 hstart 0 D0 hE.D0_pos hbase k st cur (by rw [Nat.zero_add]; exact hh)
  have hstop : ∀ k st cur, LoopHead E (ofV x0) startId hess0 st0 k st cur → k < K + J + 1 := by
    intro k st cur hh
    obtain ⟨st00, cur00, hh0⟩ := loopHead_prefix E _ startId hess0 st0 k st cur hh 0 (Nat.zero_le _)
    obtain ⟨hx00, -, -⟩ := start_values hU hev x0 startId hess0 st0 st00 cur00 hh0
    have hd00 : st00.delta = fin D0 := by rw [← hE.deltaInit]; exact start_delta E _ startId hess0 st0 st00 cur00 hh0
    have := local_stops hE hU O hX fuel hO hdim hR hC hB hM0 hM x0 startId hess0 st0 happ ga hga hga0 hstart 0 st00 cur00 x0 D0 hh0 hx00 hd00 hE.D0_pos hin K hK J hJ k st cur hh
    omega
  obtain ⟨st', hmin, hfl, x, y, fo, -, h4, h5, h6⟩ := flag_core hn hU H hR x0 startId hess0 st0 D0 ga
    (fun k st cur hh => by
      obtain ⟨x, D, h1, -, -, -, -, -, h7, -⟩ := hhead k st cur hh
      exact local_proposes hE hU O hX fuel hO hdim hC ga hga0 st ⟨x, h1, h7.1⟩) hga hstart (K + J + 1) hstop
    (fun k st cur hh => by
      obtain ⟨x, D, h1, h2, h3, h4, h5, h6, h7, h8⟩ := hhead k st cur hh
      exact ⟨x, D, h1, (head_values hU hev _ startId hess0 st0 k st cur hh x h1).1, h2, h3, h5, h6, hE.D0_pos.trans_le h6⟩)
    (fun k prev cur step new next cur' hh hp x D hx hg hd hD hgr => by
      obtain ⟨x', D', h1, h2, h3, h4, h5, h6, h7, -⟩ := hhead k prev cur hh
      obtain rfl : x' = x := ofV_inj.mp (h1.symm.trans hx)
      obtain rfl : D' = D := by rw [h5] at hd; exact fin_inj.mp hd
      obtain ⟨nv, hnv⟩ := curved_newton hC h7.1
      obtain ⟨p, a1, a2, -⟩ := local_pass hE hU O hX fuel hO hdim hev hC hB hp x' D' h1 h2 h3 h4 h5 hD h7 (gnz hga0 hgr) nv hnv
      exact ⟨p, a1, a2⟩)
    happ hevs hcond hfile loops hloops (by push_cast; exact hiter) htime hclock hD0
  have hgt : st'.exitflag = .gtol := by
    rcases hfl with hfl | hfl | hfl
    · exfalso
      have h := h5 hfl
      rw [hfa, hfr] at h
      simp at h
      linarith [abs_nonneg (f y - f x)]
    · exfalso
      have h := h6 hfl
      rw [hxt] at h
      simp at h
      linarith [rnorm_nonneg (y - x)]
    · exact hfl
  refine ⟨st', hmin, hgt, ?_⟩
  obtain ⟨k, st1, cur, st2, fl, hk, hh, hc, rfl⟩ := run_end E (ofV x0) startId hess0 st0 loops st' hmin
  have hi := headInv E _ startId hess0 st0 k st1 cur hh
  have hkk := hstop k st1 cur hh
  have hend : st2 = st1 ∧ st1.converged = true := by
    rcases checkContinue_false E st1 st2 hc with ⟨hcv, rfl⟩ | ⟨_, hm, rfl⟩ | ⟨_, _, ht, rfl⟩ | ⟨_, _, hdl, rfl⟩
    · exact ⟨rfl, hcv⟩
    · cases hgt
    · cases hgt
    · cases hgt
  obtain ⟨rfl, hcv⟩ := hend
  obtain ⟨xl, D, l1, l2, l3, -, -, -, l7, -⟩ := hhead k st2 cur hh
  have hgl : rnorm (g xl) ≤ ga := by
    cases k with
    | zero => rw [loopHead_start_converged E _ startId hess0 st0 _ _ hh] at hcv; cases hcv
    | succ k =>
      obtain ⟨prev, cur0, step, new, hh0, hp⟩ := loopHead_pass E _ startId hess0 st0 k _ cur hh
      have hF := pass_facts E _ _ _ _ _ _ hp
      obtain ⟨x', D', c1, c2, c3, c4, c5, c6, c7, -⟩ := hhead k prev cur0 hh0
      have hgl' := local_live hU hR x0 startId hess0 st0 ga hga hstart k prev cur0 hh0 (continues_live E _ _ hp.continues) x' c3
      obtain ⟨nv, hnv⟩ := curved_newton hC c7.1
      obtain ⟨p, -, b3, b2, -⟩ := local_pass hE hU O hX fuel hO hdim hev hC hB hp x' D' c1 c2 c3 c4 c5 (hE.D0_pos.trans_le c6) c7 (gnz hga0 hgl') nv hnv
      have hy : xl = x' + p := ofV_inj.mp (l1.symm.trans b2)
      rw [← hy] at b3
      obtain ⟨-, hnf, hng⟩ := pass_evaluates hev hp xl b3
      have hfl2 := hF.exitflag
      have hcc := hF.converged
      rw [hcv] at hcc
      have hgt' : st2.exitflag = .gtol := hgt
      rcases checkConvergence_cases E step new (radiusStep E prev step new).2 with ⟨_, _, h2⟩ | ⟨_, _, h2⟩ | ⟨h1, h2⟩ | h2
      · rw [h2, hgt'] at hfl2; cases hfl2
      · rw [h2, hgt'] at hfl2; cases hfl2
      · rw [hng, hga, hgr, norm_ofV] at h1
        have hrf : (radiusStep E prev step new).2.fval = prev.fval := by
          unfold radiusStep updateTrRadius
          simp only
          split
          · rfl
          · simp only
            split <;> split <;> first | rfl | (split <;> first | rfl | (split <;> rfl))
        rw [hrf, c2] at h1
        rcases h1 with h1 | h1
        · simpa using h1
        · have : rnorm (g xl) ≤ 0 := by simpa using h1
          linarith
      · rw [h2] at hcc; cases hcc
  -- the best evaluation is the last one
  obtain ⟨xe, fe, l, e1, e2, e3, e4, e5, e6⟩ := local_evals hE hU O hX fuel hO hdim hR hC hB x0 startId hess0 st0 happ ga hga hga0 hstart hin k st2 cur hh
  obtain rfl : xl = xe := ofV_inj.mp (l1.symm.trans e1)
  obtain ⟨l', fb, m1, m2, m3, m4, m5⟩ := C06_xmin E (ofV x0) startId hess0 st0 loops _ hmin
  obtain ⟨-, -, -, -, -, -, -, hle⟩ := C05_best E (ofV x0) startId hess0 st0 loops _ hmin
  have hll : l' = { arg := ofV xl, out := .ok fe } :: l := List.append_cancel_right (m1.symm.trans e2)
  subst hll
  obtain ⟨later, earlier, hsplit, -⟩ := m2
  have hmem : ({ arg := fb.x, out := .ok fb } : EvalRec Num n) ∈ ({ arg := ofV xl, out := .ok fe } : EvalRec Num n) :: l := by rw [hsplit]; simp
  have hfb : fb = fe := by
    rcases List.mem_cons.mp hmem with h | h
    · simp only [EvalRec.mk.injEq, Except.ok.injEq] at h; exact h.2
    · exfalso
      obtain ⟨z, z1, z2⟩ := e6 _ h fb rfl
      have hle' : le st2.fvalMin st2.fval = true := hle
      have m3' : st2.fvalMin = fb.fval := m3
      rw [m3', z1, l2, fin_le, decide_eq_true_eq] at hle'
      linarith
  subst hfb
  refine ⟨?_, xl, l1, ?_, ?_, ?_, hgl, ?_⟩
  · show st2.iteration ≤ _
    rw [hi.iteration]; omega
  · rcases m5 with h | ⟨_, h⟩
    · rw [h, e3]
    · rw [h, C51_nudge _ _ _ hU, e3]
  · rw [m3, e4]
  · rw [m4, e5]
  · rw [le_div_iff₀ hC.m_pos]
    have := hC.strong l7.1
    linarith

end

end Fides
