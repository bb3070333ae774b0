import Verif.Props.InteriorConvergence
import Verif.Props.InteriorExamples
import Verif.Props.NoException

/-!
# C93: total correctness of runs that start near a minimum in the interior of the box
-/

namespace Fides
open Num Spec
variable {n : ℕ} {E : Env Num n} {f : (Fin n → ℝ) → ℝ} {g : (Fin n → ℝ) → Fin n → ℝ} {H : (Fin n → ℝ) → Fin n → Fin n → ℝ} {xs : Fin n → ℝ}
  {r m M L w tm R mu eta g1 g2 D0 : ℝ}

/-- near the minimum points are not moved -/
theorem interior_nudge (hA : AwayFromBounds w E.lb E.ub xs) (hB : InteriorSize r m M L w tm eta R) (htm1 : tm ≤ 1) {x : Fin n → ℝ} (hx : rnorm (x - xs) ≤ R) :
    InBox E.lb E.ub x ∧ nudge E.lb E.ub (ofV x) = ofV x := by
  have hRw := interior_half hB htm1
  have hmg := hB.margin_le
  have hmp := margin_pos
  have hxb : InBox E.lb E.ub x := fun i => by simpa using away_near hA hx (b := 0) (by simp; linarith [hB.w_pos]) i
  refine ⟨hxb, ?_⟩
  obtain ⟨r', e1, -, -, e4, -⟩ := nudge_spec E.lb E.ub x hxb
  rw [e1, ofV_inj]
  funext i
  refine e4 i ?_ ?_
  · rw [sub_eq_add_neg]; exact away_near hA hx (by rw [abs_neg, abs_of_pos hmp]; linarith) i
  · exact away_near hA hx (by rw [abs_of_pos hmp]; linarith) i

/-- the first loop head of a run that starts near the minimum -/
theorem interior_start (hE : TRParams E mu eta g1 g2 D0) (htm : E.opts.thetaMax = fin tm) (hA : AwayFromBounds w E.lb E.ub xs) (hB : InteriorSize r m M L w tm eta R)
    (x0 : Fin n → ℝ) (hin : rnorm (x0 - xs) ≤ R) (startId : String) (hess0 : Hess0 Num) (st0 st : St Num n) (cur : Funout Num n)
    (h : LoopHead E (ofV x0) startId hess0 st0 0 st cur) : st.x = ofV x0 ∧ cur.x = ofV x0 ∧ st.delta = fin D0 := by
  obtain ⟨tm', h1, ht0, ht1⟩ := hE.theta
  have htm' : tm = tm' := by rw [htm, fin_inj] at h1; exact h1
  subst htm'
  obtain ⟨-, hnd⟩ := interior_nudge hA hB ht1 hin
  have h1 := head_start st cur h
  rw [hnd] at h1
  have hi := headInv E _ _ _ _ 0 st cur h
  refine ⟨?_, h1, by rw [← hE.deltaInit]; exact start_delta E _ _ _ _ st cur h⟩
  rcases hi.x with ⟨_, he⟩ | he | he
  · rw [he, h1]
  · rw [he, h1]
  · rw [he, h1, hnd]

section
variable (hE : TRParams E mu eta g1 g2 D0) (htm : E.opts.thetaMax = fin tm) (O : ℕ → Oracles Num) (hX : ∀ k, ExactRoutines (O k)) (fuel : ℕ)
    (hO : ∀ k I, E.tr k I = trustRegion (O k) fuel E.opts.subspaceDim E.opts.stepbackStrat I)
    (hdim : E.opts.subspaceDim = .two ∨ E.opts.subspaceDim = .full) (hR : Returns E f g H) (hC : CurvedMinimum r m L f g H xs)
    (hM0 : 0 ≤ M) (hM : ∀ x, rnorm (x - xs) ≤ r → ∀ v, rdot v (rmv (H x) v) ≤ M * rdot v v)
    (hA : AwayFromBounds w E.lb E.ub xs) (hB : InteriorSize r m M L w tm eta R)
    (x0 : Fin n → ℝ) (startId : String) (hess0 : Hess0 Num) (st0 : St Num n) (happ : st0.happ = none)
    (ga : ℝ) (hga : E.opts.gatol = fin ga) (hga0 : 0 ≤ ga) (hstart : ga < rnorm (g x0)) (hDR : 9 * R ^ 2 ≤ 2 * w * D0 ^ 2) (hin : rnorm (x0 - xs) ≤ R)
include hE htm O hX fuel hO hdim hR hC hM0 hM hA hB happ hga hga0 hstart hDR hin

/-- the heads and passes of a run that starts near the minimum -/
theorem interior_from_start (j : ℕ) (st : St Num n) (cur : Funout Num n) (h : LoopHead E (ofV x0) startId hess0 st0 j st cur) :
    ∃ (x : Fin n → ℝ) (D : ℝ), st.x = ofV x ∧ cur.x = ofV x ∧ st.fval = fin (f x) ∧ st.grad = ofV (g x) ∧ st.hess = ofM (H x) ∧ st.delta = fin D ∧ D0 ≤ D ∧
      rnorm (x - xs) ≤ R ∧
      ∀ cur' new step next, Pass E st cur step new next cur' → ∃ (y : Fin n → ℝ), trialPoint st step = ofV y ∧ next.x = ofV y ∧ f y < f x ∧
        ∃ q : Fin n → ℝ, vadd step.ss step.ss0 = ofV q := by
  have hE' := hE
  obtain ⟨tm', h1, ht0, ht1⟩ := hE'.theta
  have htm' : tm = tm' := by rw [htm, fin_inj] at h1; exact h1
  subst htm'
  obtain ⟨hb0, hnd⟩ := interior_nudge hA hB ht1 hin
  have hst : ∀ z, nudge E.lb E.ub (ofV x0) = ofV z → ga < rnorm (g z) := fun z hz => by
    rw [hnd, ofV_inj] at hz
    rw [← hz]; exact hstart
  obtain ⟨s0, c0, hh0⟩ := loopHead_prefix E _ startId hess0 st0 j st cur h 0 (Nat.zero_le _)
  obtain ⟨k1, -, k2⟩ := interior_start hE htm hA hB x0 hin startId hess0 st0 s0 c0 hh0
  obtain ⟨x, D, a1, a2, a3, a4, a5, a6, a7⟩ := interior_head hE htm O hX fuel hO hdim hR hC hM0 hM hA hB x0 startId hess0 st0 happ ga hga hga0 hst
    0 s0 c0 x0 D0 hh0 k1 k2 hE.D0_pos hDR hin j st cur (by rw [Nat.zero_add]; exact h)
  have hRw := interior_half hB ht1
  refine ⟨x, D, a1, (head_interior hR (ofV x0) startId hess0 st0 happ j st cur h x a1 fun a b hb => away_near hA a7 (by
      have := hB.margin_le
      linarith) a).1, a2, a3, a4, a5, a6, a7, fun cur' new step next hp => ?_⟩
  have hg0 := gnz hga0 (interior_live hR x0 startId hess0 st0 ga hga hst j st cur h (continues_live E _ _ hp.continues) x a3)
  have hDD : 9 * R ^ 2 ≤ 2 * w * D ^ 2 := hDR.trans (mul_le_mul_of_nonneg_left (pow_le_pow_left₀ hE.D0_pos.le a6 2) (by have := hB.w_pos; linarith))
  obtain ⟨y, rho, b0, b1, c1, c2, c3, c4, b2, b3, b4⟩ := interior_pass hE htm O hX fuel hO hdim hR hC hM0 hM hA hB hp x D a1 a2 a3 a4 a5
    (hE.D0_pos.trans_le a6) hDD a7 hg0
  exact ⟨y, b0, b1, c1, b4⟩

/-- the evaluations of such a run: the last one is the best -/
theorem interior_evals (k : ℕ) (st : St Num n) (cur : Funout Num n) (h : LoopHead E (ofV x0) startId hess0 st0 k st cur) :
    ∃ (x : Fin n → ℝ) (fo : Funout Num n) (l : List (EvalRec Num n)), st.x = ofV x ∧ st.evals = ({ arg := ofV x, out := .ok fo } :: l) ++ st0.evals ∧
      fo.x = ofV x ∧ fo.fval = fin (f x) ∧ fo.grad = ofV (g x) ∧ ∀ r ∈ l, ∀ fo', r.out = .ok fo' → ∃ y : ℝ, fo'.fval = fin y ∧ f x < y := by
  have hev := hR.evaluates
  induction k generalizing st cur with
  | zero =>
    obtain ⟨hx, hcx, -⟩ := interior_start hE htm hA hB x0 hin startId hess0 st0 st cur h
    obtain ⟨l, fo0, h1, h2, h3, -, -, h4, -⟩ := (headInv E _ startId hess0 st0 0 st cur h).evals
    obtain rfl : l = [] := List.length_eq_zero_iff.mp h2
    obtain ⟨m', raw, h5, h6⟩ := head_evaluated E _ startId hess0 st0 0 st cur h
    simp only [List.nil_append, List.mem_singleton, EvalRec.mk.injEq, Except.ok.injEq] at h4
    obtain ⟨h7, rfl⟩ := h4
    rw [hcx] at h5 h6 h7
    obtain ⟨h8, h9⟩ := hev m' x0 _ raw cur h5 h6
    exact ⟨x0, cur, [], hx, by rw [h1, ← h7]; rfl, hcx, h8, h9, by simp⟩
  | succ k ih =>
    obtain ⟨prev, cur0, step, new, hh, hp⟩ := loopHead_pass E _ startId hess0 st0 k st cur h
    obtain ⟨x, fo, l, h1, h2, h3, h4, h5, h6⟩ := ih prev cur0 hh
    obtain ⟨x', D, a1, -, -, -, -, -, -, -, a2⟩ := interior_from_start hE htm O hX fuel hO hdim hR hC hM0 hM hA hB x0 startId hess0 st0 happ ga hga hga0 hstart hDR hin
      k prev cur0 hh
    obtain rfl : x = x' := ofV_inj.mp (h1.symm.trans a1)
    obtain ⟨y, a3, a4, a5, -⟩ := a2 _ _ _ _ hp
    have a3' : vadd (vadd prev.x step.s) step.s0 = ofV y := a3
    obtain ⟨b3, b4, b5⟩ := pass_evaluates hev hp y a3'
    refine ⟨y, new, { arg := ofV x, out := .ok fo } :: l, a4, by rw [hp.evaluated, h2, a3']; rfl, b3, b4, b5, ?_⟩
    intro r hr fo' hfo
    rcases List.mem_cons.mp hr with rfl | hr
    · cases hfo; exact ⟨f x, h4, a5⟩
    · obtain ⟨z, hz1, hz2⟩ := h6 r hr fo' hfo
      exact ⟨z, hz1, a5.trans hz2⟩

/-- how such a run ends, if it returns -/
theorem interior_result (hgr : E.opts.grtol = fin 0) (hfa : E.opts.fatol = fin 0) (hfr : E.opts.frtol = fin 0) (hxt : E.opts.xtol = fin 0)
    (J : ℕ) (hJ : 5 / 4 * M * (R / 2 ^ (2 ^ J - 1)) ≤ ga) (hiter : (J : ℤ) + 1 ≤ E.opts.maxiter) (htime : E.opts.maxtime = pinf)
    (hclock : ∀ k, ∃ t : ℝ, E.clock k = fin t) (hD0 : 1 / 4503599627370496 ≤ D0) (loops : ℕ) (st' : St Num n)
    (hmin : minimize E loops (ofV x0) startId hess0 st0 = .ok st') :
    st'.exitflag = .gtol ∧ st'.iteration ≤ J ∧
      ∃ x : Fin n → ℝ, st'.x = ofV x ∧ st'.xMin = ofV x ∧ st'.fvalMin = fin (f x) ∧ st'.gradMin = ofV (g x) ∧ rnorm (g x) ≤ ga ∧ rnorm (x - xs) ≤ ga / m := by
  have hE' := hE
  obtain ⟨tm', h1, ht0, ht1⟩ := hE'.theta
  have htm' : tm = tm' := by rw [htm, fin_inj] at h1; exact h1
  subst htm'
  clear h1
  obtain ⟨hb0, hnd⟩ := interior_nudge hA hB ht1 hin
  have hst : ∀ z, nudge E.lb E.ub (ofV x0) = ofV z → ga < rnorm (g z) := fun z hz => by
    rw [hnd, ofV_inj] at hz
    rw [← hz]; exact hstart
  have hev := hR.evaluates
  have hfrom := interior_from_start hE htm O hX fuel hO hdim hR hC hM0 hM hA hB x0 startId hess0 st0 happ ga hga hga0 hstart hDR hin
  obtain ⟨k, st1, cur, st2, fl, hk, hh, hc, rfl⟩ := run_end E (ofV x0) startId hess0 st0 loops st' hmin
  have hi := headInv E _ startId hess0 st0 k st1 cur hh
  have hkk : k < J + 1 := by
    obtain ⟨s0, c0, hh0⟩ := loopHead_prefix E _ startId hess0 st0 k st1 cur hh 0 (Nat.zero_le _)
    obtain ⟨k1, -, k2⟩ := interior_start hE htm hA hB x0 hin startId hess0 st0 s0 c0 hh0
    have := interior_stops hE htm O hX fuel hO hdim hR hC hM0 hM hA hB x0 startId hess0 st0 happ ga hga hga0 hst
      0 s0 c0 x0 D0 hh0 k1 k2 hE.D0_pos hDR hin J hJ k st1 cur hh
    omega
  obtain ⟨xl, D, l1, lc, l2, l3, -, l5, l6, l7, -⟩ := hfrom k st1 cur hh
  have hend : st2 = st1 ∧ st1.converged = true := by
    rcases checkContinue_false E st1 st2 hc with ⟨hcv, rfl⟩ | ⟨_, hm, rfl⟩ | ⟨_, _, ht, rfl⟩ | ⟨_, _, hdl, rfl⟩
    · exact ⟨rfl, hcv⟩
    · exfalso
      rw [hi.iteration] at hm
      omega
    · exfalso
      obtain ⟨t1, ht1⟩ := hclock st1.ticks
      obtain ⟨t0, ht0⟩ := hclock st0.ticks
      rw [hi.starttime, htime, ht1, ht0] at ht
      have hne : ((if st1.iteration = 0 then 1 else st1.iteration : ℕ) : ℝ) ≠ 0 := by
        split <;> simp_all
      generalize (if st1.iteration = 0 then 1 else st1.iteration : ℕ) = m at ht hne
      rw [show (lit ((m : ℕ) : ℚ) : Num) = fin (m : ℝ) by simp] at ht
      simp only [fin_sub, pinf_sub_fin, fin_div _ _ hne] at ht
      cases ht
    · exfalso
      rw [l5, show (spacing1 : Num) = fin (1 / 4503599627370496) by norm_num [spacing1]] at hdl
      simp only [fin_lt, decide_eq_true_eq] at hdl
      linarith
  obtain ⟨rfl, hcv⟩ := hend
  have hgl : st2.exitflag = .gtol ∧ rnorm (g xl) ≤ ga := by
    cases k with
    | zero => rw [loopHead_start_converged E _ startId hess0 st0 _ _ hh] at hcv; cases hcv
    | succ k =>
      obtain ⟨prev, cur0, step, new, hh0, hp⟩ := loopHead_pass E _ startId hess0 st0 k _ cur hh
      have hF := pass_facts E _ _ _ _ _ _ hp
      obtain ⟨x', D', c1, -, c2, -, -, -, -, -, c3⟩ := hfrom k prev cur0 hh0
      obtain ⟨y, b3, b2, -, q, hq⟩ := c3 _ _ _ _ hp
      obtain rfl : xl = y := ofV_inj.mp (l1.symm.trans b2)
      have b3' : vadd (vadd prev.x step.s) step.s0 = ofV xl := b3
      obtain ⟨-, hnf, hng⟩ := pass_evaluates hev hp xl b3'
      have hfl2 := hF.exitflag
      have hcc := hF.converged
      rw [hcv] at hcc
      have hrf : (radiusStep E prev step new).2.fval = prev.fval := by
        unfold radiusStep updateTrRadius
        simp only
        split
        · rfl
        · simp only
          split <;> split <;> first | rfl | (split <;> first | rfl | (split <;> rfl))
      rcases checkConvergence_cases E step new (radiusStep E prev step new).2 with ⟨_, h1, _⟩ | ⟨_, h1, _⟩ | ⟨h1, h2⟩ | h2
      · exfalso
        rw [hrf, c2, hnf, hfa, hfr] at h1
        simp at h1
        linarith [abs_nonneg (f xl - f x')]
      · exfalso
        unfold stepLength at h1
        rw [hq, norm_ofV, hxt] at h1
        simp at h1
        linarith [rnorm_nonneg q]
      · refine ⟨by rw [hfl2, h2], ?_⟩
        rw [hng, hga, hgr, norm_ofV, hrf, c2] at h1
        rcases h1 with h1 | h1
        · simpa using h1
        · have : rnorm (g xl) ≤ 0 := by simpa using h1
          linarith
      · rw [h2] at hcc; cases hcc
  obtain ⟨hgt, hgl⟩ := hgl
  -- the best evaluation is the last one
  obtain ⟨xe, fe, l, e1, e2, e3, e4, e5, e6⟩ := interior_evals hE htm O hX fuel hO hdim hR hC hM0 hM hA hB x0 startId hess0 st0 happ ga hga hga0 hstart hDR hin k st2 cur hh
  obtain rfl : xl = xe := ofV_inj.mp (l1.symm.trans e1)
  obtain ⟨l', fb, m1, m2, m3, m4, m5⟩ := C06_xmin E (ofV x0) startId hess0 st0 loops _ hmin
  obtain ⟨-, -, -, -, -, -, -, hle⟩ := C05_best E (ofV x0) startId hess0 st0 loops _ hmin
  have hll : l' = { arg := ofV xl, out := .ok fe } :: l := List.append_cancel_right (m1.symm.trans e2)
  subst hll
  obtain ⟨later, earlier, hsplit, -⟩ := m2
  have hmem : ({ arg := fb.x, out := .ok fb } : EvalRec Num n) ∈ ({ arg := ofV xl, out := .ok fe } : EvalRec Num n) :: l := by rw [hsplit]; simp
  have hfb : fb = fe := by
    rcases List.mem_cons.mp hmem with h | h
    · simp only [EvalRec.mk.injEq, Except.ok.injEq] at h; exact h.2
    · exfalso
      obtain ⟨z, z1, z2⟩ := e6 _ h fb rfl
      have hle' : le st2.fvalMin st2.fval = true := hle
      have m3' : st2.fvalMin = fb.fval := m3
      rw [m3', z1, l2, fin_le, decide_eq_true_eq] at hle'
      linarith
  subst hfb
  refine ⟨hgt, ?_, xl, l1, ?_, ?_, ?_, hgl, ?_⟩
  · show st2.iteration ≤ _
    rw [hi.iteration]; omega
  · rcases m5 with h | ⟨_, h⟩
    · rw [h, e3]
    · rw [h, e3]; exact (interior_nudge hA hB ht1 l7).2
  · rw [m3, e4]
  · rw [m4, e5]
  · rw [le_div_iff₀ hC.m_pos]
    have := hC.strong (l7.trans (by have := hB.inside; have := hB.pos; linarith))
    linarith

end

/-- **C93, total correctness.** A run that starts near a minimum with positive curvature in the interior of the box (and not already at a point satisfying the
gradient tolerance), with the other tolerances switched off, no time limit and an iteration limit that is not reached: `minimize` returns normally, with
flag `gtol`, after at most `J` iterations (with `J` as in `C93_iterations`); the point it ends at is the one reported as best, its gradient is
at most `gatol` long, and it is within `gatol / m` of the minimizer. -/
theorem C93_minimizer (hn : 0 < n) (hE : TRParams E mu eta g1 g2 D0) (htm : E.opts.thetaMax = fin tm) (O : ℕ → Oracles Num) (hX : ∀ k, ExactRoutines (O k))
    (hFin : ∀ k, FiniteOracles (O k) ∧ DocumentedErrors (O k)) (hO : ∀ k I, E.tr k I = trustRegion (O k) n E.opts.subspaceDim E.opts.stepbackStrat I)
    (hdim : E.opts.subspaceDim = .two ∨ E.opts.subspaceDim = .full) (hR : Returns E f g H) (hCl : CleanObjective E) (hC : CurvedMinimum r m L f g H xs)
    (hM0 : 0 ≤ M) (hM : ∀ x, rnorm (x - xs) ≤ r → ∀ v, rdot v (rmv (H x) v) ≤ M * rdot v v)
    (hA : AwayFromBounds w E.lb E.ub xs) (hB : InteriorSize r m M L w tm eta R)
    (x0 : Fin n → ℝ) (startId : String) (hess0 : Hess0 Num) (st0 : St Num n) (happ : st0.happ = none)
    (hevs : ∀ m, ∃ r, E.evs m = .ok r) (hcond : ∀ m, ∃ r, E.cond m = .ok r) (hfile : E.opts.history = true → ∀ grp ∈ st0.file, grp.1 ≠ startId)
    (ga : ℝ) (hga : E.opts.gatol = fin ga) (hga0 : 0 ≤ ga) (hstart : ga < rnorm (g x0)) (hDR : 9 * R ^ 2 ≤ 2 * w * D0 ^ 2) (hin : rnorm (x0 - xs) ≤ R)
    (hgr : E.opts.grtol = fin 0) (hfa : E.opts.fatol = fin 0) (hfr : E.opts.frtol = fin 0) (hxt : E.opts.xtol = fin 0)
    (J : ℕ) (hJ : 5 / 4 * M * (R / 2 ^ (2 ^ J - 1)) ≤ ga) (hiter : (J : ℤ) + 1 ≤ E.opts.maxiter) (htime : E.opts.maxtime = pinf)
    (hclock : ∀ k, ∃ t : ℝ, E.clock k = fin t) (hD0 : 1 / 4503599627370496 ≤ D0) (loops : ℕ) (hloops : E.opts.maxiter ≤ loops) :
    ∃ st', minimize E loops (ofV x0) startId hess0 st0 = .ok st' ∧ st'.exitflag = .gtol ∧ st'.iteration ≤ J ∧
      ∃ x : Fin n → ℝ, st'.x = ofV x ∧ st'.xMin = ofV x ∧ st'.fvalMin = fin (f x) ∧ st'.gradMin = ofV (g x) ∧ rnorm (g x) ≤ ga ∧ rnorm (x - xs) ≤ ga / m := by
  obtain ⟨tm', h1, ht0, ht1⟩ := hE.theta
  have htm' : tm = tm' := by rw [htm, fin_inj] at h1; exact h1
  subst htm'
  have hd : E.opts.subspaceDim ≠ .other := by rcases hdim with h | h <;> rw [h] <;> intro h <;> cases h
  obtain ⟨st', hmin⟩ := C68_minimize (startId := startId) (hess0 := hess0) hn hCl happ ⟨⟨_, hE.gamma1⟩, ⟨_, hE.gamma2⟩, ⟨_, hE.deltaInit⟩, ⟨_, htm, ht0, ht1⟩⟩ O hO hd
    (fun _ => hFin) hevs hcond x0 (interior_nudge hA hB ht1 hin).1 (fun z _ _ => ⟨f z, _, hR.obj _ z⟩) hfile loops hloops
  exact ⟨st', hmin, interior_result hE htm O hX n hO hdim hR hC hM0 hM hA hB x0 startId hess0 st0 happ ga hga hga0 hstart hDR hin hgr hfa hfr hxt J hJ hiter htime
    hclock hD0 loops st' hmin⟩

/-! ## An example -/

/-- the objective of `inside_run`, with a value that is not a number if an argument is not a number -/
noncomputable def totalObj (f : (Fin n → ℝ) → ℝ) (g : (Fin n → ℝ) → Fin n → ℝ) (H : (Fin n → ℝ) → Fin n → Fin n → ℝ) (v : Vec Num n) : Ret Num :=
  open Classical in
  if h : ∃ x, v = ofV x then .tuple [.scalar (fin (f h.choose)), .ofVec (ofV (g h.choose)), .ofMat (ofM (H h.choose))]
  else .tuple [.scalar nan, .ofVec (ofV (0 : Fin n → ℝ)), .ofMat (ofM (0 : Fin n → Fin n → ℝ))]

theorem totalObj_real (f : (Fin n → ℝ) → ℝ) (g : (Fin n → ℝ) → Fin n → ℝ) (H : (Fin n → ℝ) → Fin n → Fin n → ℝ) (x : Fin n → ℝ) :
    totalObj f g H (ofV x) = .tuple [.scalar (fin (f x)), .ofVec (ofV (g x)), .ofMat (ofM (H x))] := by
  have hex : ∃ x', (ofV x : Vec Num n) = ofV x' := ⟨x, rfl⟩
  have hx : hex.choose = x := (ofV_inj.mp hex.choose_spec).symm
  unfold totalObj
  rw [dif_pos hex, hx]

noncomputable def boxedEnv (n : ℕ) : Env Num n := { insideEnv n with obj := fun _ v => totalObj cubicF cubicG cubicH v }

theorem boxedEnv_clean : CleanObjective (boxedEnv n) where
  nargout := rfl
  resfun := rfl
  obj k v _ := by
    by_cases h : ∃ x, v = ofV x
    · obtain ⟨x, rfl⟩ := h
      exact ⟨_, _, _, totalObj_real cubicF cubicG cubicH x, fun _ => ⟨fun i hi => by simp at hi, ⟨_, rfl⟩, _, rfl, fun i j => by
        unfold cubicH
        by_cases hij : i = j
        · subst hij; rfl
        · rw [if_neg hij, if_neg (Ne.symm hij)]⟩⟩
    · refine ⟨nan, ofV 0, ofM 0, ?_, fun hf => by simp at hf⟩
      show totalObj cubicF cubicG cubicH v = _
      unfold totalObj
      rw [dif_neg h]

/-- from every point within `1/60` of the minimizer the run returns normally, after at most four iterations, with a point within `2e-6` of the minimizer -/
theorem boxed_run (hn : 0 < n) (x0 : Fin n → ℝ) (h0 : rnorm x0 ≤ 1 / 60) (hg : 1 / 1000000 < rnorm (cubicG x0)) :
    ∃ st', minimize (boxedEnv n) 1000 (ofV x0) "0" (.val .none) (St.new (boxedEnv n).opts none) = .ok st' ∧ st'.exitflag = .gtol ∧ st'.iteration ≤ 4 ∧
      ∃ x : Fin n → ℝ, st'.xMin = ofV x ∧ rnorm (cubicG x) ≤ 1 / 1000000 ∧ rnorm x ≤ 2 / 1000000 := by
  have hE : TRParams (boxedEnv n) (1 / 4) (3 / 4) (1 / 4) 2 1 := by
    constructor <;> try (simp only [boxedEnv, insideEnv, localEnv, demo_opts])
    all_goals norm_num
  have hR : Returns (boxedEnv n) cubicF cubicG cubicH := ⟨rfl, rfl, fun k x => totalObj_real cubicF cubicG cubicH x⟩
  obtain ⟨st', h1, h2, h3, x, h4, h5, h6, h7, h8, h9⟩ := C93_minimizer hn hE (by simp only [boxedEnv, insideEnv, localEnv, demo_opts]) (fun _ => exactRoutines)
    (fun _ => exactRoutines_ok) (fun _ => ⟨exactRoutines_finite, exactRoutines_documented⟩)
    (by intro k I; simp only [boxedEnv, insideEnv, localEnv, plainEnv, demo_opts]) (Or.inl (by simp only [boxedEnv, insideEnv, localEnv, demo_opts])) hR boxedEnv_clean cubic_curved
    (M := 3 / 2) (by norm_num) cubic_upper (inside_away (n := n)) inside_size x0 "0" (.val .none) (St.new (boxedEnv n).opts none) rfl
    (fun _ => ⟨_, rfl⟩) (fun _ => ⟨_, rfl⟩) (fun _ grp h => by simp [St.new] at h)
    (1 / 1000000) (by simp only [boxedEnv, insideEnv, localEnv, demo_opts]) (by norm_num) hg (by norm_num) (by rw [sub_zero]; exact h0)
    (by simp only [boxedEnv, insideEnv, localEnv, demo_opts]) rfl rfl (by simp only [boxedEnv, insideEnv, localEnv, demo_opts]) 4 (by norm_num)
    (by simp only [boxedEnv, insideEnv, localEnv, demo_opts]; norm_num) (by simp only [boxedEnv, insideEnv, localEnv, demo_opts]) (fun _ => ⟨0, rfl⟩) (by norm_num) 1000
    (by simp only [boxedEnv, insideEnv, localEnv, demo_opts]; norm_num)
  exact ⟨st', h1, h2, h3, x, h5, h8, by rw [sub_zero] at h9; norm_num at h9 ⊢; exact h9⟩

end Fides
