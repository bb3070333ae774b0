import Verif.Spec.BoxConvex
import Verif.Props.BoundedNewton
import Verif.Props.BoundedReach
import Verif.Props.NoException
import Verif.Lemmas.InteriorMath

/-!
# C94: convex problems with bounds
-/

namespace Fides
open Num Spec
variable {n : ℕ} {E : Env Num n} {f : (Fin n → ℝ) → ℝ} {g : (Fin n → ℝ) → Fin n → ℝ} {W G : ℝ} {lb ub : Vec Num n}

/-- **C94, what the measure says.** For a convex objective and two bounds for every variable, the value at a point is above the minimum by at most a constant times the
optimality measure (at a nearby point), plus a term for the distance of the two points. -/
theorem C94_measure (hW : TwoBounds W lb ub) (hC : ConvexIn 0 lb ub f g) {x z y : Fin n → ℝ} (hx : InBox lb ub x) (hz : InBox lb ub z) (hy : InBox lb ub y)
    {e : ℝ} (he : 0 ≤ e) (hxz : ∀ i, |x i - z i| ≤ e) (hG : ∀ i, |g z i| ≤ G) :
    f z - f y ≤ Real.sqrt (n * W) * scaledGrad lb ub x (g z) + n * G * e := by
  have h0 : f z - f y ≤ ∑ i, g z i * (z i - y i) := by
    have h := hC z y hz hy
    have h2 : rdot (g z) (y - z) = -∑ i, g z i * (z i - y i) := by
      rw [rdot, ← Finset.sum_neg_distrib]
      exact Finset.sum_congr rfl fun i _ => by rw [Pi.sub_apply]; ring
    rw [h2] at h
    linarith
  have hd : ∀ i, 0 ≤ boundDist lb ub x (g z) i ∧ boundDist lb ub x (g z) i ≤ W ∧ g z i * (z i - y i) ≤ boundDist lb ub x (g z) i * |g z i| + |g z i| * e := by
    intro i
    obtain ⟨l, u, hl, hu, hlu⟩ := hW i
    have b1 := hx i; have b2 := hz i; have b3 := hy i
    rw [hl, hu] at b1 b2 b3
    simp only [InBox1, fin_le, decide_eq_true_eq] at b1 b2 b3
    obtain ⟨c1, c2⟩ := abs_le.mp (hxz i)
    unfold boundDist
    rw [hl, hu]
    split
    · rename_i hg
      rw [abs_of_neg hg]
      refine ⟨by linarith, by linarith, ?_⟩
      nlinarith
    · rename_i hg
      push Not at hg
      rw [abs_of_nonneg hg]
      refine ⟨by linarith, by linarith, ?_⟩
      nlinarith
  have h1 : ∑ i, g z i * (z i - y i) ≤ ∑ i, boundDist lb ub x (g z) i * |g z i| + n * G * e := by
    calc ∑ i, g z i * (z i - y i) ≤ ∑ i, (boundDist lb ub x (g z) i * |g z i| + G * e) := Finset.sum_le_sum fun i _ => by
          have := (hd i).2.2
          have := mul_le_mul_of_nonneg_right (hG i) he
          linarith
      _ = _ := by rw [Finset.sum_add_distrib, Finset.sum_const, Finset.card_univ, Fintype.card_fin, nsmul_eq_mul, mul_assoc]
  have h2 : ∑ i, boundDist lb ub x (g z) i * |g z i| ≤ Real.sqrt (n * W) * scaledGrad lb ub x (g z) := by
    have e1 : ∑ i, boundDist lb ub x (g z) i * |g z i| = ∑ i, Real.sqrt (boundDist lb ub x (g z) i) * (Real.sqrt (boundDist lb ub x (g z) i) * |g z i|) :=
      Finset.sum_congr rfl fun i _ => by rw [← mul_assoc, Real.mul_self_sqrt (hd i).1]
    rw [e1]
    refine (Real.sum_mul_le_sqrt_mul_sqrt _ _ _).trans ?_
    have e2 : ∑ i, (Real.sqrt (boundDist lb ub x (g z) i) * |g z i|) ^ 2 = ∑ i, boundDist lb ub x (g z) i * g z i ^ 2 :=
      Finset.sum_congr rfl fun i _ => by rw [mul_pow, Real.sq_sqrt (hd i).1, sq_abs]
    have e3 : ∑ i, Real.sqrt (boundDist lb ub x (g z) i) ^ 2 ≤ n * W := by
      calc ∑ i, Real.sqrt (boundDist lb ub x (g z) i) ^ 2 ≤ ∑ _i : Fin n, W := Finset.sum_le_sum fun i _ => by rw [Real.sq_sqrt (hd i).1]; exact (hd i).2.1
        _ = _ := by rw [Finset.sum_const, Finset.card_univ, Fintype.card_fin, nsmul_eq_mul]
    rw [e2]
    exact mul_le_mul_of_nonneg_right (Real.sqrt_le_sqrt e3) (Real.sqrt_nonneg _)
  linarith

/-- a strongly convex function grows quadratically from its minimizer in the box -/
theorem convex_growth {m : ℝ} (hm : 0 ≤ m) (hC : ConvexIn m lb ub f g) {xs y : Fin n → ℝ} (hs : MinimizerIn lb ub f xs) (hy : InBox lb ub y) :
    m / 2 * rdot (y - xs) (y - xs) ≤ f y - f xs := by
  obtain ⟨hxs, hmin⟩ := hs
  set q := rdot (y - xs) (y - xs) with hq
  have hq0 : 0 ≤ q := rdot_self_nonneg _
  have key : ∀ t : ℝ, 0 < t → t < 1 → m / 2 * q - t * (m / 2 * q) ≤ f y - f xs := by
    intro t h0 h1
    set v := xs + t • (y - xs) with hv
    have hvb : InBox lb ub v := by
      intro i
      have a := hxs i; have b := hy i
      have e : v i = xs i + t * (y i - xs i) := rfl
      rw [e]
      rcases le_total (xs i) (y i) with h | h
      · exact inBox1_between a b (by nlinarith) (by nlinarith)
      · exact inBox1_between b a (by nlinarith) (by nlinarith)
    have h3 := hC v y hvb hy
    have h4 := hC v xs hvb hxs
    have h5 := hmin v hvb
    have e1 : y - v = (1 - t) • (y - xs) := by funext i; simp [hv]; ring
    have e2 : xs - v = (-t) • (y - xs) := by funext i; simp [hv]
    rw [e1, rdot_smul, smul_rdot, rdot_smul, ← hq] at h3
    rw [e2, rdot_smul, smul_rdot, rdot_smul, ← hq] at h4
    have h6 := mul_le_mul_of_nonneg_left h3 h0.le
    have h7 := mul_le_mul_of_nonneg_left h4 (by linarith : (0 : ℝ) ≤ 1 - t)
    have h8 : t * (m / 2 * q - t * (m / 2 * q)) ≤ t * (f y - f xs) := by nlinarith
    exact le_of_mul_le_mul_left h8 h0
  by_contra hcon
  push Not at hcon
  have hp : 0 < m / 2 * q := by
    have h9 := hmin y hy
    linarith
  have := key (min (1 / 2) ((m / 2 * q - (f y - f xs)) / (2 * (m / 2 * q)))) (lt_min (by norm_num) (div_pos (by linarith) (by linarith))) (lt_of_le_of_lt (min_le_left _ _) (by norm_num))
  have h2 : min (1 / 2) ((m / 2 * q - (f y - f xs)) / (2 * (m / 2 * q))) * (m / 2 * q) ≤ (m / 2 * q - (f y - f xs)) / 2 := by
    refine (mul_le_mul_of_nonneg_right (min_le_right _ _) hp.le).trans (le_of_eq ?_)
    have hpn := hp.ne'
    generalize m / 2 * q = c at *
    field_simp
  linarith

variable {H : (Fin n → ℝ) → Fin n → Fin n → ℝ} {x0 : Vec Num n} {startId : String} {hess0 : Hess0 Num} {st0 : St Num n}

/-- everything on the record of a run with a new optimizer was returned by the objective -/
theorem records_evaluated (k : ℕ) (st : St Num n) (cur : Funout Num n) (h : LoopHead E x0 startId hess0 st0 k st cur) (h0 : st0.evals = []) :
    ∀ q ∈ st.evals, ∀ fo, q.out = .ok fo → fo.x = q.arg ∧ ∃ m raw, funEval E.nargout E.resfun (E.obj m fo.x) = .ok raw ∧ raw.typed fo.x fo.xId = some fo := by
  induction k generalizing st cur with
  | zero =>
    obtain ⟨l, fo0, h1, h2, -, -, -, h4, -⟩ := (headInv E x0 startId hess0 st0 0 st cur h).evals
    obtain rfl : l = [] := List.length_eq_zero_iff.mp h2
    simp only [List.nil_append, List.mem_singleton, EvalRec.mk.injEq, Except.ok.injEq] at h4
    obtain ⟨h7, rfl⟩ := h4
    intro q hq fo hfo
    rw [h1, h0] at hq
    simp only [List.nil_append, List.mem_singleton] at hq
    subst hq
    cases hfo
    exact ⟨h7, head_evaluated E x0 startId hess0 st0 0 st cur h⟩
  | succ k ih =>
    obtain ⟨prev, cur0, step, new, hh, hp⟩ := loopHead_pass E x0 startId hess0 st0 k st cur h
    intro q hq fo hfo
    rw [hp.evaluated] at hq
    rcases List.mem_cons.mp hq with rfl | hq
    · cases hfo
      exact ⟨hp.point, pass_evaluated hp⟩
    · exact ih prev cur0 hh q hq fo hfo

/-- **C94, runs.** When a call of `minimize` of a new optimizer returns after an evaluation near which the optimality measure was below `eps`, the reported minimum is at most
`convexGap` above the minimum of the objective in the box. -/
theorem C94_gap (hev : EvaluatesOn E f g) (hT : UsesTrustRegion E) (tm : ℝ) (htm : E.opts.thetaMax = fin tm) (ht0 : 0 < tm) (ht1 : tm ≤ 1)
    (hW : TwoBounds W E.lb E.ub) (hC : ConvexIn 0 E.lb E.ub f g) (hG : GradBound G E.lb E.ub g) (hCl : CleanObjective E) (h0 : st0.evals = []) (eps : ℝ)
    (loops : ℕ) (st' : St Num n) (h : minimize E loops x0 startId hess0 st0 = .ok st') (hN : NearOptimal E g eps st') :
    Solved E f (convexGap n W G eps) st' := by
  obtain ⟨k, st1, cur, ef, t, fl, -, hh, rfl⟩ := run_end_fields E x0 startId hess0 st0 loops st' h
  have hi := headInv E x0 startId hess0 st0 k st1 cur hh
  have hrec := records_evaluated k st1 cur hh h0
  have hins := C04_inside E x0 startId hess0 st0 hT tm htm ht0 ht1 loops
  rw [h] at hins
  obtain ⟨l0, hl0, hin⟩ := hins
  rw [h0, List.append_nil] at hl0
  have hl0' : st1.evals = l0 := hl0
  subst hl0'
  obtain ⟨l, b, hl, hfb, hfm, -, hx⟩ := C06_xmin E x0 startId hess0 st0 loops _ h
  obtain ⟨l', b', hl', hfb', hfm', -, hle, -⟩ := C05_best E x0 startId hess0 st0 loops _ h
  simp only [h0, List.append_nil] at hl hl' hfm hfm' hle hx
  subst hl
  subst hl'
  -- the best evaluation is at a point of the box
  obtain ⟨later, earlier, hsplit, hbfin, -, -⟩ := hfb
  have hbm : ({ arg := b.x, out := .ok b } : EvalRec Num n) ∈ st1.evals := by rw [hsplit]; simp
  obtain ⟨-, m, raw, e1, e2⟩ := hrec _ hbm b rfl
  have hbin : NanOrInBox E.lb E.ub b.x := hin _ hbm
  obtain ⟨raw', fv, gr, he, rest, -, p2, -, -, p5, p6⟩ := clean_eval hCl m b.x hbin
  rw [e1] at p2
  cases p2
  have hbfv : b.fval = fv := by
    have := p5 b.xId
    rw [e2] at this
    rw [Option.some.inj this]
  obtain ⟨zb, hzb, hzbb⟩ := nanOr_real hbin (p6 (by rw [← hbfv]; exact hbfin)).1
  rw [hzb] at e1 e2
  have hval := (hev m zb _ raw b hzbb e1 e2).1
  -- the nearly optimal point
  obtain ⟨z, x, fo, hz, hzb', hxb, hxz, hsm⟩ := hN
  obtain ⟨q1, m', raw', q2, q3⟩ := hrec _ hz fo rfl
  rw [show fo.x = ofV z from q1] at q2 q3
  have hfz := (hev m' z _ raw' fo hzb' q2 q3).1
  have hvz : f zb ≤ f z := by
    have := hle { arg := ofV z, out := .ok fo } hz fo rfl (by rw [hfz]; rfl)
    rw [hfm, hval, hfz, fin_le] at this
    simpa using this
  obtain ⟨x', hx', hxb', hxz'⟩ : ∃ x', st1.xMin = ofV x' ∧ InBox E.lb E.ub x' ∧ ∀ i, |x' i - zb i| ≤ margin := by
    rcases hx with hx | ⟨-, hx⟩
    · exact ⟨zb, by rw [hx, hzb], hzbb, fun i => by simpa using margin_pos.le⟩
    · obtain ⟨r', n1, n2, n3, -⟩ := nudge_spec E.lb E.ub zb hzbb
      exact ⟨r', by rw [hx, hzb, n1], n2, n3⟩
  refine ⟨zb, x', hzbb, hxb', by show st1.fvalMin = _; rw [hfm, hval], fun y hy => ?_, hx', hxz'⟩
  have hGz : ∀ i, |g z i| ≤ G := fun i => hG z hzb' i (by
    obtain ⟨l, u, e, -⟩ := hW i
    left; rw [e]; simp)
  have h1 := C94_measure hW hC hxb hzb' hy margin_pos.le hxz hGz
  have h2 := mul_le_mul_of_nonneg_left hsm.le (Real.sqrt_nonneg (n * W))
  unfold convexGap
  linarith

/-- the reported minimizer is close to the minimizer when the objective is strongly convex -/
theorem C94_minimizer {m : ℝ} (hm : 0 < m) (hC : ConvexIn m E.lb E.ub f g) {xs : Fin n → ℝ} (hs : MinimizerIn E.lb E.ub f xs) {gap : ℝ} {st : St Num n}
    (h : Solved E f gap st) : ∃ x : Fin n → ℝ, st.xMin = ofV x ∧ InBox E.lb E.ub x ∧ rnorm (x - xs) ≤ Real.sqrt (2 * gap / m) + Real.sqrt n * margin := by
  obtain ⟨z, x, hz, hx, -, hle, hxm, hxz⟩ := h
  refine ⟨x, hxm, hx, ?_⟩
  have h1 := convex_growth hm.le hC hs hz
  have h2 := hle xs hs.1
  have h3 : rnorm (z - xs) ≤ Real.sqrt (2 * gap / m) := by
    unfold rnorm
    apply Real.sqrt_le_sqrt
    rw [le_div_iff₀ hm]
    linarith
  have h4 : rnorm (x - z) ≤ Real.sqrt n * margin := by
    have hm0 := margin_pos
    rw [← Real.sqrt_sq hm0.le, ← Real.sqrt_mul (Nat.cast_nonneg n)]
    unfold rnorm
    apply Real.sqrt_le_sqrt
    unfold rdot
    calc ∑ i, (x - z) i * (x - z) i ≤ ∑ _i : Fin n, margin ^ 2 := Finset.sum_le_sum fun i _ => by
          have := hxz i
          rw [← sq, Pi.sub_apply, ← sq_abs]
          exact pow_le_pow_left₀ (abs_nonneg _) this 2
      _ = _ := by rw [Finset.sum_const, Finset.card_univ, Fintype.card_fin, nsmul_eq_mul]
  have e : x - xs = (z - xs) + (x - z) := by abel
  rw [e]
  exact (rnorm_add_le _ _).trans (add_le_add h3 h4)

/-- what a run has met by some iteration is on the record when it returns -/
theorem reached_returned {eps : ℝ} {k : ℕ} {st : St Num n} {cur : Funout Num n} (hh : LoopHead E x0 startId hess0 st0 k st cur) {P : Prop}
    (hr : NearOptimal E g eps st ∨ ((P ∧ NonRealTrial E st) ∧ (checkContinue E st).1 = true)) (loops : ℕ) (st' : St Num n)
    (h : minimize E loops x0 startId hess0 st0 = .ok st') : NearOptimal E g eps st' ∨ (P ∧ ∃ r ∈ st'.evals, ∀ y : Fin n → ℝ, r.arg ≠ ofV y) := by
  obtain ⟨K, st1, cur1, st2, fl, -, h1, hc, rfl⟩ := run_end E x0 startId hess0 st0 loops st' h
  have hev : ({ st2 with file := fl } : St Num n).evals = st1.evals := by
    rcases checkContinue_false E st1 st2 hc with ⟨-, rfl⟩ | ⟨-, -, rfl⟩ | ⟨-, -, -, rfl⟩ | ⟨-, -, -, rfl⟩ <;> rfl
  have hkK : k ≤ K := by
    by_contra hlt
    push Not at hlt
    obtain ⟨s, c, h2⟩ := loopHead_prefix E _ startId hess0 st0 k st cur hh (K + 1) hlt
    obtain ⟨prev, cur0, step, new, h3, hp⟩ := loopHead_pass E _ startId hess0 st0 K s c h2
    obtain ⟨rfl, rfl⟩ := loopHead_unique E _ startId hess0 st0 K _ _ _ _ h1 h3
    rw [hp.continues] at hc
    cases hc
  rcases hr with ⟨z, x, fo, e1, e2⟩ | ⟨⟨hP, hn⟩, hcc⟩
  · left
    refine ⟨z, x, fo, ?_, e2⟩
    rw [hev]
    obtain ⟨m, rfl⟩ : ∃ m, K = k + m := ⟨K - k, by omega⟩
    exact head_keeps k st cur hh _ e1 m st1 cur1 h1
  · right
    refine ⟨hP, ?_⟩
    rw [hev]
    refine nonReal_evaluated k st cur hh hn K ?_ st1 cur1 h1
    rcases hkK.lt_or_eq with hlt | rfl
    · exact hlt
    · obtain ⟨rfl, rfl⟩ := loopHead_unique E _ startId hess0 st0 k _ _ _ _ h1 hh
      rw [hc] at hcc
      cases hcc

section
variable {mu eta g1 g2 D0 tm L M M0 fmin : ℝ}

/-- **C94 (default solver).** Two-dimensional (default) or full-space solver with exact routines, step-back strategy `reflect` (default), `reflect_single` or `refine`, an objective
that returns its value, gradient and Hessian and is convex in a box with two bounds for every variable; problem and options as in C67.  The call of `minimize` returns,
and the minimum that is reported is at most `convexGap` above the minimum of the objective in the box, from every starting point (unless, with a strategy other than
`refine`, the objective was called with an argument that is not a vector of numbers; with one variable this cannot happen). -/
theorem C94_default (hE : TRParams E mu eta g1 g2 D0) (htm : E.opts.thetaMax = fin tm) (O : ℕ → Oracles Num) (hN : NewtonSolver E O n)
    (hn : 0 < n) (hR : Returns E f g H) (hCl : CleanObjective E) (hDoc : ∀ k, DocumentedErrors (O k)) (hL0 : 0 ≤ L) (hM0 : 0 < M0) (hMM : 2 * M0 + G / W ≤ M) (hW : 1 ≤ W)
    (hG : 0 < G) (hL : SmoothOn L E.lb E.ub f g)
    (hH : ∀ x, InBox E.lb E.ub x → Sym (H x) ∧ PD (H x) ∧ ∀ v, rdot v (rmv (H x) v) ≤ M0 * rdot v v)
    (hTB : TwoBounds W E.lb E.ub) (hfar : ∀ i, ∃ l u : ℝ, E.lb i = fin l ∧ E.ub i = fin u ∧ 3 * margin ≤ u - l) (hC : ConvexIn 0 E.lb E.ub f g)
    (hGb : GradBound G E.lb E.ub g) (hmin : ∀ y, InBox E.lb E.ub y → fmin ≤ f y) (happ : st0.happ = none) (hnew : st0.evals = [])
    (r0 : Fin n → ℝ) (hx0 : InBox E.lb E.ub r0) (gap : ℝ)
    (hgap : ∀ z, nudge E.lb E.ub (ofV r0) = ofV z → f z - fmin ≤ gap) (eps : ℝ)
    (heps : 1 / 2 ^ 50 ≤ eps) (hprec : 1 / 2 ^ 25 ≤ eps / scaledCurv W M0 G)
    (hsmall : nudgeError n L G margin ≤ (1 - mu) / 2 * boxPred mu g1 D0 L W M G tm eps)
    (hfa : E.opts.fatol = fin 0) (hfr : E.opts.frtol = fin 0) (hxt : E.opts.xtol = fin 0) (hgr : E.opts.grtol = fin 0)
    (ga : ℝ) (hga : E.opts.gatol = fin ga) (hgae : Real.sqrt W * ga < eps)
    (hiter : (boxBound mu g1 g2 D0 L W M G tm gap eps : ℤ) ≤ E.opts.maxiter) (htime : E.opts.maxtime = pinf)
    (hclock : ∀ k, ∃ t : ℝ, E.clock k = fin t) (hfloor : 1 / 4503599627370496 ≤ boxFloor mu g1 D0 L W M G tm eps)
    (hevs : ∀ m, ∃ r, E.evs m = .ok r) (hcond : ∀ m, ∃ r, E.cond m = .ok r)
    (hfile : E.opts.history = true → ∀ g ∈ st0.file, g.1 ≠ startId) (loops : ℕ) (hloops : E.opts.maxiter ≤ loops) :
    ∃ st', minimize E loops (ofV r0) startId hess0 st0 = .ok st' ∧
      (Solved E f (convexGap n W G eps) st' ∨ (E.opts.stepbackStrat ≠ .refine ∧ 1 < n ∧ ∃ r ∈ st'.evals, ∀ y : Fin n → ℝ, r.arg ≠ ofV y)) := by
  obtain ⟨tm', h1, ht0, ht1⟩ := hE.theta
  have htm' : tm = tm' := by rw [htm, fin_inj] at h1; exact h1
  subst htm'
  clear h1
  have hF : FreeOrBetween (3 * margin) W E.lb E.ub := fun i => by
    obtain ⟨l, u, a1, a2, a3⟩ := hTB i
    obtain ⟨l', u', b1, b2, b3⟩ := hfar i
    rw [a1, fin_inj] at b1
    rw [a2, fin_inj] at b2
    subst b1 b2
    exact Or.inr ⟨l, u, a1, a2, b3, a3⟩
  obtain ⟨k, -, st, cur, hh, hr⟩ := C67_reaches (startId := startId) (hess0 := hess0) hE htm O n hN H hR hL0 hM0 hMM hW hG hL hH hF hGb hmin happ r0 hx0 gap hgap eps heps hprec
    hsmall hfa hfr hxt hgr ga hga hgae hiter htime hclock hfloor hevs hcond
  have hdo : E.opts.subspaceDim ≠ .other := by rcases hN.solver with h | h <;> rw [h] <;> simp
  obtain ⟨st', hst'⟩ := C68_minimize (startId := startId) (hess0 := hess0) hn hCl happ ⟨⟨_, hE.gamma1⟩, ⟨_, hE.gamma2⟩, ⟨_, hE.deltaInit⟩, ⟨_, htm, ht0, ht1⟩⟩ O
    hN.uses hdo (fun _ k => ⟨hN.finite k, hDoc k⟩) hevs hcond r0 hx0 (fun z hz _ => ⟨f z, _, hR.obj _ z⟩) hfile loops hloops
  refine ⟨st', hst', ?_⟩
  have hr' : NearOptimal E g eps st ∨ (((E.opts.stepbackStrat ≠ .refine ∧ 1 < n) ∧ NonRealTrial E st) ∧ (checkContinue E st).1 = true) := by
    rcases hr with h | ⟨⟨h1, h2, h3⟩, h4⟩
    · exact Or.inl h
    · exact Or.inr ⟨⟨⟨h1, h2⟩, h3⟩, h4⟩
  rcases reached_returned hh hr' loops st' hst' with h | ⟨⟨h1, h2⟩, h3⟩
  · exact Or.inl (C94_gap (returns_evaluatesOn hR) ⟨O, n, hN.uses⟩ tm htm ht0 ht1 hTB hC hGb hCl hnew eps loops st' hst' h)
  · exact Or.inr ⟨h1, h2, h3⟩

/-- **C94 (Steihaug solver).** The same for the Steihaug solver, for every strategy and any symmetric bounded Hessians, as in C65. -/
theorem C94_steihaug (hE : TRParams E mu eta g1 g2 D0) (htm : E.opts.thetaMax = fin tm) (O : ℕ → Oracles Num)
    (hO : ∀ k I, E.tr k I = trustRegion (O k) n E.opts.subspaceDim E.opts.stepbackStrat I)
    (hdim : E.opts.subspaceDim = .steihaug) (hn : 0 < n)
    (hR : Returns E f g H) (hCl : CleanObjective E) (hL0 : 0 ≤ L) (hM0 : 0 < M) (hW : 1 ≤ W) (hG : 0 < G) (hL : SmoothOn L E.lb E.ub f g)
    (hH : ∀ x, InBox E.lb E.ub x → Sym (H x) ∧ ∀ v, |rdot v (rmv (H x) v)| ≤ M * rdot v v) (hTB : TwoBounds W E.lb E.ub) (hC : ConvexIn 0 E.lb E.ub f g)
    (hGb : GradBound G E.lb E.ub g) (hmin : ∀ y, InBox E.lb E.ub y → fmin ≤ f y) (happ : st0.happ = none) (hnew : st0.evals = [])
    (r0 : Fin n → ℝ) (hx0 : InBox E.lb E.ub r0) (gap : ℝ)
    (hgap : ∀ z, nudge E.lb E.ub (ofV r0) = ofV z → f z - fmin ≤ gap) (eps : ℝ) (he : 0 < eps)
    (hsmall : nudgeError n L G margin ≤ (1 - mu) / 2 * boxPred mu g1 D0 L W M G tm eps)
    (hfa : E.opts.fatol = fin 0) (hfr : E.opts.frtol = fin 0) (hxt : E.opts.xtol = fin 0) (hgr : E.opts.grtol = fin 0)
    (ga : ℝ) (hga : E.opts.gatol = fin ga) (hgae : Real.sqrt W * ga < eps)
    (hiter : (boxBound mu g1 g2 D0 L W M G tm gap eps : ℤ) ≤ E.opts.maxiter) (htime : E.opts.maxtime = pinf)
    (hclock : ∀ k, ∃ t : ℝ, E.clock k = fin t) (hfloor : 1 / 4503599627370496 ≤ boxFloor mu g1 D0 L W M G tm eps)
    (hevs : ∀ m, ∃ r, E.evs m = .ok r) (hcond : ∀ m, ∃ r, E.cond m = .ok r)
    (hfile : E.opts.history = true → ∀ g ∈ st0.file, g.1 ≠ startId) (loops : ℕ) (hloops : E.opts.maxiter ≤ loops) :
    ∃ st', minimize E loops (ofV r0) startId hess0 st0 = .ok st' ∧
      (Solved E f (convexGap n W G eps) st' ∨ (1 < n ∧ ∃ r ∈ st'.evals, ∀ y : Fin n → ℝ, r.arg ≠ ofV y)) := by
  obtain ⟨tm', h1, ht0, ht1⟩ := hE.theta
  have htm' : tm = tm' := by rw [htm, fin_inj] at h1; exact h1
  subst htm'
  clear h1
  have hF : FreeOrWidth W E.lb E.ub := fun i => Or.inr (hTB i)
  obtain ⟨k, -, st, cur, hh, hr⟩ := C65_reaches (startId := startId) (hess0 := hess0) hE htm O hO hdim H hR hL0 hM0 hW hG hL hH hF hGb hmin happ r0 hx0 gap hgap eps he
    hsmall hfa hfr hxt hgr ga hga hgae hiter htime hclock hfloor hevs hcond
  have hdo : E.opts.subspaceDim ≠ .other := by rw [hdim]; simp
  obtain ⟨st', hst'⟩ := C68_minimize (startId := startId) (hess0 := hess0) hn hCl happ ⟨⟨_, hE.gamma1⟩, ⟨_, hE.gamma2⟩, ⟨_, hE.deltaInit⟩, ⟨_, htm, ht0, ht1⟩⟩ O
    hO hdo (fun h => absurd hdim h) hevs hcond r0 hx0 (fun z hz _ => ⟨f z, _, hR.obj _ z⟩) hfile loops hloops
  refine ⟨st', hst', ?_⟩
  rcases reached_returned hh hr loops st' hst' with h | h
  · exact Or.inl (C94_gap (returns_evaluatesOn hR) ⟨O, n, hO⟩ tm htm ht0 ht1 hTB hC hGb hCl hnew eps loops st' hst' h)
  · exact Or.inr h

end

/-! ## A problem that meets the assumptions -/

noncomputable section

theorem bowl_convex (m : ℝ) (hm : m ≤ 1) (lb ub : Vec Num n) : ConvexIn m lb ub (fun x => 1 / 2 * rdot x x) (fun x => x) := by
  intro x y _ _
  have e : rdot y y = rdot x x + 2 * rdot x (y - x) + rdot (y - x) (y - x) := by
    have : y = x + (y - x) := by abel
    conv_lhs => rw [this]
    rw [add_rdot, rdot_add, rdot_add, rdot_comm (y - x) x]
    ring
  have h0 := rdot_self_nonneg (y - x)
  simp only
  rw [e]
  nlinarith

/-- `newtonEnv` with strategy `refine` is solved from every starting point in the box: the call returns and reports a minimizer within 1/4 of `(1, 1)` -/
example (r0 : Fin 2 → ℝ) (h0 : InBox boxEnv.lb boxEnv.ub r0) :
    let N := boxBound (1 / 4) (1 / 4) 2 1 1 2 4 3 (19 / 20) 9 (1 / 100)
    ∃ st', minimize (newtonEnv .refine N) N (ofV r0) "0" (.val .none) (St.new (newtonEnv .refine N).opts none) = .ok st' ∧
      ∃ x : Fin 2 → ℝ, st'.xMin = ofV x ∧ rnorm (x - fun _ => 1) ≤ 1 / 4 := by
  intro N
  have h1 : scaledCurv 2 4 3 = 11 := by norm_num [scaledCurv]
  have h2 : cutFactor 2 4 3 (19 / 20) = 1 / 11 := by rw [cutFactor, h1]; norm_num
  have hs : (StepBackStrategy.refine = .reflect ∨ StepBackStrategy.refine = .refine) := Or.inr rfl
  have key : ∃ st', minimize (newtonEnv .refine N) N (ofV r0) "0" (.val .none) (St.new (newtonEnv .refine N).opts none) = .ok st' ∧
      (Solved (newtonEnv .refine N) (fun x => 1 / 2 * rdot x x) (convexGap 2 2 3 (1 / 100)) st' ∨
        ((newtonEnv .refine N).opts.stepbackStrat ≠ .refine ∧ 1 < 2 ∧ ∃ r ∈ st'.evals, ∀ y : Fin 2 → ℝ, r.arg ≠ ofV y)) := by
    refine C94_default (fmin := 0) (M0 := 1) (M := 4) (tm := 19 / 20) (newtonEnv_params .refine N) ?_ (fun _ => exactRoutines) (newtonEnv_solver .refine hs N) (by norm_num)
      (newtonEnv_returns .refine N) ⟨rfl, rfl, (cleanEnv_clean .two .reflect).obj⟩ (fun _ => exactRoutines_documented) (by norm_num) (by norm_num) (by norm_num) (by norm_num)
      (by norm_num) ((bowl_smooth 2).on _ _) ?_ ?_ ?_ (bowl_convex 0 (by norm_num) _ _) ?_ ?_ rfl rfl r0 h0 9 ?_ (1 / 100) (by norm_num)
      (by norm_num [scaledCurv]) ?_ rfl rfl ?_ ?_ (1 / 1000000) ?_ ?_ ?_ ?_ ?_ ?_ (fun _ => ⟨_, rfl⟩) (fun _ => ⟨_, rfl⟩) ?_ N ?_
    · simp only [newtonEnv, demo_opts]
    · intro x _
      refine ⟨?_, ?_, fun v => ?_⟩
      · intro i j; simp [idM, eq_comm]
      · intro v hv
        rw [idM_rmv]
        exact rdot_self_pos hv
      · rw [idM_rmv, one_mul]
    · intro i; exact ⟨1, 3, rfl, rfl, by norm_num⟩
    · intro i; exact ⟨1, 3, rfl, rfl, by norm_num [margin]⟩
    · intro x hx i _
      have := boxEnv_inBox hx i
      rw [abs_le]; constructor <;> linarith
    · intro y _; have := rdot_self_nonneg y; positivity
    · intro z hz
      obtain ⟨r', e1, e2, -⟩ := nudge_spec boxEnv.lb boxEnv.ub r0 h0
      have hz' : nudge boxEnv.lb boxEnv.ub (ofV r0) = ofV z := hz
      rw [e1, ofV_inj] at hz'
      subst hz'
      have a := boxEnv_inBox e2 0
      have b := boxEnv_inBox e2 1
      have : rdot r' r' = r' 0 * r' 0 + r' 1 * r' 1 := by simp [rdot, Fin.sum_univ_two]
      rw [this]
      nlinarith
    · unfold nudgeError boxPred boxFloor margin
      rw [h2]
      norm_num
    · simp only [newtonEnv, demo_opts]
    · simp only [newtonEnv, demo_opts]
    · simp only [newtonEnv, demo_opts]
    · have : Real.sqrt 2 ≤ 2 := by rw [Real.sqrt_le_left (by norm_num)]; norm_num
      linarith
    · simp only [newtonEnv, demo_opts]; exact le_rfl
    · simp only [newtonEnv, demo_opts]
    · intro k; exact ⟨0, rfl⟩
    · unfold boxFloor
      rw [h2]
      norm_num
    · intro _ q hq; cases hq
    · simp only [newtonEnv, demo_opts]; exact le_rfl
  obtain ⟨st', hst', h | ⟨h, -⟩⟩ := key
  · refine ⟨st', hst', ?_⟩
    have hmn : MinimizerIn (newtonEnv .refine N).lb (newtonEnv .refine N).ub (fun x : Fin 2 → ℝ => 1 / 2 * rdot x x) (fun _ => 1) := by
      refine ⟨fun i => by norm_num [newtonEnv, boxEnv, InBox1], fun y hy => ?_⟩
      have a := (boxEnv_inBox hy 0).1
      have b := (boxEnv_inBox hy 1).1
      simp only [rdot, Fin.sum_univ_two]
      nlinarith
    obtain ⟨x, e1, -, e2⟩ := C94_minimizer (g := fun x => x) one_pos (bowl_convex 1 le_rfl _ _) hmn h
    refine ⟨x, e1, e2.trans ?_⟩
    have g1 : Real.sqrt ((2 : ℕ) * 2) = 2 := by
      rw [show (((2 : ℕ) : ℝ) * 2) = 2 ^ 2 by norm_num]
      exact Real.sqrt_sq (by norm_num)
    have g2 : Real.sqrt (2 * convexGap 2 2 3 (1 / 100) / 1) ≤ 6 / 25 := by
      rw [Real.sqrt_le_left (by norm_num), convexGap, g1]
      norm_num [margin]
    have g3 : Real.sqrt (2 : ℕ) ≤ 2 := by rw [Real.sqrt_le_left (by norm_num)]; norm_num
    have g4 : Real.sqrt (2 : ℕ) * margin ≤ 1 / 100 := by
      refine (mul_le_mul_of_nonneg_right g3 margin_pos.le).trans ?_
      norm_num [margin]
    linarith
  · exact absurd (by simp only [newtonEnv, demo_opts]) h

end

end Fides
