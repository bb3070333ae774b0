import Verif.Props.NewtonConvergence
import Verif.Spec.Quadratic
import Verif.Lemmas.NewtonBox

/-! Helper lemmas: runs on strictly convex quadratic objectives. -/

namespace Fides
open Num Spec
variable {n : ℕ}

/-! ## quadratics -/

theorem quadF_expand {A : Fin n → Fin n → ℝ} (hS : Sym A) (c : ℝ) (b x p : Fin n → ℝ) : quadF c b A (x + p) = quadF c b A x + quad A (quadG b A x) p := by
  have h1 : rdot p (rmv A x) = rdot x (rmv A p) := by rw [Sym.rdot_rmv hS p x, rdot_comm]
  simp only [quadF, quadG, quad_def, rdot_add, add_rdot, rmv_add, h1, rdot_comm (rmv A x) p]
  ring

theorem quadG_add (A : Fin n → Fin n → ℝ) (b x p : Fin n → ℝ) : quadG b A (x + p) = quadG b A x + rmv A p := by
  simp only [quadG, rmv_add]
  funext i; simp only [Pi.add_apply]; ring

/-- values around a stationary point -/
theorem quadF_min {A : Fin n → Fin n → ℝ} (hS : Sym A) (c : ℝ) (b xs x : Fin n → ℝ) (hs : quadG b A xs = 0) :
    quadF c b A x = quadF c b A xs + rdot (x - xs) (rmv A (x - xs)) / 2 := by
  have h := quadF_expand hS c b xs (x - xs)
  rw [add_sub_cancel, hs] at h
  rw [h, quad_def, rdot_comm (0 : Fin n → ℝ), rdot_zero, zero_add]

theorem quadF_unique {A : Fin n → Fin n → ℝ} (hS : Sym A) (hpd : PD A) (c : ℝ) (b xs x : Fin n → ℝ) (hs : quadG b A xs = 0)
    (h : quadF c b A x ≤ quadF c b A xs) : x = xs := by
  by_contra hne
  have h1 := hpd (x - xs) (sub_ne_zero.mpr hne)
  rw [quadF_min hS c b xs x hs] at h
  linarith

/-- the Newton step leads to the stationary point -/
theorem quadG_newton (A : Fin n → Fin n → ℝ) (b xs x : Fin n → ℝ) (hs : quadG b A xs = 0) : rmv A (xs - x) = -quadG b A x := by
  have h := quadG_add A b x (xs - x)
  rw [add_sub_cancel, hs] at h
  exact (neg_eq_of_add_eq_zero_right h.symm).symm

theorem quad_newton {A : Fin n → Fin n → ℝ} (nv : Fin n → ℝ) {sg : Fin n → ℝ} (hnv : rmv A nv = -sg) (hS : Sym A) (p : Fin n → ℝ) :
    quad A sg p = quad A sg nv + rdot (p - nv) (rmv A (p - nv)) / 2 := by
  have hsg : sg = -rmv A nv := by rw [hnv, neg_neg]
  have h1 : rdot nv (rmv A p) = rdot p (rmv A nv) := by rw [Sym.rdot_rmv hS nv p, rdot_comm]
  rw [hsg]
  simp only [quad_def, rmv_sub, rdot_sub, sub_rdot, neg_rdot, h1, rdot_comm (rmv A nv)]
  ring

/-! ## the step -/

section
variable {x : Fin n → ℝ} {B : Fin n → Fin n → ℝ} {sg nv : Fin n → ℝ} {D : ℝ} {st : Step Num n} {p : Fin n → ℝ}

theorem NewtonLike.inside (hN : NewtonLike x B sg nv D st p) (hS : Sym B) (hpd : PD B) (hnv : rmv B nv = -sg) (h : rnorm nv ≤ D) : p = nv := by
  have h1 := hN.best 1 (by rw [one_smul]; exact h)
  rw [one_smul, quad_newton nv hnv hS p] at h1
  by_contra hne
  have := hpd (p - nv) (sub_ne_zero.mpr hne)
  linarith

theorem NewtonLike.sphere (hN : NewtonLike x B sg nv D st p) (hS : Sym B) (hpd : PD B) (hnv : rmv B nv = -sg) (hne : p ≠ nv) : rnorm p = D := by
  have hle : rnorm p ≤ D := hN.length.resolve_right fun h => hne h.1
  refine le_antisymm hle ?_
  by_contra hlt
  push Not at hlt
  have hd : nv - p ≠ 0 := fun h => hne (sub_eq_zero.mp h).symm
  have hr := rnorm_pos hd
  set t := min 1 ((D - rnorm p) / rnorm (nv - p)) with ht
  have ht0 : 0 < t := lt_min one_pos (div_pos (by linarith) hr)
  have ht1 : t ≤ 1 := min_le_left _ _
  have hin : rnorm (p + t • (nv - p)) ≤ D := by
    refine (rnorm_add_le _ _).trans ?_
    rw [rnorm_smul, abs_of_pos ht0]
    have : t * rnorm (nv - p) ≤ D - rnorm p := by
      have h1 : t ≤ (D - rnorm p) / rnorm (nv - p) := min_le_right _ _
      rwa [le_div_iff₀ hr] at h1
    linarith
  have h := hN.line t hin
  rw [quad_newton nv hnv hS p, quad_newton nv hnv hS (p + t • (nv - p))] at h
  have e : p + t • (nv - p) - nv = (1 - t) • (p - nv) := by
    funext i; simp only [Pi.sub_apply, Pi.add_apply, Pi.smul_apply, smul_eq_mul]; ring
  rw [e, rmv_smul, rdot_smul, smul_rdot] at h
  have h2 := hpd (p - nv) (sub_ne_zero.mpr hne)
  nlinarith [mul_pos ht0 h2, mul_nonneg (sub_nonneg.mpr ht1) h2.le, mul_nonneg (mul_nonneg (sub_nonneg.mpr ht1) h2.le) ht0.le]

theorem NewtonLike.negative (hN : NewtonLike x B sg nv D st p) (hpd : PD B) (hnv : rmv B nv = -sg) (hg : sg ≠ 0) (hD : 0 < D) : quad B sg p < 0 := by
  have hnv0 : nv ≠ 0 := by
    rintro rfl
    rw [rmv_zero] at hnv
    exact hg (by rw [← neg_neg sg, ← hnv, neg_zero])
  have hr := rnorm_pos hnv0
  have hb := hpd nv hnv0
  set t := min 1 (D / rnorm nv) with ht
  have ht0 : 0 < t := lt_min one_pos (div_pos hD hr)
  have ht1 : t ≤ 1 := min_le_left _ _
  have h := hN.best t (by
    rw [rnorm_smul, abs_of_pos ht0]
    have h1 : t ≤ D / rnorm nv := min_le_right _ _
    rwa [le_div_iff₀ hr] at h1)
  have e : rdot sg nv = -rdot nv (rmv B nv) := by rw [hnv, rdot_neg, neg_neg, rdot_comm]
  rw [quad_smul, e] at h
  nlinarith [mul_pos ht0 hb, mul_nonneg (sub_nonneg.mpr ht1) (mul_pos ht0 hb).le]

end

/-! ## the pass -/

section
variable {E : Env Num n} {f : (Fin n → ℝ) → ℝ} {g : (Fin n → ℝ) → Fin n → ℝ} {mu eta g1 g2 D0 : ℝ}

/-- a pass whose model is exact at the trial point -/
theorem pass_exact (hE : TRParams E mu eta g1 g2 D0) (heta : eta ≤ 1) (hU : NoBounds E.lb E.ub) (hev : Evaluates E f g)
    {prev next : St Num n} {cur cur' new : Funout Num n} {step : Step Num n} (hp : Pass E prev cur step new next cur')
    (x p : Fin n → ℝ) (B : Fin n → Fin n → ℝ) (D : ℝ) (hx : prev.x = ofV x) (hf : prev.fval = fin (f x)) (hg : prev.grad = ofV (g x))
    (hH : prev.hess = ofM B) (hd : prev.delta = fin D)
    (hss : vadd step.ss step.ss0 = ofV p) (htrial : vadd (vadd prev.x step.s) step.s0 = ofV (x + p))
    (hq : step.qpval = fin (quad B (g x) p)) (hneg : quad B (g x) p < 0) (hex : f (x + p) = f x + quad B (g x) p) :
    next.x = ofV (x + p) ∧ next.fval = fin (f (x + p)) ∧ next.grad = ofV (g (x + p)) ∧ next.trRatio = fin 1 ∧
      next.delta = fin (if rnorm p < D * (9 / 10) then D else g2 * D) := by
  have hF := pass_facts E _ _ _ _ _ _ hp
  obtain ⟨hnx, hnf, hng⟩ := pass_evaluates hev hp (x + p) htrial
  have hdv : (trInput E (preIter prev)).dv = ofV 0 := (C51_scaling E (preIter prev) x (g x) B hU hx hg hH).2.1
  have hpos : 0 < -quad B (g x) p := by linarith
  have haug : dot (vadd step.ss step.ss0) (fun i => (trInput E (preIter prev)).dv i * FloatOps.abs (new.grad i) * vadd step.ss step.ss0 i) = fin 0 := by
    rw [hss, hdv, hng]
    have : (fun i => (ofV (0 : Fin n → ℝ) i : Num) * FloatOps.abs (ofV (g (x + p)) i) * ofV p i) = ofV 0 := by
      funext i; simp
    rw [this, dot_ofV, rdot_zero]
  have hrat : ratioOf (afterEval prev step (.ok new)).fval new step (trInput E (preIter prev)).dv = fin 1 := by
    unfold ratioOf
    have h1 : (afterEval prev step (.ok new)).fval = fin (f x) := hf
    rw [haug, h1, hnf, hq]
    simp only [fin_neg, lit_def, Rat.cast_zero, fin_le, fin_sub, fin_mul, mul_zero, sub_zero]
    rw [if_neg (by simp only [decide_eq_true_eq]; exact not_le.mpr hpos), fin_div _ _ hpos.ne']
    congr 1
    rw [div_eq_one_iff_eq hpos.ne', hex]; ring
  have had : (afterEval prev step (.ok new)).delta = fin D := hd
  have hadi : (afterEval prev step (.ok new)).deltaIter = fin D := hd
  have hint : lt (norm (vadd step.ss step.ss0)) ((afterEval prev step (.ok new)).deltaIter * Fides.lit (9 / 10)) = decide (rnorm p < D * (9 / 10)) := by
    rw [hadi, hss, norm_ofV, lit_def, fin_mul, fin_lt]
    norm_num
  have hr : (radiusStep E prev step new).1 = true ∧ (radiusStep E prev step new).2.trRatio = fin 1 ∧
      (radiusStep E prev step new).2.delta = fin (if rnorm p < D * (9 / 10) then D else g2 * D) := by
    unfold radiusStep
    rcases updateTrRadius_cases E new step (trInput E (preIter prev)).dv (afterEval prev step (.ok new)) with ⟨h, _⟩ | ⟨_, r', hr', h⟩
    · rw [hnf] at h; simp at h
    · rw [hrat] at hr'
      subst hr'
      simp only [hint] at h
      rcases h with ⟨_, h1, h⟩ | ⟨_, h1, h⟩ | ⟨h2, _, m, h⟩
      · rw [h]
        refine ⟨by simp, rfl, ?_⟩
        rw [decide_eq_false_iff_not] at h1
        rw [if_neg h1]
        simp only
        rw [had, hE.gamma2, fin_mul]
      · rw [hE.hmu, fin_le, decide_eq_true_eq] at h1
        exact absurd hE.mu_lt (not_lt.mpr h1)
      · rw [h]
        refine ⟨by simp, rfl, ?_⟩
        have h3 : rnorm p < D * (9 / 10) := by
          rw [hE.heta, fin_le] at h2
          simpa [heta] using h2
        rw [if_pos h3]
        exact had
  obtain ⟨h1, h2, h3⟩ := hr
  rcases hF.cases with ⟨_, _, _, h4, h5, h6⟩ | ⟨h4, _⟩
  · exact ⟨by rw [h4, C51_nudge _ _ _ hU, hnx], by rw [h5, hnf], by rw [h6, hng], by rw [hF.ratio, h2], by rw [hF.delta, h3]⟩
  · rw [h1] at h4; cases h4

/-- the evaluations of a run whose trial points are real -/
theorem evals_real (hU : NoBounds E.lb E.ub) (hev : Evaluates E f g) (x0 : Fin n → ℝ) (startId : String) (hess0 : Hess0 Num) (st0 : St Num n)
    (hreal : ∀ k prev cur step new next cur', LoopHead E (ofV x0) startId hess0 st0 k prev cur → Pass E prev cur step new next cur' →
      ∃ y : Fin n → ℝ, vadd (vadd prev.x step.s) step.s0 = ofV y)
    (k : ℕ) (st : St Num n) (cur : Funout Num n) (h : LoopHead E (ofV x0) startId hess0 st0 k st cur) :
    ∃ l, st.evals = l ++ st0.evals ∧ ∀ r ∈ l, ∀ fo, r.out = .ok fo → ∃ y : Fin n → ℝ, fo.x = ofV y ∧ fo.fval = fin (f y) ∧ fo.grad = ofV (g y) := by
  induction k generalizing st cur with
  | zero =>
    obtain ⟨l, fo0, h1, h2, h3, -, -, h4, -⟩ := (headInv E _ startId hess0 st0 0 st cur h).evals
    obtain rfl : l = [] := List.length_eq_zero_iff.mp h2
    refine ⟨[{ arg := nudge E.lb E.ub (ofV x0), out := .ok fo0 }], by rw [h1]; rfl, ?_⟩
    intro r hr fo hfo
    rw [List.mem_singleton] at hr
    subst hr
    cases hfo
    obtain ⟨m, raw, h5, h6⟩ := head_evaluated E _ startId hess0 st0 0 st cur h
    simp only [List.nil_append, List.mem_singleton, EvalRec.mk.injEq, Except.ok.injEq] at h4
    obtain ⟨h7, rfl⟩ := h4
    rw [C51_nudge _ _ _ hU] at h7
    rw [h7] at h5 h6
    obtain ⟨h8, h9⟩ := hev m x0 _ raw cur h5 h6
    exact ⟨x0, h7, h8, h9⟩
  | succ k ih =>
    obtain ⟨prev, cur0, step, new, hh, hp⟩ := loopHead_pass E _ startId hess0 st0 k st cur h
    obtain ⟨l, h1, h2⟩ := ih prev cur0 hh
    obtain ⟨y, hy⟩ := hreal k prev cur0 step new _ _ hh hp
    obtain ⟨h3, h4, h5⟩ := pass_evaluates hev hp y hy
    refine ⟨{ arg := trialPoint prev step, out := .ok new } :: l, by rw [hp.evaluated, h1]; rfl, ?_⟩
    intro r hr fo hfo
    rcases List.mem_cons.mp hr with rfl | hr
    · cases hfo
      exact ⟨y, h3, h4, h5⟩
    · exact h2 r hr fo hfo

end

/-! ## the run -/

section
variable {E : Env Num n} {mu eta g1 g2 D0 c : ℝ} {b : Fin n → ℝ} {A : Fin n → Fin n → ℝ}

/-- one pass on a strictly convex quadratic -/
theorem quad_pass (hE : TRParams E mu eta g1 g2 D0) (heta : eta ≤ 1) (hU : NoBounds E.lb E.ub) (O : ℕ → Oracles Num) (hX : ∀ k, ExactRoutines (O k)) (fuel : ℕ)
    (hO : ∀ k I, E.tr k I = trustRegion (O k) fuel E.opts.subspaceDim E.opts.stepbackStrat I)
    (hdim : E.opts.subspaceDim = .two ∨ E.opts.subspaceDim = .full) (hS : Sym A) (hpd : PD A) (hev : Evaluates E (quadF c b A) (quadG b A))
    {prev next : St Num n} {cur cur' new : Funout Num n} {step : Step Num n} (hp : Pass E prev cur step new next cur')
    (x xs : Fin n → ℝ) (D : ℝ) (hx : prev.x = ofV x) (hf : prev.fval = fin (quadF c b A x)) (hg : prev.grad = ofV (quadG b A x))
    (hH : prev.hess = ofM A) (hd : prev.delta = fin D) (hD : 0 < D) (hs : quadG b A xs = 0) (hg0 : quadG b A x ≠ 0) :
    ∃ p : Fin n → ℝ, vadd step.ss step.ss0 = ofV p ∧ vadd (vadd prev.x step.s) step.s0 = ofV (x + p) ∧
      next.x = ofV (x + p) ∧ next.fval = fin (quadF c b A (x + p)) ∧ next.grad = ofV (quadG b A (x + p)) ∧ next.trRatio = fin 1 ∧
      quadF c b A (x + p) < quadF c b A x ∧ (rnorm (xs - x) ≤ D → x + p = xs) ∧
      ((x + p = xs ∧ (next.delta = fin D ∨ next.delta = fin (g2 * D))) ∨ (rnorm p = D ∧ next.delta = fin (g2 * D))) := by
  have hpr := hp.proposal
  rw [hO] at hpr
  have hnv := quadG_newton A b xs x hs
  obtain ⟨step', hs', p, hN⟩ := newton_step (g := quadG b A) hE hU (O _) (hX _) fuel E.opts.stepbackStrat hdim
    { prev with iteration := prev.iteration + 1, deltaIter := prev.delta, ticks := prev.ticks + 1 } x D hx hg hd hD A hH hS hpd hg0 _ hnv
  rw [hs'] at hpr
  cases hpr
  have htr : vadd (vadd prev.x step.s) step.s0 = ofV (x + p) := by rw [hx]; exact hN.trial
  have hneg := hN.negative hpd hnv hg0 hD
  have hex := quadF_expand hS c b x p
  obtain ⟨h1, h2, h3, h4, h5⟩ := pass_exact hE heta hU hev hp x p A D hx hf hg hH hd hN.scaled htr hN.model hneg hex
  refine ⟨p, hN.scaled, htr, h1, h2, h3, h4, by rw [hex]; linarith, ?_, ?_⟩
  · intro h
    rw [hN.inside hS hpd hnv h, add_sub_cancel]
  · by_cases hpn : p = xs - x
    · left
      refine ⟨by rw [hpn, add_sub_cancel], ?_⟩
      rw [h5]
      split
      · exact Or.inl rfl
      · exact Or.inr rfl
    · right
      have := hN.sphere hS hpd hnv hpn
      refine ⟨this, ?_⟩
      rw [h5, this, if_neg (by linarith)]

end

end Fides
