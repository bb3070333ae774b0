import Verif.Lemmas.NewtonBox
import Verif.Lemmas.SteihaugDecrease
import Verif.Lemmas.SteihaugLine
import Verif.Spec.Compare
import Verif.Props.Loops

/-! Helper lemmas: the proposals of the three solvers on a problem without bounds, compared with the points of the subspaces they search. -/

namespace Fides
open Num Spec
variable {n : ℕ}

theorem Spec.PlainInput.prob {I : TRIn Num n} {x g : Fin n → ℝ} {B : Fin n → Fin n → ℝ} {D : ℝ} (h : PlainInput I x g B D) :
    NoBounds I.lb I.ub ∧ ∃ th, I.theta = fin th ∧ 0 < th ∧ th ≤ 1 ∧ RealProb I.prob x 1 g B D th := by
  have hb : NoBounds I.lb I.ub := fun i => ⟨h.lower i, h.upper i⟩
  obtain ⟨th, h1, h2, h3⟩ := h.theta
  refine ⟨hb, th, h1, h2, h3, ?_⟩
  have hd : RealData I x 1 g 0 B D th := ⟨h.x, funext h.scaling, h.g, funext h.dv, h.hess, h.radius, h1, h.sym⟩
  refine ⟨h.x, hd.scaling, ?_, ?_, h.radius, h1, h2, h3, hb.inBox x⟩
  · rw [hd.sg]; simp
  · rw [hd.shess]; simp

section
variable {P : Prob Num n} {x sg : Fin n → ℝ} {B : Fin n → Fin n → ℝ} {D th : ℝ}

/-- the Newton step is returned if it is within the radius, up to the precision of the test -/
theorem solveNd_newton (O : Oracles Num) (hX : ExactRoutines O) {k : ℕ} (hk : 0 < k) {B : Fin k → Fin k → ℝ} (hB : Sym B) (hpd : PD B) (g c : Fin k → ℝ) {D : ℝ}
    (hD : 0 < D) (hc : rmv B c = -g) (hin : rnorm c ≤ D + ballTol) : ∃ ty, solveNd O.sub (ofM B) (ofV g) (fin D) = .ok (ofV c, ty) := by
  obtain ⟨vals, U, he, hE⟩ := hX.eig B hB
  obtain ⟨j, hj, hmin⟩ := argminIdx_fin vals hk
  have hw : (fun i => -(dot (fun l => ofM U l i) (ofV g))) = ofV (fun i => -rdot (fun l => U l i) g) := by
    funext i
    exact congrArg Neg.neg (dot_ofV (fun l => U l i) g)
  have hvp : ∀ i, 0 < vals i := pd_vals hpd hE
  have hst := rmv_slamC_zero hE g 0 (fun i hi => by have := hvp i; linarith)
  rw [zero_smul, add_zero] at hst
  have heq : rmv U (slamC 0 (fun i => -rdot (fun l => U l i) g) vals) = c := pd_injective hpd (by rw [hst, hc])
  rw [solveNd, if_neg (by simpa using hD.ne'), he]
  simp only [hj, hw, lit_def, Rat.cast_zero, sqrt_spacing1, fin_add]
  have hp' : lt (fin 0) (ofV vals j) = true := by simpa using hvp j
  rw [hp', Bool.true_and, slam_fin, norm_ofV, heq]
  unfold ballTol at hin
  rw [if_pos (by simpa using hin)]
  exact ⟨_, rfl⟩

theorem calc_one (hP : RealProb P x 1 sg B D th) (hb : NoBounds P.lb P.ub)
    (hS : Sym B) (hD : 0 < D) (O : Oracles Num) (st : Step Num n) (hs0 : st.s0 = vzero) (hss0 : st.ss0 = vzero) (hx : st.x = P.x)
    (u : Fin n → ℝ) (hcols : st.subspace = [ofV u]) :
    ∃ st', st.calculate O.sub P = .ok st' ∧ ∃ t : ℝ, Proposes1 st' x sg B (t • u) ∧ rnorm (t • u) ≤ D ∧
      ∀ t' : ℝ, rnorm (t' • u) ≤ D → quad B sg (t • u) ≤ quad B sg (t' • u) := by
  obtain ⟨t, ht, hin, hbest⟩ := C20_solve1d hS sg u 0 D hD.le (by rw [rnorm_eq_zero.mpr rfl]; exact hD.le) (Or.inl (by rw [rnorm_eq_zero.mpr rfl]; exact hD))
  simp only [zero_add] at hin hbest
  have hcs : st.computeStep O.sub P = .ok { st with sc := [fin t], ss := ofV (t • u), s := sdot P.scaling (ofV (t • u)) } := by
    unfold Step.computeStep
    rw [hcols]
    simp only [hP.shess, hP.sg, hP.delta, hss0, vzero_ofV, ht, subDot_one]
  obtain ⟨st', h1, h2, h3, h4⟩ := calculate_of_ss hP hb O.sub st _ hs0 hss0 hx (t • u) hcs rfl
  exact ⟨st', h1, t, ⟨h3, h2, h4⟩, hin, hbest⟩

theorem calc_many (hP : RealProb P x 1 sg B D th) (hb : NoBounds P.lb P.ub)
    (hS : Sym B) (hpd : PD B) (hD : 0 < D) (O : Oracles Num) (hX : ExactRoutines O) (st : Step Num n) (hs0 : st.s0 = vzero) (hss0 : st.ss0 = vzero) (hx : st.x = P.x)
    (nv : Fin n → ℝ) (hnv : rmv B nv = -sg) (cs : List (Vec Num n)) (hcols : st.subspace = cs) (C : Fin cs.length → Fin n → ℝ)
    (hC : ∀ a, cs.get a = ofV (C a)) (c0 : Fin cs.length → ℝ) (hc0 : nv = colsum C c0) (h2l : 2 ≤ cs.length)
    (hor' : ∀ a b, rdot (C a) (C b) = if a = b then 1 else 0) :
    ∃ st', st.calculate O.sub P = .ok st' ∧ ∃ p, Proposes1 st' x sg B p ∧ (rnorm p ≤ D ∨ p = nv ∧ rnorm p ≤ D + ballTol) ∧
      (rnorm nv ≤ D + ballTol → p = nv) ∧ ∀ c, rnorm (colsum C c) ≤ D → quad B sg p ≤ quad B sg (colsum C c) := by
  have hnorm := colsum_norm C hor'
  have hM : chess (ofM B) cs = ofM (reduced B C) := by
    funext a b
    simp only [chess, hC, mulVec_ofM, dot_ofV, ofM_apply, reduced]
  have hg : cg (ofV sg) cs = ofV fun a => rdot (C a) sg := by
    funext a
    simp only [cg, hC, dot_ofV, ofV_apply]
  have hSr : Sym (reduced B C) := by
    intro a b
    simp only [reduced]
    rw [Sym.rdot_rmv hS, rdot_comm]
  have hpdr : PD (reduced B C) := by
    intro v hv
    rw [reduced_form]
    apply hpd
    intro h0
    apply hv
    have := hnorm v
    rw [h0, rnorm_eq_zero.mpr rfl] at this
    exact rnorm_eq_zero.mp this.symm
  have h6 : rmv (reduced B C) c0 = -fun a => rdot (C a) sg := by
    rw [reduced_rmv, ← hc0, hnv]
    funext a; rw [rdot_neg]; rfl
  obtain ⟨r, ty, hsol, hmin, hlen⟩ := solveNd_pd O hX (by omega) hSr hpdr (fun a => rdot (C a) sg) hD
  have hrad : FloatOps.sqrt (pyMax (P.delta * P.delta - norm st.ss0 * norm st.ss0) (Fides.lit 0)) = fin D := by
    rw [hP.delta, hss0, vzero_ofV, norm_ofV, rnorm_eq_zero.mpr rfl, fin_mul, fin_mul, fin_sub, lit_def, pyMax_fin]
    have : max (D * D - 0 * 0) ((0 : ℚ) : ℝ) = D * D := by
      rw [max_eq_left (by push_cast; nlinarith)]; ring
    rw [this, fin_sqrt _ (by positivity), Real.sqrt_mul_self hD.le]
  have hcomp : st.computeStep O.sub P = .ok { st with sc := List.ofFn (ofV r), ss := ofV (colsum C r), s := sdot P.scaling (ofV (colsum C r)) } := by
    rw [computeStep_many O.sub P st cs h2l hcols, hrad, hP.shess, hP.sg, hM, hg, hsol]
    simp only [subDot_colsum cs C hC]
  obtain ⟨st', h1, h2, h3, h4⟩ := calculate_of_ss hP hb O.sub st _ hs0 hss0 hx (colsum C r) hcomp rfl
  refine ⟨st', h1, colsum C r, ⟨h3, h2, h4⟩, ?_, ?_, ?_⟩
  · rcases hlen with h | ⟨h, hl⟩
    · left; rw [hnorm]; exact h
    · right
      refine ⟨?_, by rw [hnorm]; exact hl⟩
      rw [hc0, pd_injective hpdr (h.trans h6.symm)]
  · intro hin
    rw [hc0, hnorm] at hin
    obtain ⟨ty', hsol'⟩ := solveNd_newton O hX (by omega) hSr hpdr _ c0 hD h6 hin
    rw [hsol] at hsol'
    simp only [Except.ok.injEq, Prod.mk.injEq] at hsol'
    rw [hc0, ofV_inj.mp hsol'.1]
  · intro c hc
    rw [hnorm] at hc
    rw [← reduced_quad, ← reduced_quad]
    exact hmin _ hc

/-- the full-space solver -/
theorem full_best (hP : RealProb P x 1 sg B D th) (hb : NoBounds P.lb P.ub) (hn : 0 < n) (hS : Sym B) (hpd : PD B) (hD : 0 < D) (O : Oracles Num)
    (hX : ExactRoutines O) (nv : Fin n → ℝ) (hnv : rmv B nv = -sg) :
    ∃ st', stepFull O P = .ok st' ∧ ∃ p, Proposes1 st' x sg B p ∧ (rnorm p ≤ D ∨ 1 < n ∧ p = nv ∧ rnorm p ≤ D + ballTol) ∧
      (1 < n → rnorm nv ≤ D + ballTol → p = nv) ∧ ∀ q, rnorm q ≤ D → quad B sg p ≤ quad B sg q := by
  have hcols : (List.ofFn fun j : Fin n => fun i : Fin n => (meye : Mat Num n n) i j) =
      List.ofFn fun j : Fin n => ofV fun i : Fin n => if i = j then (1 : ℝ) else 0 := by
    congr 1
    funext j i
    rw [meye_ofM]; rfl
  unfold stepFull
  by_cases h1 : n = 1
  · subst h1
    obtain ⟨st', h1, t, h2, h3, h4⟩ := calc_one hP hb hS hD O (Step.init P .nd (List.ofFn fun j : Fin 1 => fun i : Fin 1 => (meye : Mat Num 1 1) i j)) rfl rfl rfl (fun _ => 1) (by
      show (List.ofFn fun j : Fin 1 => fun i : Fin 1 => (meye : Mat Num 1 1) i j) = _
      rw [hcols]
      simp only [List.ofFn_succ, List.ofFn_zero]
      congr 2
      funext i; rw [if_pos (Subsingleton.elim _ _)])
    refine ⟨st', h1, _, h2, Or.inl h3, fun h => absurd h (by norm_num), fun q hq => ?_⟩
    have : q = q 0 • (fun _ => (1 : ℝ)) := by funext i; rw [Subsingleton.elim i 0]; simp
    rw [this] at hq ⊢
    exact h4 _ hq
  · have hl : (List.ofFn fun j : Fin n => (ofV fun i : Fin n => if i = j then (1 : ℝ) else 0 : Vec Num n)).length = n := by simp
    have hall : ∀ q : Fin n → ℝ, q = colsum (fun a : Fin (List.ofFn fun j : Fin n => (ofV fun i : Fin n => if i = j then (1 : ℝ) else 0 : Vec Num n)).length =>
        fun i => if i = a.cast hl then (1 : ℝ) else 0) (fun a => q (a.cast hl)) := by
      intro q
      funext i
      rw [colsum, Finset.sum_apply]
      rw [Finset.sum_eq_single (i.cast hl.symm)]
      · simp
      · intro b _ hb'
        have : i ≠ b.cast hl := by
          rintro rfl; exact hb' (by simp)
        simp [this]
      · intro h; exact absurd (Finset.mem_univ _) h
    obtain ⟨st', h1, p, h2, h3, h4, h5⟩ := calc_many hP hb hS hpd hD O hX (Step.init P .nd (List.ofFn fun j : Fin n => fun i : Fin n => (meye : Mat Num n n) i j)) rfl rfl rfl nv hnv _ hcols
      (fun a => fun i => if i = a.cast hl then (1 : ℝ) else 0) (by intro a; simp [List.get_eq_getElem]; rfl) (fun a => nv (a.cast hl)) (hall nv) (by simp; omega) (by
      intro a b
      have : ∀ j k : Fin n, rdot (fun i : Fin n => if i = j then (1 : ℝ) else 0) (fun i => if i = k then (1 : ℝ) else 0) = if j = k then 1 else 0 := by
        intro j k
        simp [rdot, eq_comm]
      rw [this]
      congr 1
      rw [eq_iff_iff]
      exact (Fin.cast_injective _).eq_iff)
    refine ⟨st', h1, p, h2, ?_, fun _ => h4, fun q hq => ?_⟩
    · rcases h3 with h | h
      · exact Or.inl h
      · exact Or.inr ⟨by omega, h⟩
    · rw [hall q] at hq ⊢
      exact h5 _ hq

/-- the two-dimensional solver -/
theorem two_best (hP : RealProb P x 1 sg B D th) (hb : NoBounds P.lb P.ub) (hn : 0 < n) (hS : Sym B) (hpd : PD B) (hD : 0 < D) (O : Oracles Num)
    (hX : ExactRoutines O) (nv : Fin n → ℝ) (hnv : rmv B nv = -sg) (hg : sg ≠ 0) :
    ∃ st', step2d O P = .ok st' ∧ ∃ p, Proposes1 st' x sg B p ∧ (rnorm p ≤ D ∨ 1 < n ∧ p = nv ∧ rnorm p ≤ D + ballTol) ∧
      (∀ b : ℝ, rnorm (b • nv) ≤ D → quad B sg p ≤ quad B sg (b • nv)) ∧
      (((∃ c : ℝ, sg = c • nv) ∨ ∀ c : ℝ, 1 / 4503599627370496 < rnorm (sg - c • nv)) →
        ∀ a b : ℝ, rnorm (a • sg + b • nv) ≤ D → quad B sg p ≤ quad B sg (a • sg + b • nv)) := by
  obtain ⟨z, hz, hBz⟩ := exact_lstsq O hX hS sg (-nv) (by rw [rmv_neg, hnv, neg_neg])
  obtain ⟨vals, U, he, hE⟩ := hX.npEig B hS
  have hzn : z = -nv := pd_injective hpd (by rw [hBz, rmv_neg, hnv, neg_neg])
  subst hzn
  have hnv0 : nv ≠ 0 := by
    rintro rfl
    rw [rmv_zero] at hnv
    exact hg (by rw [← neg_neg sg, ← hnv, neg_zero])
  have hpdt := exact_posdef vals hn (pd_vals hpd hE)
  have hrn := rnorm_pos hnv0
  have hsc : nv = rnorm nv • ((rnorm nv)⁻¹ • nv) := by rw [smul_smul, mul_inv_cancel₀ hrn.ne', one_smul]
  -- the step is the best one on the line through the Newton step
  have line : ∀ u : Fin n → ℝ, (∃ e : ℝ, nv = e • u) → ((∃ c : ℝ, sg = c • nv) ∨ (∀ c : ℝ, 1 / 4503599627370496 < rnorm (sg - c • nv)) → (∃ c : ℝ, sg = c • nv) ∨ rnorm nv ≤ D) →
      ∀ st : Step Num n, st.s0 = vzero → st.ss0 = vzero → st.x = P.x → st.subspace = [ofV u] →
      ∃ st', st.calculate O.sub P = .ok st' ∧ ∃ p, Proposes1 st' x sg B p ∧ (rnorm p ≤ D ∨ 1 < n ∧ p = nv ∧ rnorm p ≤ D + ballTol) ∧
      (∀ b : ℝ, rnorm (b • nv) ≤ D → quad B sg p ≤ quad B sg (b • nv)) ∧
      (((∃ c : ℝ, sg = c • nv) ∨ ∀ c : ℝ, 1 / 4503599627370496 < rnorm (sg - c • nv)) →
        ∀ a b : ℝ, rnorm (a • sg + b • nv) ≤ D → quad B sg p ≤ quad B sg (a • sg + b • nv)) := by
    rintro u ⟨e', hnu⟩ himp st h1 h2 h3 h4
    obtain ⟨st', k1, t, k2, k3, k4⟩ := calc_one hP hb hS hD O st h1 h2 h3 u h4
    have hbl : ∀ b : ℝ, rnorm (b • nv) ≤ D → quad B sg (t • u) ≤ quad B sg (b • nv) := by
      intro b hb'
      have : b • nv = (b * e') • u := by rw [← smul_smul, ← hnu]
      rw [this] at hb' ⊢
      exact k4 _ hb'
    refine ⟨st', k1, _, k2, Or.inl k3, hbl, fun hc a b hab => ?_⟩
    rcases himp hc with ⟨c, hc⟩ | hin
    · have : a • sg + b • nv = (a * c + b) • nv := by rw [add_smul, ← smul_smul, ← hc]
      rw [this] at hab ⊢
      exact hbl _ hab
    · have := hbl 1 (by rwa [one_smul])
      rw [one_smul] at this
      exact this.trans (newton_global hS hpd hnv _)
  unfold step2d
  unfold subspace2d
  rw [hP.shess, hP.sg, hz, he]
  simp only
  by_cases h1 : n = 1
  · subst h1
    rw [if_pos rfl]
    have hB0 : 0 < B 0 0 := by
      have := hpd (fun _ => 1) (by intro h; have := congrFun h 0; simp at this)
      simpa [rdot, rmv] using this
    have hcol : (fun i => -ofV sg i / ofM B i i) = ofV nv := by
      funext i
      have hi : i = 0 := Subsingleton.elim _ _
      subst hi
      have := congrFun hnv 0
      simp only [rmv, rdot, Finset.univ_unique, Fin.default_eq_zero, Fin.isValue, Finset.sum_singleton, Pi.neg_apply] at this
      simp only [ofV_apply, ofM_apply, fin_neg]
      rw [fin_div _ _ hB0.ne', ← this, mul_div_cancel_left₀ _ hB0.ne']
    simp only [hcol]
    have hn0 : nv 0 ≠ 0 := fun h => hnv0 (funext fun i => by rw [Subsingleton.elim i 0, h]; rfl)
    refine line nv ⟨1, (one_smul _ _).symm⟩ (fun _ => Or.inl ⟨sg 0 / nv 0, ?_⟩) _ rfl rfl rfl rfl
    funext i
    rw [Subsingleton.elim i 0, Pi.smul_apply, smul_eq_mul, div_mul_cancel₀ _ hn0]
  · rw [if_neg h1, if_pos hpdt]
    have hvn : vneg (ofV (-nv)) = ofV nv := by rw [vneg_ofV, neg_neg]
    rw [hvn]
    by_cases hlt : lt (norm (ofV nv)) P.delta = true
    · rw [if_pos hlt]
      refine line _ ⟨_, hsc⟩ (fun _ => Or.inr ?_) _ rfl rfl rfl (by show [normalize (ofV nv)] = _; rw [normalize_ofV])
      rw [norm_ofV, hP.delta, fin_lt, decide_eq_true_eq] at hlt
      exact hlt.le
    · rw [if_neg hlt]
      have hu1 : rnorm ((rnorm nv)⁻¹ • nv) = 1 := rnorm_normalized hnv0
      rcases orth2d_span nv sg hnv0 _ rfl with ⟨h, hsmall⟩ | ⟨b, h, hb1, hb2, c, hgc⟩
      · refine line _ ⟨_, hsc⟩ (fun hc => ?_) _ rfl rfl rfl h
        rcases hc with hc | hc
        · exact Or.inl hc
        · rw [smul_smul] at hsmall
          exact absurd hsmall (not_le.mpr (hc _))
      · have hc0 : nv = colsum (fun a : Fin [ofV ((rnorm nv)⁻¹ • nv), ofV b].length => if a = 0 then (rnorm nv)⁻¹ • nv else b) (fun a => if a = 0 then rnorm nv else 0) := by
          rw [colsum]
          show nv = ∑ a : Fin 2, _
          rw [Fin.sum_univ_two]
          simp only [Fin.isValue, ↓reduceIte, zero_smul, one_ne_zero, add_zero]
          exact hsc
        simp only
        generalize hst : ({ Step.init P .twoD (subspace2dOrth (ofV nv) (ofV sg)) with posdef := _, newton := _ } : Step Num n) = st
        obtain ⟨st', k1, p, k2, k3, k4, k5⟩ := calc_many hP hb hS hpd hD O hX st (by rw [← hst]; rfl) (by rw [← hst]; rfl) (by rw [← hst]; rfl) nv hnv
          [ofV ((rnorm nv)⁻¹ • nv), ofV b] (by rw [← hst]; exact h)
          (fun a => if a = 0 then (rnorm nv)⁻¹ • nv else b) (by
            intro a
            match a with
            | ⟨0, _⟩ => rfl
            | ⟨1, _⟩ => rfl) (fun a => if a = 0 then rnorm nv else 0) hc0 (by simp) (by
            have haa : rdot ((rnorm nv)⁻¹ • nv) ((rnorm nv)⁻¹ • nv) = 1 := by rw [← rnorm_sq, hu1]; norm_num
            have hbb : rdot b b = 1 := by rw [← rnorm_sq, hb1]; norm_num
            have key : ∀ a c : Fin 2, rdot (if a = 0 then (rnorm nv)⁻¹ • nv else b) (if c = 0 then (rnorm nv)⁻¹ • nv else b) = if a = c then 1 else 0 := by
              intro a c
              match a, c with
              | 0, 0 => simpa using haa
              | 0, 1 => simpa using hb2
              | 1, 0 => rw [rdot_comm]; simpa using hb2
              | 1, 1 => simpa using hbb
            exact key)
        have hall : ∀ t s : ℝ, t • ((rnorm nv)⁻¹ • nv) + s • b = colsum (fun a : Fin [ofV ((rnorm nv)⁻¹ • nv), ofV b].length => if a = 0 then (rnorm nv)⁻¹ • nv else b) (fun a => if a = 0 then t else s) := by
          intro t s
          rw [colsum]
          show _ = ∑ a : Fin 2, _
          rw [Fin.sum_univ_two]
          simp
        refine ⟨st', k1, p, k2, ?_, fun t ht => ?_, fun _ t s hts => ?_⟩
        · rcases k3 with k | k
          · exact Or.inl k
          · exact Or.inr ⟨by omega, k⟩
        · have : t • nv = (t * rnorm nv) • ((rnorm nv)⁻¹ • nv) + (0 : ℝ) • b := by rw [zero_smul, add_zero, ← smul_smul, ← hsc]
          rw [this, hall] at ht ⊢
          exact k5 _ ht
        · have : t • sg + s • nv = (t * rdot ((rnorm nv)⁻¹ • nv) sg + s * rnorm nv) • ((rnorm nv)⁻¹ • nv) + (t * c) • b := by
            have e1 : t • sg = (t * rdot ((rnorm nv)⁻¹ • nv) sg) • ((rnorm nv)⁻¹ • nv) + (t * c) • b := by
              rw [mul_smul t, mul_smul t, ← smul_add, ← hgc]
            have e2 : s • nv = (s * rnorm nv) • ((rnorm nv)⁻¹ • nv) := by rw [← smul_smul, ← hsc]
            rw [e1, e2, add_smul]; abel
          rw [this, hall] at hts ⊢
          exact k5 _ hts

end

section
variable {P : Prob Num n} {x sg : Fin n → ℝ} {B : Fin n → Fin n → ℝ} {D th : ℝ}

theorem steihaug_best (hP : RealProb P x 1 sg B D th)
    (hb : NoBounds P.lb P.ub) (hS : Sym B) (hD : 0 < D) (hg : sg ≠ 0)
    (fuel : ℕ) (st : Step Num n) (h : stepSteihaug fuel P = .ok st) :
    ∃ p, Proposes1 st x sg B p ∧ rnorm p ≤ D ∧ ∀ t : ℝ, rnorm (t • sg) ≤ D → quad B sg p ≤ quad B sg (t • sg) := by
  obtain ⟨c, hc0, hc1, hc2, hc3⟩ := steihaug_eps sg
  simp only [stepSteihaug] at h
  split at h
  · cases h
  · split at h
    · cases h
    · rename_i o ho
      cases h
      rw [hP.sg, hc3, vzero_ofV, vneg_ofV] at ho
      have hz : rnorm (0 : Fin n → ℝ) = 0 := rnorm_eq_zero.mpr rfl
      have hep : 0 < c * rnorm sg := mul_pos (hc2 (rnorm_pos hg)) (rnorm_pos hg)
      obtain ⟨q, p, h1, h2, h3⟩ := steihaugLoop_best hP hS hD (c * rnorm sg) hep fuel 0 sg (-sg) (by rw [hz]; exact hD) (by rw [rmv_zero, add_zero]) (rdot_neg _ _) hg o ho
      obtain ⟨q', h5, _, h6⟩ := steihaugLoop_ball hP hD.le (c * rnorm sg) fuel 0 sg (-sg) (Or.inl hep) (by rw [hz]; exact hD.le) o ho
      rw [h1, ofV_inj] at h5
      have h4 : rnorm (q + p) ≤ D := by rw [h5]; exact h6 p h2
      set st1 : Step Num n := { Step.init P .cgs o.subspace with sc := o.sc, ss := o.ss, ss0 := o.ss0, s := sdot P.scaling (vadd o.ss o.ss0) } with hst1
      have hs1 : st1.s = ofV (p + q) := by
        show sdot P.scaling (vadd o.ss o.ss0) = _
        rw [h1, h2, vadd_ofV, hP.scaling]
        funext i
        rw [sdot_fin 1 _ i ((p + q) i) rfl]; simp
      obtain ⟨ha, hs⟩ := (stepBack_noBounds P hb th hP.theta hP.th0 st1).2 x (p + q) hP.x hs1
      have hss : (st1.stepBack P).ss = ofV p := by
        funext i
        show st1.ss i * (st1.stepBack P).alpha = _
        rw [ha, show st1.ss = ofV p from h2]; simp
      have hss0 : (st1.stepBack P).ss0 = ofV q := h1
      have hs0 : (st1.stepBack P).s0 = vzero := rfl
      refine ⟨p + q, ⟨?_, ?_, ?_⟩, by rw [add_comm]; exact h4, fun t ht => ?_⟩
      · simp only [hs, hs0, vzero_ofV, vadd_ofV, add_zero]
      · simp only [hss, hss0, vadd_ofV]
      · simp only [hss, hss0, vadd_ofV, hP.shess, hP.sg, quadraticForm_ofV]
      · have := h3 (-t)
        rw [zero_add, neg_smul, smul_neg, neg_neg] at this
        rw [add_comm]; exact this ht

end

end Fides
