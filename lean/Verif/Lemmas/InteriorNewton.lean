import Verif.Lemmas.Compare
import Verif.Lemmas.Library
import Verif.Lemmas.Blocked
import Verif.Lemmas.BoundedProgress

/-! Helper lemmas: on a bounded problem Newton's step in the scaled variables is proposed if it is within the trust radius and away from the bounds. -/

namespace Fides
open Num Spec
variable {n : ℕ}

section
variable {P : Prob Num n} {x d sg : Fin n → ℝ} {B : Fin n → Fin n → ℝ} {D th : ℝ}

/-- the step is taken in full: scaled step `p`, step `d * p` -/
structure TakesFull (P : Prob Num n) (x d sg : Fin n → ℝ) (B : Fin n → Fin n → ℝ) (p : Fin n → ℝ) (st : Step Num n) : Prop where
  alpha : st.alpha = fin 1
  scaled : vadd st.ss st.ss0 = ofV p
  trial : vadd (vadd (ofV x) st.s) st.s0 = ofV (x + fun i => d i * p i)
  model : st.qpval = fin (quad B sg p)

/-- a step that stays inside the box when it is lengthened by the factor `1 / theta` is not shortened -/
theorem takes_full (hP : RealProb P x d sg B D th) (O : SubOracles Num) (st st1 : Step Num n) (hs0 : st.s0 = vzero) (hss0 : st.ss0 = vzero) (hx : st.x = P.x)
    (p : Fin n → ℝ) (hroom : InBox P.lb P.ub (x + (1 / th) • fun i => d i * p i))
    (hc : st.computeStep O P = .ok st1) (h1 : st1 = { st with sc := st1.sc, ss := ofV p, s := sdot P.scaling (ofV p) }) :
    ∃ st', st.calculate O P = .ok st' ∧ TakesFull P x d sg B p st' := by
  have hs1 : st1.s = ofV fun i => d i * p i := by
    rw [h1]
    show sdot P.scaling (ofV p) = _
    rw [hP.scaling, sdot_finite]
  have hx1 : st1.x = ofV x := by rw [h1]; show st.x = _; rw [hx, hP.x]
  have ha : (st1.stepBack P).alpha = fin 1 := by
    cases hfe : feq (st1.stepBack P).alpha (Fides.lit 1) with
    | false =>
      exfalso
      obtain ⟨T, ⟨hT0, hT⟩, -, -, -, -, -, h2⟩ := stepBack_blocked P st1 x _ th hx1 hs1 hP.theta hP.th0 hP.box hfe
      have h3 := (hT (1 / th) (by have := hP.th0; positivity)).mp hroom
      rw [div_le_iff₀ hP.th0] at h3
      linarith
    | true =>
      generalize (st1.stepBack P).alpha = a at hfe
      cases a <;> first | (simp at hfe; done) | (simp at hfe; rw [hfe]; done) | (cases hfe; done)
  have hss : (st1.stepBack P).ss = ofV p := by
    funext i
    show st1.ss i * (st1.stepBack P).alpha = _
    rw [ha, show st1.ss = ofV p by rw [h1]]; simp
  have hs : (st1.stepBack P).s = ofV fun i => d i * p i := by
    funext i
    show st1.s i * (st1.stepBack P).alpha = _
    rw [ha, hs1]; simp
  have hss0' : (st1.stepBack P).ss0 = ofV 0 := by
    show st1.ss0 = _; rw [h1]; show st.ss0 = _; rw [hss0, vzero_ofV]
  have hs0' : (st1.stepBack P).s0 = ofV 0 := by
    show st1.s0 = _; rw [h1]; show st.s0 = _; rw [hs0, vzero_ofV]
  unfold Step.calculate
  rw [hc]
  refine ⟨_, rfl, ha, ?_, ?_, ?_⟩
  · simp only [hss, hss0', vadd_ofV, add_zero]
  · simp only [hs, hs0', vadd_ofV, add_zero]
  · simp only [hss, hss0', vadd_ofV, add_zero, hP.shess, hP.sg, quadraticForm_ofV]

theorem newton_one (hP : RealProb P x d sg B D th) (hS : Sym B) (hpd : PD B) (hD : 0 < D) (O : SubOracles Num) (st : Step Num n) (hs0 : st.s0 = vzero)
    (hss0 : st.ss0 = vzero) (hx : st.x = P.x) (nv : Fin n → ℝ) (hnv : rmv B nv = -sg) (hin : rnorm nv ≤ D) (hroom : InBox P.lb P.ub (x + (1 / th) • fun i => d i * nv i))
    (u : Fin n → ℝ) (hcols : st.subspace = [ofV u]) (e : ℝ) (he : nv = e • u) : ∃ st', st.calculate O P = .ok st' ∧ TakesFull P x d sg B nv st' := by
  obtain ⟨t, ht, hl, hbest⟩ := C20_solve1d hS sg u 0 D hD.le (by rw [rnorm_eq_zero.mpr rfl]; exact hD.le) (Or.inl (by rw [rnorm_eq_zero.mpr rfl]; exact hD))
  simp only [zero_add] at hl hbest
  have hcs : st.computeStep O P = .ok { st with sc := [fin t], ss := ofV (t • u), s := sdot P.scaling (ofV (t • u)) } := by
    unfold Step.computeStep
    rw [hcols]
    simp only [hP.shess, hP.sg, hP.delta, hss0, vzero_ofV, ht, subDot_one]
  have hg := newton_global hS hpd hnv
  have h1 := hbest e (by rw [← he]; exact hin)
  rw [← he] at h1
  have htu : t • u = nv := min_unique hS hpd hD.le (fun v _ => h1.trans (hg v)) (fun v _ => hg v) hl hin
  rw [htu] at hcs
  exact takes_full hP O st _ hs0 hss0 hx nv hroom hcs rfl

theorem newton_many (hP : RealProb P x d sg B D th) (hS : Sym B) (hpd : PD B) (hD : 0 < D) (O : Oracles Num) (hX : ExactRoutines O) (st : Step Num n)
    (hs0 : st.s0 = vzero) (hss0 : st.ss0 = vzero) (hx : st.x = P.x) (nv : Fin n → ℝ) (hnv : rmv B nv = -sg) (hin : rnorm nv ≤ D)
    (hroom : InBox P.lb P.ub (x + (1 / th) • fun i => d i * nv i)) (cs : List (Vec Num n)) (hcols : st.subspace = cs) (C : Fin cs.length → Fin n → ℝ)
    (hC : ∀ a, cs.get a = ofV (C a)) (c0 : Fin cs.length → ℝ) (hc0 : nv = colsum C c0) (h2l : 2 ≤ cs.length)
    (hor' : ∀ a b, rdot (C a) (C b) = if a = b then 1 else 0) : ∃ st', st.calculate O.sub P = .ok st' ∧ TakesFull P x d sg B nv st' := by
  have hnorm := colsum_norm C hor'
  have hM : chess (ofM B) cs = ofM (reduced B C) := by
    funext a b
    simp only [chess, hC, mulVec_ofM, dot_ofV, ofM_apply, reduced]
  have hg : cg (ofV sg) cs = ofV fun a => rdot (C a) sg := by
    funext a
    simp only [cg, hC, dot_ofV, ofV_apply]
  have hSr : Sym (reduced B C) := by
    intro a b
    simp only [reduced]
    rw [Sym.rdot_rmv hS, rdot_comm]
  have hpdr : PD (reduced B C) := by
    intro v hv
    rw [reduced_form]
    apply hpd
    intro h0
    apply hv
    have := hnorm v
    rw [h0, rnorm_eq_zero.mpr rfl] at this
    exact rnorm_eq_zero.mp this.symm
  have h6 : rmv (reduced B C) c0 = -fun a => rdot (C a) sg := by
    rw [reduced_rmv, ← hc0, hnv]
    funext a; rw [rdot_neg]; rfl
  obtain ⟨ty, hsol⟩ := solveNd_newton O hX (by omega) hSr hpdr _ c0 hD h6 (by
    rw [← hnorm, ← hc0]
    have : (0 : ℝ) ≤ ballTol := by unfold ballTol; norm_num
    linarith)
  have hrad : FloatOps.sqrt (pyMax (P.delta * P.delta - norm st.ss0 * norm st.ss0) (Fides.lit 0)) = fin D := by
    rw [hP.delta, hss0, vzero_ofV, norm_ofV, rnorm_eq_zero.mpr rfl, fin_mul, fin_mul, fin_sub, lit_def, pyMax_fin]
    have : max (D * D - 0 * 0) ((0 : ℚ) : ℝ) = D * D := by
      rw [max_eq_left (by push_cast; nlinarith)]; ring
    rw [this, fin_sqrt _ (by positivity), Real.sqrt_mul_self hD.le]
  have hcomp : st.computeStep O.sub P = .ok { st with sc := List.ofFn (ofV c0), ss := ofV nv, s := sdot P.scaling (ofV nv) } := by
    rw [computeStep_many O.sub P st cs h2l hcols, hrad, hP.shess, hP.sg, hM, hg, hsol]
    simp only [subDot_colsum cs C hC, ← hc0]
  exact takes_full hP O.sub st _ hs0 hss0 hx nv hroom hcomp rfl

/-- the full-space solver -/
theorem full_newton (hP : RealProb P x d sg B D th) (hn : 0 < n) (hS : Sym B) (hpd : PD B) (hD : 0 < D) (O : Oracles Num) (hX : ExactRoutines O)
    (nv : Fin n → ℝ) (hnv : rmv B nv = -sg) (hin : rnorm nv ≤ D) (hroom : InBox P.lb P.ub (x + (1 / th) • fun i => d i * nv i)) :
    ∃ st', stepFull O P = .ok st' ∧ TakesFull P x d sg B nv st' := by
  have hcols : (List.ofFn fun j : Fin n => fun i : Fin n => (meye : Mat Num n n) i j) =
      List.ofFn fun j : Fin n => ofV fun i : Fin n => if i = j then (1 : ℝ) else 0 := by
    congr 1
    funext j i
    rw [meye_ofM]; rfl
  unfold stepFull
  by_cases h1 : n = 1
  · subst h1
    refine newton_one hP hS hpd hD O.sub (Step.init P .nd (List.ofFn fun j : Fin 1 => fun i : Fin 1 => (meye : Mat Num 1 1) i j)) rfl rfl rfl nv hnv hin hroom (fun _ => 1) (by
      show (List.ofFn fun j : Fin 1 => fun i : Fin 1 => (meye : Mat Num 1 1) i j) = _
      rw [hcols]
      simp only [List.ofFn_succ, List.ofFn_zero]
      congr 2
      funext i; rw [if_pos (Subsingleton.elim _ _)]) (nv 0) ?_
    funext i; rw [Subsingleton.elim i 0]; simp
  · have hl : (List.ofFn fun j : Fin n => (ofV fun i : Fin n => if i = j then (1 : ℝ) else 0 : Vec Num n)).length = n := by simp
    have hall : ∀ q : Fin n → ℝ, q = colsum (fun a : Fin (List.ofFn fun j : Fin n => (ofV fun i : Fin n => if i = j then (1 : ℝ) else 0 : Vec Num n)).length =>
        fun i => if i = a.cast hl then (1 : ℝ) else 0) (fun a => q (a.cast hl)) := by
      intro q
      funext i
      rw [colsum, Finset.sum_apply]
      rw [Finset.sum_eq_single (i.cast hl.symm)]
      · simp
      · intro b _ hb'
        have : i ≠ b.cast hl := by
          rintro rfl; exact hb' (by simp)
        simp [this]
      · intro h; exact absurd (Finset.mem_univ _) h
    exact newton_many hP hS hpd hD O hX (Step.init P .nd (List.ofFn fun j : Fin n => fun i : Fin n => (meye : Mat Num n n) i j)) rfl rfl rfl nv hnv hin hroom _ hcols
      (fun a => fun i => if i = a.cast hl then (1 : ℝ) else 0) (by intro a; simp [List.get_eq_getElem]; rfl) (fun a => nv (a.cast hl)) (hall nv) (by simp; omega) (by
      intro a b
      have : ∀ j k : Fin n, rdot (fun i : Fin n => if i = j then (1 : ℝ) else 0) (fun i => if i = k then (1 : ℝ) else 0) = if j = k then 1 else 0 := by
        intro j k
        simp [rdot, eq_comm]
      rw [this]
      congr 1
      rw [eq_iff_iff]
      exact (Fin.cast_injective _).eq_iff)

/-- the two-dimensional solver -/
theorem two_newton (hP : RealProb P x d sg B D th) (hn : 0 < n) (hS : Sym B) (hpd : PD B) (hD : 0 < D) (O : Oracles Num) (hX : ExactRoutines O)
    (nv : Fin n → ℝ) (hnv : rmv B nv = -sg) (hg : sg ≠ 0) (hin : rnorm nv ≤ D) (hroom : InBox P.lb P.ub (x + (1 / th) • fun i => d i * nv i)) :
    ∃ st', step2d O P = .ok st' ∧ TakesFull P x d sg B nv st' := by
  obtain ⟨z, hz, hBz⟩ := exact_lstsq O hX hS sg (-nv) (by rw [rmv_neg, hnv, neg_neg])
  obtain ⟨vals, U, he, hE⟩ := hX.npEig B hS
  have hzn : z = -nv := pd_injective hpd (by rw [hBz, rmv_neg, hnv, neg_neg])
  subst hzn
  have hnv0 : nv ≠ 0 := by
    rintro rfl
    rw [rmv_zero] at hnv
    exact hg (by rw [← neg_neg sg, ← hnv, neg_zero])
  have hpdt := exact_posdef vals hn (pd_vals hpd hE)
  have hrn := rnorm_pos hnv0
  have hsc : nv = rnorm nv • ((rnorm nv)⁻¹ • nv) := by rw [smul_smul, mul_inv_cancel₀ hrn.ne', one_smul]
  have line : ∀ u : Fin n → ℝ, (∃ e : ℝ, nv = e • u) → ∀ st : Step Num n, st.s0 = vzero → st.ss0 = vzero → st.x = P.x → st.subspace = [ofV u] →
      ∃ st', st.calculate O.sub P = .ok st' ∧ TakesFull P x d sg B nv st' := fun u ⟨e, he⟩ st h1 h2 h3 h4 =>
    newton_one hP hS hpd hD O.sub st h1 h2 h3 nv hnv hin hroom u h4 e he
  unfold step2d
  unfold subspace2d
  rw [hP.shess, hP.sg, hz, he]
  simp only
  by_cases h1 : n = 1
  · subst h1
    rw [if_pos rfl]
    have hB0 : 0 < B 0 0 := by
      have := hpd (fun _ => 1) (by intro h; have := congrFun h 0; simp at this)
      simpa [rdot, rmv] using this
    have hcol : (fun i => -ofV sg i / ofM B i i) = ofV nv := by
      funext i
      have hi : i = 0 := Subsingleton.elim _ _
      subst hi
      have := congrFun hnv 0
      simp only [rmv, rdot, Finset.univ_unique, Fin.default_eq_zero, Fin.isValue, Finset.sum_singleton, Pi.neg_apply] at this
      simp only [ofV_apply, ofM_apply, fin_neg]
      rw [fin_div _ _ hB0.ne', ← this, mul_div_cancel_left₀ _ hB0.ne']
    simp only [hcol]
    exact line nv ⟨1, (one_smul _ _).symm⟩ _ rfl rfl rfl rfl
  · rw [if_neg h1, if_pos hpdt]
    have hvn : vneg (ofV (-nv)) = ofV nv := by rw [vneg_ofV, neg_neg]
    rw [hvn]
    by_cases hlt : lt (norm (ofV nv)) P.delta = true
    · rw [if_pos hlt]
      exact line _ ⟨_, hsc⟩ _ rfl rfl rfl (by show [normalize (ofV nv)] = _; rw [normalize_ofV])
    · rw [if_neg hlt]
      have hu1 : rnorm ((rnorm nv)⁻¹ • nv) = 1 := rnorm_normalized hnv0
      rcases orth2d_span nv sg hnv0 _ rfl with ⟨h, hsmall⟩ | ⟨b, h, hb1, hb2, c, hgc⟩
      · exact line _ ⟨_, hsc⟩ _ rfl rfl rfl h
      · have hc0 : nv = colsum (fun a : Fin [ofV ((rnorm nv)⁻¹ • nv), ofV b].length => if a = 0 then (rnorm nv)⁻¹ • nv else b) (fun a => if a = 0 then rnorm nv else 0) := by
          rw [colsum]
          show nv = ∑ a : Fin 2, _
          rw [Fin.sum_univ_two]
          simp only [Fin.isValue, ↓reduceIte, zero_smul, one_ne_zero, add_zero]
          exact hsc
        simp only
        generalize hst : ({ Step.init P .twoD (subspace2dOrth (ofV nv) (ofV sg)) with posdef := _, newton := _ } : Step Num n) = st
        exact newton_many hP hS hpd hD O hX st (by rw [← hst]; rfl) (by rw [← hst]; rfl) (by rw [← hst]; rfl) nv hnv hin hroom
          [ofV ((rnorm nv)⁻¹ • nv), ofV b] (by rw [← hst]; exact h)
          (fun a => if a = 0 then (rnorm nv)⁻¹ • nv else b) (by
            intro a
            match a with
            | ⟨0, _⟩ => rfl
            | ⟨1, _⟩ => rfl) (fun a => if a = 0 then rnorm nv else 0) hc0 (by simp) (by
            have haa : rdot ((rnorm nv)⁻¹ • nv) ((rnorm nv)⁻¹ • nv) = 1 := by rw [← rnorm_sq, hu1]; norm_num
            have hbb : rdot b b = 1 := by rw [← rnorm_sq, hb1]; norm_num
            have key : ∀ a c : Fin 2, rdot (if a = 0 then (rnorm nv)⁻¹ • nv else b) (if c = 0 then (rnorm nv)⁻¹ • nv else b) = if a = c then 1 else 0 := by
              intro a c
              match a, c with
              | 0, 0 => simpa using haa
              | 0, 1 => simpa using hb2
              | 1, 0 => rw [rdot_comm]; simpa using hb2
              | 1, 1 => simpa using hbb
            exact key)

/-- the proposal of `trust_region` with either solver -/
theorem trustRegion_newton {I : TRIn Num n} (hP : RealProb I.prob x d sg B D th) (hn : 0 < n) (hS : Sym B) (hpd : PD B) (hD : 0 < D) (O : Oracles Num)
    (hX : ExactRoutines O) (fuel : ℕ) {dim : SubSpaceDim} (hdim : dim = .two ∨ dim = .full) (strat : StepBackStrategy)
    (nv : Fin n → ℝ) (hnv : rmv B nv = -sg) (hg : sg ≠ 0) (hin : rnorm nv ≤ D) (hroom : InBox I.prob.lb I.prob.ub (x + (1 / th) • fun i => d i * nv i)) :
    ∃ st', trustRegion O fuel dim strat I = .ok st' ∧ TakesFull I.prob x d sg B nv st' := by
  have h1 : ∃ tr, trStep O fuel I.prob dim = .ok tr ∧ TakesFull I.prob x d sg B nv tr := by
    rcases hdim with rfl | rfl
    · exact two_newton hP hn hS hpd hD O hX nv hnv hg hin hroom
    · exact full_newton hP hn hS hpd hD O hX nv hnv hin hroom
  obtain ⟨tr, h, ht⟩ := h1
  refine ⟨tr, ?_, ht⟩
  unfold trustRegion candidates
  rw [h]
  have ha : lt tr.alpha (Fides.lit 1 : Num) = false := by rw [ht.alpha]; simp
  simp only [ha, Bool.false_and, Bool.false_eq_true, if_false]
  rfl

end

end Fides
