import Verif.Lemmas.Compare
import Verif.Lemmas.SteihaugOracle

/-! Helper lemmas: on positive definite problems the proposal does not depend on the choices of the (exact) linear algebra routines. -/

namespace Fides
open Num Spec
variable {n : ℕ}

/-- strict convexity: there is one best point in the ball -/
theorem min_unique {B : Fin n → Fin n → ℝ} (hS : Sym B) (hpd : PD B) {g : Fin n → ℝ} {D : ℝ} (hD : 0 ≤ D) {r s : Fin n → ℝ} (hr : MinOverBall B g D r) (hs : MinOverBall B g D s)
    (hrD : rnorm r ≤ D) (hsD : rnorm s ≤ D) : r = s := by
  by_contra hne
  have hne' : s - r ≠ 0 := fun h => hne (sub_eq_zero.mp h).symm
  have hcur := hpd _ hne'
  have hq := fun t => quad_line hS g (s - r) r t
  have hmid : rnorm (r + (1 / 2 : ℝ) • (s - r)) ≤ D := by
    have e : r + (1 / 2 : ℝ) • (s - r) = (1 / 2 : ℝ) • r + (1 / 2 : ℝ) • s := by
      funext i; simp; ring
    rw [e]
    refine (rnorm_add_le _ _).trans ?_
    rw [rnorm_smul, rnorm_smul, abs_of_pos (by norm_num)]
    linarith
  have h1 := hr _ hmid
  have h2 := hs _ hmid
  have h3 := hq 1
  have h4 := hq (1 / 2)
  have e1 : r + (1 : ℝ) • (s - r) = s := by rw [one_smul]; abel
  rw [e1] at h3
  rw [rdot_comm (rmv B (s - r))] at h3 h4
  have h5 := hr s hsD
  have h6 := hs r hrD
  linarith

/-- the solution of a positive definite subproblem is the same for all exact routines -/
theorem solveNd_same (O O' : Oracles Num) (hX : ExactRoutines O) (hX' : ExactRoutines O') {k : ℕ} (hk : 0 < k) {B : Fin k → Fin k → ℝ} (hB : Sym B) (hpd : PD B) (g : Fin k → ℝ)
    {D : ℝ} (hD : 0 < D) : ∃ r ty ty', solveNd O.sub (ofM B) (ofV g) (fin D) = .ok (ofV r, ty) ∧ solveNd O'.sub (ofM B) (ofV g) (fin D) = .ok (ofV r, ty') := by
  obtain ⟨nv, hnv⟩ := pd_solve hB hpd g
  by_cases hin : rnorm nv ≤ D + ballTol
  · obtain ⟨ty, h1⟩ := solveNd_newton O hX hk hB hpd g nv hD hnv hin
    obtain ⟨ty', h2⟩ := solveNd_newton O' hX' hk hB hpd g nv hD hnv hin
    exact ⟨nv, ty, ty', h1, h2⟩
  · obtain ⟨r, ty, h1, h2, h3⟩ := solveNd_pd O hX hk hB hpd g hD
    obtain ⟨r', ty', h1', h2', h3'⟩ := solveNd_pd O' hX' hk hB hpd g hD
    have key : ∀ r : Fin k → ℝ, (rnorm r ≤ D ∨ (rmv B r = -g ∧ rnorm r ≤ D + 1 / 67108864)) → rnorm r ≤ D := by
      rintro r (h | ⟨h, hl⟩)
      · exact h
      · exact absurd (by rw [← pd_injective hpd (h.trans hnv.symm)]; exact hl) hin
    have := min_unique hB hpd hD.le h2 h2' (key r h3) (key r' h3')
    subst this
    exact ⟨r, ty, ty', h1, h1'⟩

section
variable {P : Prob Num n} {x d sg : Fin n → ℝ} {B : Fin n → Fin n → ℝ} {D th : ℝ}

theorem calc_same (hP : RealProb P x d sg B D th)
    (hS : Sym B) (hpd : PD B) (hD : 0 < D) (O O' : Oracles Num) (hX : ExactRoutines O) (hX' : ExactRoutines O') (st : Step Num n) (hss0 : st.ss0 = vzero)
    (cs : List (Vec Num n)) (hcols : st.subspace = cs) (C : Fin cs.length → Fin n → ℝ)
    (hC : ∀ a, cs.get a = ofV (C a)) (h2l : 2 ≤ cs.length)
    (hor' : ∀ a b, rdot (C a) (C b) = if a = b then 1 else 0) : st.calculate O.sub P = st.calculate O'.sub P := by
  have hnorm := colsum_norm C hor'
  have hM : chess (ofM B) cs = ofM (reduced B C) := by
    funext a b
    simp only [chess, hC, mulVec_ofM, dot_ofV, ofM_apply, reduced]
  have hg : cg (ofV sg) cs = ofV fun a => rdot (C a) sg := by
    funext a
    simp only [cg, hC, dot_ofV, ofV_apply]
  have hSr : Sym (reduced B C) := by
    intro a b
    simp only [reduced]
    rw [Sym.rdot_rmv hS, rdot_comm]
  have hpdr : PD (reduced B C) := by
    intro v hv
    rw [reduced_form]
    apply hpd
    intro h0
    apply hv
    have := hnorm v
    rw [h0, rnorm_eq_zero.mpr rfl] at this
    exact rnorm_eq_zero.mp this.symm
  obtain ⟨r, ty, ty', h1, h2⟩ := solveNd_same O O' hX hX' (by omega) hSr hpdr (fun a => rdot (C a) sg) hD
  have hrad : FloatOps.sqrt (pyMax (P.delta * P.delta - norm st.ss0 * norm st.ss0) (Fides.lit 0)) = fin D := by
    rw [hP.delta, hss0, vzero_ofV, norm_ofV, rnorm_eq_zero.mpr rfl, fin_mul, fin_mul, fin_sub, lit_def, pyMax_fin]
    have : max (D * D - 0 * 0) ((0 : ℚ) : ℝ) = D * D := by
      rw [max_eq_left (by push_cast; nlinarith)]; ring
    rw [this, fin_sqrt _ (by positivity), Real.sqrt_mul_self hD.le]
  unfold Step.calculate
  rw [computeStep_many O.sub P st cs h2l hcols, computeStep_many O'.sub P st cs h2l hcols, hrad, hP.shess, hP.sg, hM, hg, h1, h2]

theorem full_same (hP : RealProb P x d sg B D th) (hS : Sym B) (hpd : PD B) (hD : 0 < D) (O O' : Oracles Num)
    (hX : ExactRoutines O) (hX' : ExactRoutines O') : stepFull O P = stepFull O' P := by
  have hcols : (List.ofFn fun j : Fin n => fun i : Fin n => (meye : Mat Num n n) i j) =
      List.ofFn fun j : Fin n => ofV fun i : Fin n => if i = j then (1 : ℝ) else 0 := by
    congr 1
    funext j i
    rw [meye_ofM]; rfl
  have hl : (List.ofFn fun j : Fin n => (ofV fun i : Fin n => if i = j then (1 : ℝ) else 0 : Vec Num n)).length = n := by simp
  unfold stepFull
  by_cases h1 : n ≤ 1
  · exact calculate_oracle _ _ _ _ (by simpa [Step.init] using h1)
  · refine calc_same hP hS hpd hD O O' hX hX' (Step.init P .nd (List.ofFn fun j : Fin n => fun i : Fin n => (meye : Mat Num n n) i j)) rfl _ hcols
      (fun a => fun i => if i = a.cast hl then (1 : ℝ) else 0) (by intro a; simp [List.get_eq_getElem]; rfl) (by simp; omega) (by
      intro a b
      have : ∀ j k : Fin n, rdot (fun i : Fin n => if i = j then (1 : ℝ) else 0) (fun i => if i = k then (1 : ℝ) else 0) = if j = k then 1 else 0 := by
        intro j k
        simp [rdot, eq_comm]
      rw [this]
      congr 1
      rw [eq_iff_iff]
      exact (Fin.cast_injective _).eq_iff)

theorem two_same (hP : RealProb P x d sg B D th) (hn : 0 < n) (hS : Sym B) (hpd : PD B) (hD : 0 < D) (O O' : Oracles Num)
    (hX : ExactRoutines O) (hX' : ExactRoutines O') : step2d O P = step2d O' P := by
  obtain ⟨nv, hnv⟩ := pd_solve hS hpd sg
  have hz : ∀ O : Oracles Num, ExactRoutines O → O.lstsq (ofM B) (ofV sg) = .ok (ofV (-nv)) := by
    intro O hX
    obtain ⟨z, hz, hBz⟩ := exact_lstsq O hX hS sg (-nv) (by rw [rmv_neg, hnv, neg_neg])
    have hzn : z = -nv := pd_injective hpd (by rw [hBz, rmv_neg, hnv, neg_neg])
    rw [hz, hzn]
  have hsub : ∀ O : Oracles Num, ExactRoutines O → subspace2d O P = if n = 1 then .ok ([fun i => -ofV sg i / ofM B i i], some true, none)
      else if lt (norm (ofV nv)) P.delta then .ok ([normalize (ofV nv)], some true, some true) else .ok (subspace2dOrth (ofV nv) (ofV sg), some true, some false) := by
    intro O hX
    obtain ⟨vals, U, he, hE⟩ := hX.npEig B hS
    have hpdt := exact_posdef vals hn (pd_vals hpd hE)
    have hvn : vneg (ofV (-nv)) = ofV nv := by rw [vneg_ofV, neg_neg]
    unfold subspace2d
    rw [hP.shess, hP.sg, hz O hX, he]
    simp only [hpdt, hvn, if_true]
  unfold step2d
  rw [hsub O hX, hsub O' hX']
  by_cases h1 : n = 1
  · simp only [if_pos h1]
    exact calculate_oracle _ _ _ _ (by simp [Step.init])
  · simp only [if_neg h1]
    by_cases hlt : lt (norm (ofV nv)) P.delta = true
    · simp only [if_pos hlt]
      exact calculate_oracle _ _ _ _ (by simp [Step.init])
    · simp only [if_neg hlt]
      by_cases hnv0 : nv = 0
      · -- not reachable with a positive radius
        exfalso
        rw [hnv0, norm_ofV, rnorm_eq_zero.mpr rfl, hP.delta] at hlt
        simp at hlt; linarith
      rcases orth2d_span nv sg hnv0 _ rfl with ⟨h, -⟩ | ⟨b, h, hb1, hb2, -⟩
      · exact calculate_oracle _ _ _ _ (by simp [Step.init, h])
      · have hu1 : rnorm ((rnorm nv)⁻¹ • nv) = 1 := rnorm_normalized hnv0
        generalize hst : ({ Step.init P .twoD (subspace2dOrth (ofV nv) (ofV sg)) with posdef := _, newton := _ } : Step Num n) = st
        refine calc_same hP hS hpd hD O O' hX hX' st (by rw [← hst]; rfl)
          [ofV ((rnorm nv)⁻¹ • nv), ofV b] (by rw [← hst]; exact h) (fun a => if a = 0 then (rnorm nv)⁻¹ • nv else b) (by
            intro a
            match a with
            | ⟨0, _⟩ => rfl
            | ⟨1, _⟩ => rfl) (by simp) (by
            have haa : rdot ((rnorm nv)⁻¹ • nv) ((rnorm nv)⁻¹ • nv) = 1 := by rw [← rnorm_sq, hu1]; norm_num
            have hbb : rdot b b = 1 := by rw [← rnorm_sq, hb1]; norm_num
            have key : ∀ a c : Fin 2, rdot (if a = 0 then (rnorm nv)⁻¹ • nv else b) (if c = 0 then (rnorm nv)⁻¹ • nv else b) = if a = c then 1 else 0 := by
              intro a c
              match a, c with
              | 0, 0 => simpa using haa
              | 0, 1 => simpa using hb2
              | 1, 0 => rw [rdot_comm]; simpa using hb2
              | 1, 1 => simpa using hbb
            exact key)

end

/-- the proposal of `trust_region` -/
theorem trustRegion_same {I : TRIn Num n} {x d sg : Fin n → ℝ} {B : Fin n → Fin n → ℝ} {D th : ℝ} (hP : RealProb I.prob x d sg B D th) (hn : 0 < n) (hS : Sym B) (hpd : PD B)
    (hD : 0 < D) (O O' : Oracles Num) (hX : ExactRoutines O) (hX' : ExactRoutines O') (fuel : ℕ) (dim : SubSpaceDim) (strat : StepBackStrategy)
    (hst : strat = .reflect ∨ strat = .singleReflect) : trustRegion O fuel dim strat I = trustRegion O' fuel dim strat I := by
  have h1 : trStep O fuel I.prob dim = trStep O' fuel I.prob dim := by
    cases dim with
    | two => exact two_same hP hn hS hpd hD O O' hX hX'
    | full => exact full_same hP hS hpd hD O O' hX hX'
    | steihaug => rfl
    | other => rfl
  have h2 : ∀ tr, stepbackCandidates O fuel I.prob strat tr = stepbackCandidates O' fuel I.prob strat tr := by
    intro tr
    rcases hst with rfl | rfl
    · exact stepbackReflect_oracle O O' I.prob tr
    · simp only [stepbackCandidates, stepReflected_oracle O O']
  suffices h : candidates O fuel I.prob dim strat = candidates O' fuel I.prob dim strat by
    simp only [trustRegion, h]
  simp only [candidates, h1, h2, stepGradient_oracle O O']

/-! ## runs -/

section
variable {F : Type} [FloatOps F]

theorem iterate_tr (E : Env F n) (T : ℕ → TRIn F n → Except PyErr (Step F n)) (st : St F n) (old : Funout F n)
    (h : ∀ k, T k (trInput E { st with iteration := st.iteration + 1, deltaIter := st.delta }) = E.tr k (trInput E { st with iteration := st.iteration + 1, deltaIter := st.delta })) :
    iterate { E with tr := T } st old = iterate E st old := by
  unfold iterate
  simp only
  have e : trInput { E with tr := T } { st with iteration := st.iteration + 1, deltaIter := st.delta } = trInput E { st with iteration := st.iteration + 1, deltaIter := st.delta } := rfl
  rw [e]
  split
  · rfl
  · rw [h]; rfl

theorem loop_tr (E : Env F n) (T : ℕ → TRIn F n → Except PyErr (Step F n)) (x0 : Vec F n) (startId : String) (hess0 : Hess0 F) (st0 : St F n)
    (h : ∀ k st cur st1, LoopHead E x0 startId hess0 st0 k st cur → checkContinue E st = (true, st1) → ∀ j,
      T j (trInput E { st1 with iteration := st1.iteration + 1, deltaIter := st1.delta }) = E.tr j (trInput E { st1 with iteration := st1.iteration + 1, deltaIter := st1.delta }))
    (fuel k : ℕ) (st : St F n) (cur : Funout F n) (hh : LoopHead E x0 startId hess0 st0 k st cur) : loop { E with tr := T } fuel st cur = loop E fuel st cur := by
  induction fuel generalizing k st cur with
  | zero => rw [loop.eq_def, loop.eq_def]; rfl
  | succ fuel ih =>
    have e : checkContinue { E with tr := T } st = checkContinue E st := rfl
    rw [loop, loop, e]
    cases hc : checkContinue E st with
    | mk b st1 =>
      cases b with
      | false => rfl
      | true =>
        simp only
        rw [iterate_tr E T st1 cur (h k st cur st1 hh hc)]
        cases hi : iterate E st1 cur with
        | error e => rfl
        | ok r => exact ih (k + 1) r.1 r.2 (.next k st st1 r.1 cur r.2 hh hc hi)

/-- a run depends on the proposals made for the states it meets only -/
theorem minimize_tr (E : Env F n) (T : ℕ → TRIn F n → Except PyErr (Step F n)) (x0 : Vec F n) (startId : String) (hess0 : Hess0 F) (st0 : St F n)
    (h : ∀ k st cur st1, LoopHead E x0 startId hess0 st0 k st cur → checkContinue E st = (true, st1) → ∀ j,
      T j (trInput E { st1 with iteration := st1.iteration + 1, deltaIter := st1.delta }) = E.tr j (trInput E { st1 with iteration := st1.iteration + 1, deltaIter := st1.delta }))
    (fuel : ℕ) : minimize { E with tr := T } fuel x0 startId hess0 st0 = minimize E fuel x0 startId hess0 st0 := by
  unfold minimize
  simp only
  by_cases hn : n = 0
  · rw [if_pos hn, if_pos hn]; rfl
  · rw [if_neg hn, if_neg hn]
    have e1 : ∀ st : St F n, makeNonDegenerate { E with tr := T } st = makeNonDegenerate E st := fun _ => rfl
    have e2 : ∀ x (st : St F n), checkInBounds { E with tr := T } x st = checkInBounds E x st := fun _ _ => rfl
    have e3 : ∀ h0 (st : St F n), setup { E with tr := T } h0 st = setup E h0 st := fun _ _ => rfl
    have e4 : ∀ st : St F n, reset { E with tr := T } startId st = reset E startId st := fun _ => rfl
    have e5 : ∀ st : St F n, writeHistory { E with tr := T } st = writeHistory E st := fun _ => rfl
    simp only [e1, e2, e3, e4, e5]
    split
    · rfl
    · rename_i st1 hb
      split
      · rfl
      · rename_i st cur hs
        rw [loop_tr E T x0 startId hess0 st0 h fuel 0 st cur (.start st1 st cur hb hs)]

end

end Fides
