import Verif.Lemmas.UnitsRun

/-! Helper lemmas: proposals for an objective in other units. -/

namespace Fides
open Num Spec

variable {n : ℕ} {c : ℝ}

theorem un_quad_lt (hc : 0 < c) (B : Fin n → Fin n → ℝ) (g p q : Fin n → ℝ) : quad (c • B) (c • g) p < quad (c • B) (c • g) q ↔ quad B g p < quad B g q := by
  rw [un_quad, un_quad]
  exact mul_lt_mul_iff_right₀ hc

theorem un_quad_le (hc : 0 < c) (B : Fin n → Fin n → ℝ) (g p q : Fin n → ℝ) : quad (c • B) (c • g) p ≤ quad (c • B) (c • g) q ↔ quad B g p ≤ quad B g q := by
  rw [un_quad, un_quad]
  exact mul_le_mul_iff_right₀ hc

theorem un_newton (hc : 0 < c) (B : Fin n → Fin n → ℝ) (g nv : Fin n → ℝ) (h : rmv B nv = -g) : rmv (c • B) nv = -(c • g) := by
  rw [un_rmv, h, smul_neg]

theorem un_solve1d (hc : 0 < c) (B : Fin n → Fin n → ℝ) (g s : Fin n → ℝ) {delta : ℝ} (hd : 0 < delta) (hs : s ≠ 0) :
    solve1d (ofM (c • B)) (ofV (c • g)) (ofV s) (fin delta) (ofV 0) = solve1d (ofM B) (ofV g) (ofV s) (fin delta) (ofV 0) := by
  have hz : ∀ u : Fin n → ℝ, u ≠ 0 → (decide (∀ i, feq (ofV u i) (Fides.lit 0 : Num) = true)) = false := by
    intro u hu
    rw [decide_eq_false_iff_not]
    intro h
    apply hu
    funext i
    simpa using h i
  have hb : boundarySolution1d (ofM (c • B)) (ofV (c • g)) (ofV s) (ofV 0) (fin delta) = boundarySolution1d (ofM B) (ofV g) (ofV s) (ofV 0) (fin delta) := by
    rw [boundary_value g s 0 delta hs (by rw [rdot_zero]; positivity), boundary_value _ s 0 delta hs (by rw [rdot_zero]; positivity)]
    simp only [un_quad_lt hc]
  unfold solve1d
  rw [hz s hs, hb]
  have h1 : dot (mulVec (ofM (c • B)) (ofV s)) (ofV s) = fin (c * rdot (rmv B s) s) := by
    rw [mulVec_ofM, dot_ofV, un_rmv, smul_rdot]
  have h1' : dot (mulVec (ofM B) (ofV s)) (ofV s) = fin (rdot (rmv B s) s) := by rw [mulVec_ofM, dot_ofV]
  have h2 : dot (ofV s) (vadd (mulVec (ofM (c • B)) (ofV 0)) (ofV (c • g))) = fin (c * rdot s g) := by
    rw [mulVec_ofM, rmv_zero, vadd_ofV, zero_add, dot_ofV, rdot_smul]
  have h2' : dot (ofV s) (vadd (mulVec (ofM B) (ofV 0)) (ofV g)) = fin (rdot s g) := by
    rw [mulVec_ofM, rmv_zero, vadd_ofV, zero_add, dot_ofV]
  simp only [h1, h1', h2, h2']
  have e1 : lt (Fides.lit 0) ((Fides.lit (1 / 2) : Num) * fin (c * rdot (rmv B s) s)) = lt (Fides.lit 0) ((Fides.lit (1 / 2) : Num) * fin (rdot (rmv B s) s)) := by
    simp only [lit_def, fin_mul, fin_lt, decide_eq_decide]
    push_cast
    constructor
    · intro h
      have : 0 < c * rdot (rmv B s) s := by linarith
      have := (mul_pos_iff_of_pos_left hc).mp this
      linarith
    · intro h
      have : 0 < rdot (rmv B s) s := by linarith
      have := mul_pos hc this
      linarith
  rw [e1]
  by_cases ha : lt (Fides.lit 0) ((Fides.lit (1 / 2) : Num) * fin (rdot (rmv B s) s)) = true
  · have hp : 0 < rdot (rmv B s) s := by
      rw [lit_def, lit_def, fin_mul, fin_lt] at ha
      have := of_decide_eq_true ha
      push_cast at this
      linarith
    have e2 : -fin (c * rdot s g) / ((Fides.lit 2 : Num) * ((Fides.lit (1 / 2) : Num) * fin (c * rdot (rmv B s) s))) =
        -fin (rdot s g) / ((Fides.lit 2 : Num) * ((Fides.lit (1 / 2) : Num) * fin (rdot (rmv B s) s))) := by
      have := mul_pos hc hp
      rw [lit_def, lit_def, fin_mul, fin_mul, fin_mul, fin_mul, fin_neg, fin_neg, fin_div _ _ (by push_cast; positivity), fin_div _ _ (by push_cast; positivity), fin_inj]
      push_cast
      field_simp
    rw [e2]
  · simp only [ha, Bool.false_and, Bool.false_eq_true, if_false]

theorem un_solveNd (hc : 0 < c) (O O' : Oracles Num) (hX : ExactRoutines O) (hX' : ExactRoutines O') {k : ℕ} (hk : 0 < k) {B : Fin k → Fin k → ℝ} (hB : Sym B) (hpd : PD B) (g : Fin k → ℝ)
    {D : ℝ} (hD : 0 < D) : ∃ r ty ty', solveNd O.sub (ofM B) (ofV g) (fin D) = .ok (ofV r, ty) ∧ solveNd O'.sub (ofM (c • B)) (ofV (c • g)) (fin D) = .ok (ofV r, ty') := by
  obtain ⟨nv, hnv⟩ := pd_solve hB hpd g
  have hnv' := un_newton hc B g nv hnv
  have hB' : Sym (c • B) := un_sym hB
  have hpd' : PD (c • B) := un_pd hc hpd
  by_cases hin : rnorm nv ≤ D + ballTol
  · obtain ⟨ty, h1⟩ := solveNd_newton O hX hk hB hpd g nv hD hnv hin
    obtain ⟨ty', h2⟩ := solveNd_newton O' hX' hk hB' hpd' (c • g) nv hD hnv' hin
    exact ⟨nv, ty, ty', h1, h2⟩
  · obtain ⟨r, ty, h1, h2, h3⟩ := solveNd_pd O hX hk hB hpd g hD
    obtain ⟨r', ty', h1', h2', h3'⟩ := solveNd_pd O' hX' hk hB' hpd' (c • g) hD
    have key : ∀ (B : Fin k → Fin k → ℝ) (g : Fin k → ℝ), PD B → rmv B nv = -g → ∀ r : Fin k → ℝ, (rnorm r ≤ D ∨ (rmv B r = -g ∧ rnorm r ≤ D + 1 / 67108864)) → rnorm r ≤ D := by
      rintro B g hpd hnv r (h | ⟨h, hl⟩)
      · exact h
      · have : r = nv := pd_injective hpd (h.trans hnv.symm)
        rw [this] at hl
        exact absurd hl hin
    have hmin : MinOverBall B g D r' := fun q hq => by
      have := h2' q hq
      rwa [un_quad_le hc] at this
    have : r = r' := min_unique hB hpd hD.le h2 hmin (key B g hpd hnv _ h3) (key (c • B) (c • g) hpd' hnv' _ h3')
    subst this
    exact ⟨r, ty, ty', h1, h1'⟩

/-- the subspace of the 2D solver for a positive definite Hessian -/
theorem subspace2d_pd (hn : 0 < n) {D : ℝ} (O : Oracles Num) (P : Prob Num n) (x g nv : Fin n → ℝ) (B : Fin n → Fin n → ℝ) (th : ℝ) (hX : ExactRoutines O) (hP : RealProb P x 1 g B D th) (hS : Sym B)
    (hpd : PD B) (hnv : rmv B nv = -g) :
    subspace2d O P = if n = 1 then .ok ([ofV nv], some true, none)
      else if lt (norm (ofV nv)) P.delta then .ok ([normalize (ofV nv)], some true, some true) else .ok (subspace2dOrth (ofV nv) (ofV g), some true, some false) := by
  obtain ⟨z, hz, hBz⟩ := exact_lstsq O hX hS g (-nv) (by rw [rmv_neg, hnv, neg_neg])
  have hzn : z = -nv := pd_injective hpd (by rw [hBz, rmv_neg, hnv, neg_neg])
  rw [hzn] at hz
  obtain ⟨vals, U, he, hE⟩ := hX.npEig B hS
  have hpdt := exact_posdef vals hn (pd_vals hpd hE)
  have hvn : vneg (ofV (-nv)) = ofV nv := by rw [vneg_ofV, neg_neg]
  unfold subspace2d
  rw [hP.shess, hP.sg, hz, he]
  simp only [hpdt, hvn, if_true]
  by_cases h1 : n = 1
  · subst h1
    rw [if_pos rfl, if_pos rfl]
    have : (fun i : Fin 1 => -ofV g i / ofM B i i) = ofV nv := by
      funext i
      have hi : i = 0 := Subsingleton.elim _ _
      subst hi
      have e := congrFun hnv 0
      simp only [rmv, rdot, Finset.univ_unique, Fin.default_eq_zero, Finset.sum_singleton, Pi.neg_apply] at e
      have hB0 : 0 < B 0 0 := by
        have := hpd (fun _ => 1) (fun h => one_ne_zero (congrFun h 0))
        simpa [rmv, rdot] using this
      rw [ofV_apply, ofM_apply, fin_neg, fin_div _ _ hB0.ne', ofV_apply, fin_inj]
      field_simp
      linarith
    rw [this]
  · rw [if_neg h1, if_neg h1]

section
variable {P P' : Prob Num n} {x g : Fin n → ℝ} {B : Fin n → Fin n → ℝ} {D th th' : ℝ}
  (hc : 0 < c) (hP : RealProb P x 1 g B D th) (hP' : RealProb P' x 1 (c • g) (c • B) D th') (hb : NoBounds P.lb P.ub) (hb' : NoBounds P'.lb P'.ub)
include hc hP hP' hb hb'

theorem un_calc_one (hS : Sym B) (hD : 0 < D) (O O' : Oracles Num) (st st' : Step Num n) (hs0 : st.s0 = vzero) (hss0 : st.ss0 = vzero) (hx : st.x = P.x)
    (hs0' : st'.s0 = vzero) (hss0' : st'.ss0 = vzero) (hx' : st'.x = P'.x) (u : Fin n → ℝ) (hu : u ≠ 0) (hcols : st.subspace = [ofV u]) (hcols' : st'.subspace = [ofV u]) :
    ∃ r r' p, st.calculate O.sub P = .ok r ∧ st'.calculate O'.sub P' = .ok r' ∧ Proposes1 r x g B p ∧ Proposes1 r' x (c • g) (c • B) p := by
  obtain ⟨t, ht, -, -⟩ := C20_solve1d hS g u 0 D hD.le (by rw [rnorm_eq_zero.mpr rfl]; exact hD.le) (Or.inl (by rw [rnorm_eq_zero.mpr rfl]; exact hD))
  have hcs : st.computeStep O.sub P = .ok { st with sc := [fin t], ss := ofV (t • u), s := sdot P.scaling (ofV (t • u)) } := by
    unfold Step.computeStep
    rw [hcols]
    simp only [hP.shess, hP.sg, hP.delta, hss0, vzero_ofV, ht, subDot_one]
  have ht' := (un_solve1d hc B g u hD hu).trans ht
  have hcs' : st'.computeStep O'.sub P' = .ok { st' with sc := [fin t], ss := ofV (t • u), s := sdot P'.scaling (ofV (t • u)) } := by
    unfold Step.computeStep
    rw [hcols']
    simp only [hP'.shess, hP'.sg, hP'.delta, hss0', vzero_ofV, ht', subDot_one]
  obtain ⟨r, h1, h2, h3, h4⟩ := calculate_of_ss hP hb O.sub st _ hs0 hss0 hx (t • u) hcs rfl
  obtain ⟨r', k1, k2, k3, k4⟩ := calculate_of_ss hP' hb' O'.sub st' _ hs0' hss0' hx' (t • u) hcs' rfl
  exact ⟨r, r', _, h1, k1, ⟨h3, h2, h4⟩, ⟨k3, k2, k4⟩⟩

theorem un_calc_many (hS : Sym B) (hpd : PD B) (hD : 0 < D) (O O' : Oracles Num) (hX : ExactRoutines O) (hX' : ExactRoutines O') (st st' : Step Num n)
    (hs0 : st.s0 = vzero) (hss0 : st.ss0 = vzero) (hx : st.x = P.x) (hs0' : st'.s0 = vzero) (hss0' : st'.ss0 = vzero) (hx' : st'.x = P'.x)
    (a b : Fin n → ℝ) (hcols : st.subspace = [ofV a, ofV b]) (hcols' : st'.subspace = [ofV a, ofV b]) (ha : rdot a a = 1) (hab : rdot a b = 0) (hbb : rdot b b = 1) :
    ∃ r r' p, st.calculate O.sub P = .ok r ∧ st'.calculate O'.sub P' = .ok r' ∧ Proposes1 r x g B p ∧ Proposes1 r' x (c • g) (c • B) p := by
  set C : Fin 2 → Fin n → ℝ := fun i => if i = 0 then a else b with hCd
  have hor : ∀ i j, rdot (C i) (C j) = if i = j then 1 else 0 := by
    intro i j
    match i, j with
    | 0, 0 => simpa [hCd] using ha
    | 0, 1 => simpa [hCd] using hab
    | 1, 0 => rw [rdot_comm]; simpa [hCd] using hab
    | 1, 1 => simpa [hCd] using hbb
  have hnorm := colsum_norm C hor
  have hC : ∀ i, [ofV a, ofV b].get i = (ofV (C i) : Vec Num n) := by
    intro i
    match i with
    | ⟨0, _⟩ => rfl
    | ⟨1, _⟩ => rfl
  have hM : chess (ofM B) [ofV a, ofV b] = ofM (reduced B C) := by
    funext i j
    simp only [chess, hC, mulVec_ofM, dot_ofV, ofM_apply, reduced]
  have hM' : chess (ofM (c • B)) [ofV a, ofV b] = ofM (c • reduced B C) := by
    funext i j
    simp only [chess, hC, mulVec_ofM, dot_ofV, ofM_apply, reduced, un_rmv, rdot_smul, smul_rdot, Pi.smul_apply, smul_eq_mul]
  have hg : cg (ofV g) [ofV a, ofV b] = ofV fun i => rdot (C i) g := by
    funext i
    simp only [cg, hC, dot_ofV, ofV_apply]
  have hg' : cg (ofV (c • g)) [ofV a, ofV b] = ofV (c • fun i => rdot (C i) g) := by
    funext i
    simp only [cg, hC, dot_ofV, ofV_apply, rdot_smul, Pi.smul_apply, smul_eq_mul]
  have hSr : Sym (reduced B C) := by
    intro i j
    simp only [reduced]
    rw [Sym.rdot_rmv hS, rdot_comm]
  have hpdr : PD (reduced B C) := by
    intro v hv
    rw [reduced_form]
    apply hpd
    intro h0
    apply hv
    have := hnorm v
    rw [h0, rnorm_eq_zero.mpr rfl] at this
    exact rnorm_eq_zero.mp this.symm
  obtain ⟨r, ty, ty', h1, h2⟩ := un_solveNd hc O O' hX hX' (by omega) hSr hpdr (fun i => rdot (C i) g) hD
  have hrad : ∀ (P : Prob Num n) (st : Step Num n), P.delta = fin D → st.ss0 = vzero →
      FloatOps.sqrt (pyMax (P.delta * P.delta - norm st.ss0 * norm st.ss0) (Fides.lit 0)) = fin D := by
    intro P st hd hss0
    rw [hd, hss0, vzero_ofV, norm_ofV, rnorm_eq_zero.mpr rfl, fin_mul, fin_mul, fin_sub, lit_def, pyMax_fin]
    have : max (D * D - 0 * 0) ((0 : ℚ) : ℝ) = D * D := by
      rw [max_eq_left (by push_cast; nlinarith)]; ring
    rw [this, fin_sqrt _ (by positivity), Real.sqrt_mul_self hD.le]
  have hcomp : st.computeStep O.sub P = .ok { st with sc := List.ofFn (ofV r), ss := ofV (colsum C r), s := sdot P.scaling (ofV (colsum C r)) } := by
    rw [computeStep_many O.sub P st _ (by simp) hcols, hrad P st hP.delta hss0, hP.shess, hP.sg, hM, hg, h1]
    simp only [subDot_colsum [ofV a, ofV b] C hC]
  have hcomp' : st'.computeStep O'.sub P' = .ok { st' with sc := List.ofFn (ofV r), ss := ofV (colsum C r), s := sdot P'.scaling (ofV (colsum C r)) } := by
    rw [computeStep_many O'.sub P' st' _ (by simp) hcols', hrad P' st' hP'.delta hss0', hP'.shess, hP'.sg, hM', hg', h2]
    simp only [subDot_colsum [ofV a, ofV b] C hC]
  obtain ⟨s, e1, e2, e3, e4⟩ := calculate_of_ss hP hb O.sub st _ hs0 hss0 hx _ hcomp rfl
  obtain ⟨s', k1, k2, k3, k4⟩ := calculate_of_ss hP' hb' O'.sub st' _ hs0' hss0' hx' _ hcomp' rfl
  exact ⟨s, s', _, e1, k1, ⟨e3, e2, e4⟩, ⟨k3, k2, k4⟩⟩

theorem un_full (hn : 0 < n) (hS : Sym B) (hpd : PD B) (hD : 0 < D) (O O' : Oracles Num) (hX : ExactRoutines O) (hX' : ExactRoutines O') :
    ∃ r r' p, stepFull O P = .ok r ∧ stepFull O' P' = .ok r' ∧ Proposes1 r x g B p ∧ Proposes1 r' x (c • g) (c • B) p := by
  obtain ⟨nv, hnv⟩ := pd_solve hS hpd g
  obtain ⟨r, h1, p, h2, h3, h4, h5⟩ := full_best hP hb hn hS hpd hD O hX nv hnv
  obtain ⟨r', k1, p', k2, k3, k4, k5⟩ := full_best hP' hb' hn (un_sym hS) (un_pd hc hpd) hD O' hX' nv (un_newton hc B g nv hnv)
  have : p' = p := by
    by_cases hin : 1 < n ∧ rnorm nv ≤ D + ballTol
    · rw [k4 hin.1 hin.2, h4 hin.1 hin.2]
    · have e1 : rnorm p ≤ D := by
        rcases h3 with h | ⟨h0, rfl, h⟩
        · exact h
        · exact absurd ⟨h0, h⟩ hin
      have e2 : rnorm p' ≤ D := by
        rcases k3 with h | ⟨h0, rfl, h⟩
        · exact h
        · exact absurd ⟨h0, h⟩ hin
      exact min_unique hS hpd hD.le (fun q hq => (un_quad_le hc B g p' q).mp (k5 q hq)) h5 e2 e1
  subst this
  exact ⟨r, r', p', h1, k1, h2, k2⟩

/-- the 2D solver, if the test whether the gradient has a part orthogonal to the Newton direction comes out the same in both units -/
theorem un_two (hS : Sym B) (hpd : PD B) (hD : 0 < D) (hg : g ≠ 0) (O O' : Oracles Num) (hX : ExactRoutines O) (hX' : ExactRoutines O')
    (hT : ∀ nv, rmv B nv = -g → (1 / 4503599627370496 < rnorm (g - rdot ((rnorm nv)⁻¹ • nv) g • (rnorm nv)⁻¹ • nv) ↔
      1 / 4503599627370496 < c * rnorm (g - rdot ((rnorm nv)⁻¹ • nv) g • (rnorm nv)⁻¹ • nv))) :
    ∃ r r' p, step2d O P = .ok r ∧ step2d O' P' = .ok r' ∧ Proposes1 r x g B p ∧ Proposes1 r' x (c • g) (c • B) p := by
  have hn : 0 < n := by
    rcases Nat.eq_zero_or_pos n with h0 | h0
    · subst h0; exact absurd (funext fun i => i.elim0) hg
    · exact h0
  obtain ⟨nv, hnv⟩ := pd_solve hS hpd g
  have hnv0 : nv ≠ 0 := by
    rintro rfl
    rw [rmv_zero] at hnv
    exact hg (by rw [← neg_neg g, ← hnv, neg_zero])
  have h1 := subspace2d_pd hn O P x g nv B th hX hP hS hpd hnv
  have h2 := subspace2d_pd hn O' P' x _ nv _ th' hX' hP' (un_sym hS) (un_pd hc hpd) (un_newton hc B g nv hnv)
  have horth : subspace2dOrth (ofV nv) (ofV (c • g)) = subspace2dOrth (ofV nv) (ofV g) := by
    have hT := hT nv hnv
    set a := (rnorm nv)⁻¹ • nv with ha
    have e1 : ∀ t : ℝ, (fun i => ofV a i * fin t) = ofV (t • a) := by
      intro t; funext i; simp [mul_comm]
    set w := g - rdot a g • a with hw
    have ew : c • g - (c * rdot a g) • a = c • w := by rw [hw, smul_sub, mul_smul]
    have hsp : (spacing1 : Num) = fin (1 / 4503599627370496) := by norm_num [spacing1]
    unfold subspace2dOrth
    simp only [normalize_ofV nv, dot_ofV, rdot_smul, ← ha, e1, vsub_ofV, ew, norm_ofV, un_norm hc, normalize_ofV, ← hw]
    have hn' : (c * rnorm w)⁻¹ • c • w = (rnorm w)⁻¹ • w := by
      rw [smul_smul, mul_inv, mul_assoc, mul_comm _ c, ← mul_assoc, inv_mul_cancel₀ hc.ne', one_mul]
    rw [hn', hsp, fin_lt, fin_lt, decide_eq_decide.mpr hT]
  have hinj : Function.Injective (List.map (ofV : (Fin n → ℝ) → Vec Num n)) := List.map_injective_iff.mpr fun _ _ h => ofV_inj.mp h
  have hu0 : (rnorm nv)⁻¹ • nv ≠ 0 := smul_ne_zero (inv_ne_zero (rnorm_pos hnv0).ne') hnv0
  unfold step2d
  rw [h1, h2, horth]
  by_cases hn1 : n = 1
  · simp only [if_pos hn1]
    exact un_calc_one hc hP hP' hb hb' hS hD O O' _ _ rfl rfl rfl rfl rfl rfl nv hnv0 rfl rfl
  · simp only [if_neg hn1]
    rw [norm_ofV, hP.delta, hP'.delta]
    by_cases hlt : lt (fin (rnorm nv)) (fin D) = true
    · simp only [if_pos hlt]
      exact un_calc_one hc hP hP' hb hb' hS hD O O' _ _ rfl rfl rfl rfl rfl rfl _ hu0 (by show [normalize (ofV nv)] = _; rw [normalize_ofV]) (by show [normalize (ofV nv)] = _; rw [normalize_ofV])
    · simp only [if_neg hlt]
      rcases orth2d_span nv g hnv0 _ rfl with ⟨h, -⟩ | ⟨b, h, hb1, hb2, -⟩
      · exact un_calc_one hc hP hP' hb hb' hS hD O O' _ _ rfl rfl rfl rfl rfl rfl _ hu0 h h
      · have hu1 : rnorm ((rnorm nv)⁻¹ • nv) = 1 := rnorm_normalized hnv0
        exact un_calc_many hc hP hP' hb hb' hS hpd hD O O' hX hX' _ _ rfl rfl rfl rfl rfl rfl _ _ h h (by rw [← rnorm_sq, hu1]; norm_num) hb2 (by rw [← rnorm_sq, hb1]; norm_num)

end

/-- the 2D solver outside of the Newton radius, when the gradient is dropped from the subspace -/
theorem two_drop {P : Prob Num n} {x g : Fin n → ℝ} {B : Fin n → Fin n → ℝ} {D th : ℝ} (hP : RealProb P x 1 g B D th) (hb : NoBounds P.lb P.ub) (hn : 1 < n) (hS : Sym B) (hpd : PD B) (hD : 0 < D)
    (O : Oracles Num) (hX : ExactRoutines O) (nv : Fin n → ℝ) (hnv : rmv B nv = -g) (hnv0 : nv ≠ 0) (hl : D ≤ rnorm nv)
    (hT : rnorm (g - rdot ((rnorm nv)⁻¹ • nv) g • (rnorm nv)⁻¹ • nv) ≤ 1 / 4503599627370496) :
    ∃ r, step2d O P = .ok r ∧ ∃ t : ℝ, Proposes1 r x g B (t • nv) ∧ rnorm (t • nv) ≤ D := by
  have horth : subspace2dOrth (ofV nv) (ofV g) = [ofV ((rnorm nv)⁻¹ • nv)] := by
    have e1 : ∀ (a : Fin n → ℝ) (t : ℝ), (fun i => ofV a i * fin t) = ofV (t • a) := by
      intro a t; funext i; simp [mul_comm]
    have hsp : (spacing1 : Num) = fin (1 / 4503599627370496) := by norm_num [spacing1]
    unfold subspace2dOrth
    simp only [normalize_ofV nv, dot_ofV, e1, vsub_ofV, norm_ofV, hsp, fin_lt, decide_eq_true_eq, if_neg (not_lt.mpr hT)]
  unfold step2d
  rw [subspace2d_pd (by omega) O P x g nv B th hX hP hS hpd hnv, if_neg (by omega), norm_ofV, hP.delta, fin_lt, decide_eq_false (not_lt.mpr hl), horth]
  simp only [Bool.false_eq_true, if_false]
  obtain ⟨r, h1, t, h2, h3, -⟩ := calc_one hP hb hS hD O ({ Step.init P .twoD [ofV ((rnorm nv)⁻¹ • nv)] with posdef := some true, newton := some false } : Step Num n) rfl rfl rfl ((rnorm nv)⁻¹ • nv) rfl
  refine ⟨r, h1, t * (rnorm nv)⁻¹, ?_, ?_⟩
  · rw [mul_smul]; exact h2
  · rw [mul_smul]; exact h3

end Fides
