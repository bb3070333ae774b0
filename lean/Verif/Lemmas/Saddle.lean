import Verif.Lemmas.Quadratic
import Verif.Lemmas.Stall

/-! Helper lemmas: proposals of the solvers at points with zero gradient and negative curvature. -/

namespace Fides
open Num Spec
variable {n : ℕ}

/-- the step proposed at a saddle: as long as the radius, with at least the decrease of the direction of most negative curvature -/
structure SaddleStep (x : Fin n → ℝ) (B : Fin n → Fin n → ℝ) (lam D : ℝ) (st : Step Num n) (p : Fin n → ℝ) : Prop where
  scaled : vadd st.ss st.ss0 = ofV p
  trial : vadd (vadd (ofV x) st.s) st.s0 = ofV (x + p)
  model : st.qpval = fin (quad B 0 p)
  length : rnorm p = D
  decrease : quad B 0 p ≤ lam / 2 * D ^ 2

theorem quad_null (B : Fin n → Fin n → ℝ) (p : Fin n → ℝ) : quad B 0 p = rdot p (rmv B p) / 2 := by
  rw [quad_def, zero_rdot, zero_add]

/-- below the least curvature on the ball only the boundary -/
theorem saddle_length {B : Fin n → Fin n → ℝ} {lam D : ℝ} (hlam : lam < 0) (hD : 0 ≤ D) (hlow : ∀ v, lam * rdot v v ≤ rdot v (rmv B v)) (p : Fin n → ℝ)
    (hp : rnorm p ≤ D) (hq : quad B 0 p ≤ lam / 2 * D ^ 2) : rnorm p = D := by
  rw [quad_null] at hq
  have h1 := hlow p
  rw [← rnorm_sq] at h1
  have h0 := rnorm_nonneg p
  have h2 : lam * (rnorm p * rnorm p) ≤ lam * (D * D) := by nlinarith
  have h3 : D * D ≤ rnorm p * rnorm p := by
    by_contra hcon
    push Not at hcon
    have := mul_lt_mul_of_neg_left hcon hlam
    linarith
  nlinarith

theorem solveNd_null (O : Oracles Num) (hX : ExactRoutines O) {k : ℕ} (hk : 0 < k) {B : Fin k → Fin k → ℝ} (hB : Sym B) (c0 : Fin k → ℝ) (hc : rdot c0 (rmv B c0) < 0)
    {D : ℝ} (hD : 0 < D) : ∃ r ty, solveNd O.sub (ofM B) (ofV 0) (fin D) = .ok (ofV r, ty) ∧ MinOverBall B 0 D r ∧ rnorm r = D := by
  obtain ⟨vals, U, he, hE⟩ := hX.eig B hB
  obtain ⟨j, hj, hmin⟩ := argminIdx_fin vals hk
  have hlow : ∀ v, vals j * rdot v v ≤ rdot v (rmv B v) := fun v => by
    have := eig_psd hE (lam := -vals j) (fun i => by have := hmin i; linarith) v
    linarith
  have hvj : vals j < 0 := by
    by_contra hcon
    push Not at hcon
    have := hlow c0
    have := mul_nonneg hcon (rdot_self_nonneg c0)
    linarith
  have hw : (fun i => -(dot (fun l => ofM U l i) (ofV (0 : Fin k → ℝ)))) = ofV (0 : Fin k → ℝ) := by
    funext i
    have := dot_ofV (fun l => U l i) (0 : Fin k → ℝ)
    have e : dot (fun l => ofM U l i) (ofV (0 : Fin k → ℝ)) = fin 0 := by rw [← rdot_zero (fun l => U l i)]; exact this
    rw [e]; simp
  have hz : ∀ lam, slamC lam (0 : Fin k → ℝ) vals = 0 := by
    intro lam; funext i; simp [slamC]
  rw [solveNd, if_neg (by simpa using hD.ne'), he]
  simp only [hj, hw, lit_def, Rat.cast_zero]
  have hp' : lt (fin 0) (ofV vals j) = false := by
    rw [ofV_apply, fin_lt]; simpa using hvj.le
  rw [hp', Bool.false_and]
  simp only [Bool.false_eq_true, if_false]
  have hs : lt (secular (-ofV vals j) (ofV 0) (ofV vals) (ofM U) (fin D)) (fin 0) = false := by
    rw [ofV_apply, fin_neg, secular_fin _ _ _ _ _ j hmin hD.ne', if_neg (lt_irrefl _), hz, rmv_zero, rnorm_eq_zero.mpr rfl, if_neg (lt_irrefl _)]
    rfl
  rw [hs]
  simp only [Bool.false_eq_true, if_false]
  obtain ⟨c, sg, h1, h2, h3, h4⟩ := hardCase_fin (0 : Fin k → ℝ) vals U j D hE.1
  have hc0 : c = 0 := by
    rw [h2]
    have : (fun i => if vals i = vals j then (0 : ℝ) else (0 : Fin k → ℝ) i) = 0 := by funext i; simp
    rw [this, hz]
  have hsg : sg = D := by
    rw [h3, hc0, rdot_zero, sub_zero, max_eq_left (by positivity), Real.sqrt_mul_self hD.le]
  rw [h1, hc0, rmv_zero, zero_add, hsg]
  have hu : rdot (fun l => U l j) (fun l => U l j) = 1 := by rw [hE.1 j j, if_pos rfl]
  have hnu : rnorm (fun l => U l j) = 1 := by rw [rnorm, hu, Real.sqrt_one]
  have hlen : rnorm (D • fun l => U l j) = D := by rw [rnorm_smul, hnu, abs_of_pos hD, mul_one]
  refine ⟨_, _, rfl, ?_, hlen⟩
  intro p hp
  rw [quad_smul, zero_rdot, quad_null, hE.2 j, rdot_smul, hu]
  have h5 := hlow p
  rw [← rnorm_sq] at h5
  have h6 : rnorm p * rnorm p ≤ D * D := by have := rnorm_nonneg p; nlinarith
  nlinarith

section
variable {P : Prob Num n} {x : Fin n → ℝ} {B : Fin n → Fin n → ℝ} {D th lam : ℝ}

theorem calculate_saddle_one (hP : RealProb P x 1 0 B D th) (hb : NoBounds P.lb P.ub)
    (hS : Sym B) (hD : 0 < D) (O : Oracles Num) (st : Step Num n) (hs0 : st.s0 = vzero) (hss0 : st.ss0 = vzero) (hx : st.x = P.x)
    (v : Fin n → ℝ) (hv : rdot v v = 1) (hvl : rdot v (rmv B v) = lam) (hlam : lam < 0) (hlow : ∀ w, lam * rdot w w ≤ rdot w (rmv B w))
    (u : Fin n → ℝ) (hcols : st.subspace = [ofV u]) (c0 : ℝ) (hn : v = c0 • u) :
    ∃ st', st.calculate O.sub P = .ok st' ∧ ∃ p, SaddleStep x B lam D st' p := by
  obtain ⟨t, ht, hin, hbest⟩ := C20_solve1d hS 0 u 0 D hD.le (by rw [rnorm_eq_zero.mpr rfl]; exact hD.le) (Or.inl (by rw [rnorm_eq_zero.mpr rfl]; exact hD))
  simp only [zero_add] at hin hbest
  have hcs : st.computeStep O.sub P = .ok { st with sc := [fin t], ss := ofV (t • u), s := sdot P.scaling (ofV (t • u)) } := by
    unfold Step.computeStep
    rw [hcols]
    simp only [hP.shess, hP.sg, hP.delta, hss0, vzero_ofV, ht, subDot_one]
  obtain ⟨st', h1, h2, h3, h4⟩ := calculate_of_ss hP hb O.sub st _ hs0 hss0 hx (t • u) hcs rfl
  have hnv : rnorm (D • v) = D := by rw [rnorm_smul, rnorm, hv, Real.sqrt_one, abs_of_pos hD, mul_one]
  have hdec : quad B 0 (t • u) ≤ lam / 2 * D ^ 2 := by
    have e : D • v = (D * c0) • u := by rw [hn, smul_smul]
    have h5 := hbest (D * c0) (by rw [← e]; exact hnv.le)
    rw [← e, quad_smul B 0 v, zero_rdot, hvl] at h5
    linarith [h5, show D * (0 + D * (lam / 2)) = lam / 2 * D ^ 2 by ring]
  exact ⟨st', h1, t • u, h2, h3, h4, saddle_length hlam hD.le hlow _ hin hdec, hdec⟩

theorem calculate_saddle_many (hP : RealProb P x 1 0 B D th) (hb : NoBounds P.lb P.ub)
    (hS : Sym B) (hD : 0 < D) (O : Oracles Num) (hX : ExactRoutines O) (st : Step Num n) (hs0 : st.s0 = vzero) (hss0 : st.ss0 = vzero) (hx : st.x = P.x)
    (v : Fin n → ℝ) (hv : rdot v v = 1) (hvl : rdot v (rmv B v) = lam) (hlam : lam < 0) (hlow : ∀ w, lam * rdot w w ≤ rdot w (rmv B w))
    (cs : List (Vec Num n)) (hcols : st.subspace = cs) (C : Fin cs.length → Fin n → ℝ)
    (hC : ∀ a, cs.get a = ofV (C a)) (c0 : Fin cs.length → ℝ) (hc0 : v = colsum C c0) (h2l : 2 ≤ cs.length)
    (hor' : ∀ a b, rdot (C a) (C b) = if a = b then 1 else 0) :
    ∃ st', st.calculate O.sub P = .ok st' ∧ ∃ p, SaddleStep x B lam D st' p := by
  have hnorm := colsum_norm C hor'
  have hM : chess (ofM B) cs = ofM (reduced B C) := by
    funext a b
    simp only [chess, hC, mulVec_ofM, dot_ofV, ofM_apply, reduced]
  have hz : (fun a => rdot (C a) (0 : Fin n → ℝ)) = 0 := by funext a; rw [rdot_zero]; rfl
  have hg : cg (ofV 0) cs = ofV 0 := by
    rw [← hz]
    funext a
    simp only [cg, hC, dot_ofV, ofV_apply]
  have hSr : Sym (reduced B C) := by
    intro a b
    simp only [reduced]
    rw [Sym.rdot_rmv hS, rdot_comm]
  obtain ⟨r, ty, hsol, hmin, hlen⟩ := solveNd_null O hX (by omega) hSr c0 (by rw [reduced_form, ← hc0, hvl]; exact hlam) hD
  have hrad : FloatOps.sqrt (pyMax (P.delta * P.delta - norm st.ss0 * norm st.ss0) (Fides.lit 0)) = fin D := by
    rw [hP.delta, hss0, vzero_ofV, norm_ofV, rnorm_eq_zero.mpr rfl, fin_mul, fin_mul, fin_sub, lit_def, pyMax_fin]
    have : max (D * D - 0 * 0) ((0 : ℚ) : ℝ) = D * D := by
      rw [max_eq_left (by push_cast; nlinarith)]; ring
    rw [this, fin_sqrt _ (by positivity), Real.sqrt_mul_self hD.le]
  have hcomp : st.computeStep O.sub P = .ok { st with sc := List.ofFn (ofV r), ss := ofV (colsum C r), s := sdot P.scaling (ofV (colsum C r)) } := by
    rw [computeStep_many O.sub P st cs h2l hcols, hrad, hP.shess, hP.sg, hM, hg, hsol]
    simp only [subDot_colsum cs C hC]
  obtain ⟨st', h1, h2, h3, h4⟩ := calculate_of_ss hP hb O.sub st _ hs0 hss0 hx (colsum C r) hcomp rfl
  have hdec : quad B 0 (colsum C r) ≤ lam / 2 * D ^ 2 := by
    have hn0 : rnorm c0 = 1 := by rw [← hnorm, ← hc0, rnorm, hv, Real.sqrt_one]
    have h5 := hmin (D • c0) (by rw [rnorm_smul, hn0, abs_of_pos hD, mul_one])
    have h6 := reduced_quad B 0 C r
    have h7 := reduced_quad B 0 C c0
    rw [hz] at h6 h7
    rw [h6, quad_smul, zero_rdot, reduced_form, ← hc0, hvl] at h5
    linarith [h5, show D * (0 + D * (lam / 2)) = lam / 2 * D ^ 2 by ring]
  exact ⟨st', h1, colsum C r, h2, h3, h4, by rw [hnorm]; exact hlen, hdec⟩

/-- the test for positive definiteness rejects matrices with negative curvature -/
theorem exact_not_posdef (vals : Fin n → ℝ) (hn : 0 < n) (j : Fin n) (hmin : ∀ k, vals j ≤ vals k) (hneg : vals j < 0) (h : ∀ i, |vals i| / 4503599627370496 ≤ -vals j) :
    lt (-spacing1 * (List.ofFn (ofV fun i => |vals i|)).foldl npMax2 (Fides.lit 0)) (vmin (ofV vals)) = false := by
  rw [vmin_eq_of_min vals j hmin]
  have e : List.ofFn (ofV fun i => |vals i|) = (List.ofFn fun i => |vals i|).map fin := by rw [List.map_ofFn]; rfl
  obtain ⟨r, h2, h3⟩ := foldl_npMax_le (List.ofFn fun i => |vals i|) 0 (-vals j * 4503599627370496) (by linarith) (by
    intro b hb
    obtain ⟨i, rfl⟩ := List.mem_ofFn.mp hb
    have := h i
    rw [div_le_iff₀ (by norm_num)] at this
    exact this)
  rw [e, lit_def, Rat.cast_zero, h2]
  have : (spacing1 : Num) = fin (1 / 4503599627370496) := by norm_num [spacing1]
  rw [this, fin_neg, fin_mul, fin_lt]
  simp only [decide_eq_false_iff_not, not_lt]
  linarith
where
  foldl_npMax_le (l : List ℝ) (a c : ℝ) (ha : a ≤ c) (hl : ∀ b ∈ l, b ≤ c) : ∃ r : ℝ, (l.map fin).foldl npMax2 (fin a) = fin r ∧ r ≤ c := by
    induction l generalizing a with
    | nil => exact ⟨a, rfl, ha⟩
    | cons b l ih =>
      simp only [List.map_cons, List.foldl_cons]
      have : npMax2 (fin a) (fin b) = fin (max a b) := by simp [npMax2_fin]
      rw [this]
      exact ih _ (max_le ha (hl b (by simp))) fun b hb => hl b (by simp [hb])

theorem two_saddle (hP : RealProb P x 1 0 B D th) (hb : NoBounds P.lb P.ub) (hn : 1 < n) (hS : Sym B) (hD : 0 < D) (O : Oracles Num) (hX : ExactRoutines O)
    (c : Fin n → ℝ) (hc : rdot c c = 1) {mu M : ℝ} (hmu : 0 < mu) (hcn : rdot c (rmv B c) ≤ -mu) (hM : ∀ w, |rdot w (rmv B w)| ≤ M * rdot w w) (hMmu : M / 4503599627370496 ≤ mu) :
    ∃ st', step2d O P = .ok st' ∧ ∃ p, SaddleStep x B (-mu) D st' p := by
  obtain ⟨z, hz, -, -⟩ := hX.lstsq B 0 hS
  obtain ⟨vals, U, he, hE⟩ := hX.npEig B hS
  obtain ⟨j, hj, hmin⟩ := argminIdx_fin vals (by omega)
  have hlow : ∀ v, vals j * rdot v v ≤ rdot v (rmv B v) := fun v => by
    have := eig_psd hE (lam := -vals j) (fun i => by have := hmin i; linarith) v
    linarith
  have hvj : vals j ≤ -mu := by
    have := hlow c
    rw [hc] at this; linarith
  have hunit : ∀ i, rdot (fun l => U l i) (fun l => U l i) = 1 := fun i => by rw [hE.1 i i, if_pos rfl]
  have hval : ∀ i, rdot (fun l => U l i) (rmv B fun l => U l i) = vals i := fun i => by rw [hE.2 i, rdot_smul, hunit, mul_one]
  have hpdt := exact_not_posdef vals (by omega) j hmin (by linarith) fun i => by
    have h1 := hM fun l => U l i
    rw [hval, hunit, mul_one] at h1
    have : |vals i| / 4503599627370496 ≤ M / 4503599627370496 := by gcongr
    linarith
  have hnu : rnorm (fun l => U l j) = 1 := by rw [rnorm, hunit, Real.sqrt_one]
  have hu0 : (rnorm (fun l => U l j))⁻¹ • (fun l => U l j) = fun l => U l j := by rw [hnu, inv_one, one_smul]
  have weaken : ∀ st', (∃ p, SaddleStep x B (vals j) D st' p) → ∃ p, SaddleStep x B (-mu) D st' p := by
    rintro st' ⟨p, h⟩
    refine ⟨p, h.scaled, h.trial, h.model, h.length, h.decrease.trans ?_⟩
    have := sq_nonneg D
    nlinarith
  suffices hmain : ∃ st', step2d O P = .ok st' ∧ ∃ p, SaddleStep x B (vals j) D st' p by
    obtain ⟨st', h1, h2⟩ := hmain
    exact ⟨st', h1, weaken st' h2⟩
  unfold step2d
  unfold subspace2d
  rw [hP.shess, hP.sg, hz, he]
  simp only
  rw [if_neg (by omega), if_neg (by rw [hpdt]; simp), hj]
  simp only
  have hsg : sdot P.scaling (fun i => fsign (ofV (0 : Fin n → ℝ) i) + (if feq (ofV (0 : Fin n → ℝ) i) (Fides.lit 0) then Fides.lit 1 else Fides.lit 0)) = ofV fun _ => 1 := by
    rw [hP.scaling]
    funext i
    have e : (fsign (ofV (0 : Fin n → ℝ) i) + (if feq (ofV (0 : Fin n → ℝ) i) (Fides.lit 0 : Num) then (Fides.lit 1 : Num) else Fides.lit 0)) = fin 1 := by
      simp [fsign]
    rw [sdot_fin 1 _ i 1 e]
    simp
  rw [hsg]
  have hcol : (fun i => ofM U i j) = ofV fun i => U i j := rfl
  rw [hcol]
  rcases orth2d (fun i => U i j) (fun _ => 1) _ rfl with h | ⟨b, h, hb1, hb2⟩
  · rw [hu0] at h
    exact calculate_saddle_one hP hb hS hD O _ rfl rfl rfl (fun i => U i j) (hunit j) (hval j) (by linarith) hlow _ h 1 (one_smul _ _).symm
  · rw [hu0] at h hb2
    refine calculate_saddle_many hP hb hS hD O hX _ rfl rfl rfl (fun i => U i j) (hunit j) (hval j) (by linarith) hlow [ofV fun i => U i j, ofV b] h
      (fun a => if a = 0 then (fun i => U i j) else b) ?_ (fun a => if a = 0 then 1 else 0) ?_ (by simp) ?_
    · intro a
      match a with
      | ⟨0, _⟩ => rfl
      | ⟨1, _⟩ => rfl
    · rw [colsum]
      show (fun i => U i j) = ∑ a : Fin 2, _
      rw [Fin.sum_univ_two]
      simp only [Fin.isValue, ↓reduceIte, zero_smul, one_ne_zero, add_zero, one_smul]
    · have hbb : rdot b b = 1 := by rw [← rnorm_sq, hb1]; norm_num
      have key : ∀ a c : Fin 2, rdot (if a = 0 then (fun i => U i j) else b) (if c = 0 then (fun i => U i j) else b) = if a = c then 1 else 0 := by
        intro a c
        match a, c with
        | 0, 0 => simpa using hunit j
        | 0, 1 => simpa using hb2
        | 1, 0 => rw [rdot_comm]; simpa using hb2
        | 1, 1 => simpa using hbb
      exact key

theorem full_saddle (hP : RealProb P x 1 0 B D th) (hb : NoBounds P.lb P.ub) (hn : 0 < n) (hS : Sym B) (hD : 0 < D) (O : Oracles Num) (hX : ExactRoutines O)
    (c : Fin n → ℝ) (hc : rdot c c = 1) {mu : ℝ} (hmu : 0 < mu) (hcn : rdot c (rmv B c) ≤ -mu) :
    ∃ st', stepFull O P = .ok st' ∧ ∃ p, SaddleStep x B (-mu) D st' p := by
  obtain ⟨vals, U, hE⟩ := exists_isEig B hS
  obtain ⟨j, -, hmin⟩ := argminIdx_fin vals hn
  have hlow : ∀ v, vals j * rdot v v ≤ rdot v (rmv B v) := fun v => by
    have := eig_psd hE (lam := -vals j) (fun i => by have := hmin i; linarith) v
    linarith
  have hvj : vals j ≤ -mu := by
    have := hlow c
    rw [hc] at this; linarith
  have hunit : ∀ i, rdot (fun l => U l i) (fun l => U l i) = 1 := fun i => by rw [hE.1 i i, if_pos rfl]
  have hval : ∀ i, rdot (fun l => U l i) (rmv B fun l => U l i) = vals i := fun i => by rw [hE.2 i, rdot_smul, hunit, mul_one]
  set v : Fin n → ℝ := fun l => U l j with hv
  suffices hmain : ∃ st', stepFull O P = .ok st' ∧ ∃ p, SaddleStep x B (vals j) D st' p by
    obtain ⟨st', h1, p, h⟩ := hmain
    refine ⟨st', h1, p, h.scaled, h.trial, h.model, h.length, h.decrease.trans ?_⟩
    have := sq_nonneg D
    nlinarith
  have hcols : (List.ofFn fun j : Fin n => fun i : Fin n => (meye : Mat Num n n) i j) =
      List.ofFn fun j : Fin n => ofV fun i : Fin n => if i = j then (1 : ℝ) else 0 := by
    congr 1
    funext j i
    rw [meye_ofM]; rfl
  unfold stepFull
  by_cases h1 : n = 1
  · subst h1
    refine calculate_saddle_one hP hb hS hD O _ rfl rfl rfl v (hunit j) (hval j) (by linarith) hlow (fun _ => 1) ?_ (v 0) ?_
    · show (List.ofFn fun j : Fin 1 => fun i : Fin 1 => (meye : Mat Num 1 1) i j) = _
      rw [hcols]
      simp only [List.ofFn_succ, List.ofFn_zero]
      congr 2
      funext i; rw [if_pos (Subsingleton.elim _ _)]
    · funext i; rw [Subsingleton.elim i 0]; simp
  · refine calculate_saddle_many hP hb hS hD O hX _ rfl rfl rfl v (hunit j) (hval j) (by linarith) hlow _ hcols
      (fun a => fun i => if i = a.cast (by simp) then (1 : ℝ) else 0) ?_ (fun a => v (a.cast (by simp))) ?_ (by simp; omega) ?_
    · intro a
      simp [List.get_eq_getElem]
      rfl
    · have hl : (List.ofFn fun j : Fin n => (ofV fun i : Fin n => if i = j then (1 : ℝ) else 0 : Vec Num n)).length = n := by simp
      funext i
      rw [colsum, Finset.sum_apply]
      rw [Finset.sum_eq_single (i.cast hl.symm)]
      · simp
      · intro b _ hb'
        have : i ≠ b.cast hl := by
          rintro rfl; exact hb' (by simp)
        simp [this]
      · intro h; exact absurd (Finset.mem_univ _) h
    · intro a b
      have : ∀ j k : Fin n, rdot (fun i : Fin n => if i = j then (1 : ℝ) else 0) (fun i => if i = k then (1 : ℝ) else 0) = if j = k then 1 else 0 := by
        intro j k
        simp [rdot, eq_comm]
      rw [this]
      congr 1
      rw [eq_iff_iff]
      exact (Fin.cast_injective _).eq_iff

end

/-- the two-dimensional solver in one dimension, at a stationary point -/
theorem two_null {P : Prob Num 1} {x : Fin 1 → ℝ} {B : Fin 1 → Fin 1 → ℝ} {D th : ℝ} (hP : RealProb P x 1 0 B D th) (hb : NoBounds P.lb P.ub) (hD : 0 < D)
    (O : Oracles Num) (hX : ExactRoutines O) (hB : B 0 0 ≠ 0) :
    ∃ st', step2d O P = .ok st' ∧ vadd st'.ss st'.ss0 = ofV 0 ∧ vadd (vadd (ofV x) st'.s) st'.s0 = ofV x ∧ st'.qpval = fin 0 := by
  have hS : Sym B := fun i j => by rw [Subsingleton.elim i j]
  obtain ⟨z, hz, -, -⟩ := hX.lstsq B 0 hS
  obtain ⟨vals, U, he, hEg⟩ := hX.npEig B hS
  unfold step2d
  unfold subspace2d
  rw [hP.shess, hP.sg, hz, he]
  simp only [if_true]
  have hcol : (fun i => -ofV (0 : Fin 1 → ℝ) i / ofM B i i) = ofV 0 := by
    funext i
    rw [Subsingleton.elim i 0]
    simp only [ofV_apply, ofM_apply, fin_neg, Pi.zero_apply]
    rw [fin_div _ _ hB]; simp
  simp only [hcol]
  obtain ⟨t, ht, -⟩ := C20_solve1d hS (0 : Fin 1 → ℝ) 0 0 D hD.le (by rw [rnorm_eq_zero.mpr rfl]; exact hD.le)
    (Or.inl (by rw [rnorm_eq_zero.mpr rfl]; exact hD))
  set st : Step Num 1 := { Step.init P .twoD [ofV (0 : Fin 1 → ℝ)] with posdef := _, newton := none } with hst
  have hcs : st.computeStep O.sub P = .ok { st with sc := [fin t], ss := ofV 0, s := sdot P.scaling (ofV 0) } := by
    unfold Step.computeStep
    rw [show st.subspace = [ofV 0] from rfl]
    simp only [hP.shess, hP.sg, hP.delta, show st.ss0 = vzero from rfl, vzero_ofV, ht, subDot_one, smul_zero]
  obtain ⟨st', h1, h2, h3, h4⟩ := calculate_of_ss hP hb O.sub st _ rfl rfl rfl 0 hcs rfl
  exact ⟨st', h1, h2, by rw [h3, add_zero], by rw [h4, quad_zero]⟩

end Fides
