import Verif.Props.Ball
import Verif.Lemmas.Chains
import Verif.Props.Predicted

/-!
# C49, C26: the 2D basis is orthonormal; proposals stay in the trust region
-/

set_option linter.unusedSectionVars false

namespace Fides
open Num Spec
variable {n : ℕ}

/-! ## C49 -/

theorem orth2d (u v : Fin n → ℝ) (cols : List (Vec Num n)) (h : subspace2dOrth (ofV u) (ofV v) = cols) :
    cols = [ofV ((rnorm u)⁻¹ • u)] ∨
      ∃ b, cols = [ofV ((rnorm u)⁻¹ • u), ofV b] ∧ rnorm b = 1 ∧ rdot ((rnorm u)⁻¹ • u) b = 0 := by
  subst h
  rw [subspace2dOrth]
  simp only [normalize_ofV, dot_ofV]
  set a := (rnorm u)⁻¹ • u with ha
  have : (fun i => ofV a i * fin (rdot a v)) = ofV (rdot a v • a) := by
    funext i; simp [mul_comm]
  rw [this, vsub_ofV, normalize_ofV, norm_ofV]
  set w := v - rdot a v • a with hw
  split
  · rename_i hlt
    right
    refine ⟨_, rfl, ?_, ?_⟩
    · apply rnorm_normalized
      intro h0
      rw [h0, rnorm_eq_zero.mpr rfl] at hlt
      simp only [spacing1, lit_def, fin_lt, decide_eq_true_eq] at hlt
      norm_num at hlt
    · rw [rdot_smul, hw, rdot_sub, rdot_smul]
      by_cases hu : u = 0
      · have : a = 0 := by rw [ha, hu, smul_zero]
        rw [this]; simp [zero_rdot]
      · have h1 : rdot a a = 1 := by
          rw [← rnorm_sq, ha, rnorm_normalized hu, one_mul]
        rw [h1]; ring
  · left; rfl

/-- what the basis chosen by the 2D solver looks like: orthonormal, except that the first direction may be zero -/
def Basis2D (cols : List (Vec Num n)) : Prop :=
  (∃ a, cols = [ofV a] ∧ (a ≠ 0 → rnorm a = 1)) ∨
    ∃ a b, cols = [ofV a, ofV b] ∧ (a ≠ 0 → rnorm a = 1) ∧ rnorm b = 1 ∧ rdot a b = 0

theorem normalized_or (u : Fin n → ℝ) : (rnorm u)⁻¹ • u ≠ 0 → rnorm ((rnorm u)⁻¹ • u) = 1 := by
  intro h
  apply rnorm_normalized
  rintro rfl
  simp at h

theorem basis2d {P : Prob Num n} {x d sg : Fin n → ℝ} {B : Fin n → Fin n → ℝ} {delta theta : ℝ} (hP : RealProb P x d sg B delta theta)
    (hn : 1 < n) (O : Oracles Num) (hO : FiniteOracles O) (cols : List (Vec Num n)) (pd nw : Option Bool)
    (h : subspace2d O P = .ok (cols, pd, nw)) : Basis2D cols := by
  have horth : ∀ (u v : Fin n → ℝ), subspace2dOrth (ofV u) (ofV v) = cols → Basis2D cols := by
    intro u v h
    rcases orth2d u v cols h with h1 | ⟨b, h1, h2, h3⟩
    · exact Or.inl ⟨_, h1, normalized_or u⟩
    · exact Or.inr ⟨_, b, h1, normalized_or u, h2, h3⟩
  rw [subspace2d, hP.shess, hP.sg] at h
  split at h
  · cases h
  · rename_i newt0 hl
    obtain ⟨nr, rfl⟩ := hO.lstsq _ _ _ hl
    split at h
    · cases h
    · rename_i re ab v he
      obtain ⟨V, rfl⟩ := hO.npEig _ _ _ _ he
      rw [if_neg (by omega)] at h
      split at h
      · simp only at h
        split at h
        · simp only [Except.ok.injEq, Prod.mk.injEq] at h
          rw [vneg_ofV, normalize_ofV] at h
          exact Or.inl ⟨_, h.1.symm, normalized_or _⟩
        · simp only [Except.ok.injEq, Prod.mk.injEq] at h
          rw [vneg_ofV] at h
          exact horth _ _ h.1
      · split at h
        · cases h
        · rename_i j hj
          simp only [Except.ok.injEq, Prod.mk.injEq] at h
          have : ∃ r, sdot P.scaling (fun i => fsign (ofV sg i) + (if feq (ofV sg i) (Fides.lit 0) = true then Fides.lit 1 else Fides.lit 0)) = ofV r := by
            have : ∃ r : Fin n → ℝ, (fun i => fsign (ofV sg i) + (if feq (ofV sg i) (Fides.lit 0) = true then Fides.lit 1 else (Fides.lit 0 : Num))) = ofV r := by
              have : ∀ i, ∃ r : ℝ, fsign (ofV sg i) + (if feq (ofV sg i) (Fides.lit 0) = true then Fides.lit 1 else (Fides.lit 0 : Num)) = fin r := by
                intro i
                have h1 : ∃ r, fsign (ofV sg i) = fin r := by
                  unfold fsign
                  split
                  · exact ⟨_, rfl⟩
                  · split
                    · exact ⟨_, rfl⟩
                    · split <;> exact ⟨_, rfl⟩
                obtain ⟨r, hr⟩ := h1
                rw [hr]
                split <;> exact ⟨_, rfl⟩
              choose r hr using this
              exact ⟨r, funext hr⟩
            obtain ⟨r, hr⟩ := this
            rw [hr, hP.scaling, sdot_finite]; exact ⟨_, rfl⟩
          obtain ⟨r, hr⟩ := this
          rw [hr] at h
          exact horth (fun i => V i j) r h.1

/-- **C49.** On finite data in more than one variable the subspace used by the 2D solver has one or two columns; the second column
is a unit vector orthogonal to the first, and the first is a unit vector unless it is zero.  Hence the length of a step
`t₁ a + t₂ b` is the length of its coefficient vector. -/
theorem C49_basis {I : TRIn Num n} {x d g dv : Fin n → ℝ} {H : Fin n → Fin n → ℝ} {delta theta : ℝ} (hI : RealData I x d g dv H delta theta)
    (hn : 1 < n) (O : Oracles Num) (hO : FiniteOracles O) (cols : List (Vec Num n)) (pd nw : Option Bool)
    (h : subspace2d O I.prob = .ok (cols, pd, nw)) :
    (∃ a, cols = [ofV a] ∧ (a ≠ 0 → rnorm a = 1)) ∨
    ∃ a b, cols = [ofV a, ofV b] ∧ rnorm b = 1 ∧ rdot a b = 0 ∧
      (a ≠ 0 → rnorm a = 1 ∧ ∀ t u : ℝ, rnorm (t • a + u • b) = Real.sqrt (t * t + u * u)) := by
  have hb : Basis2D cols := by
    have hP : RealProb { I.prob with theta := fin 1, lb := fun _ => ninf, ub := fun _ => pinf } x d (fun i => d i * g i)
        (fun i j => d i * H i j * d j + if i = j then |g i| * dv i else 0) delta 1 :=
      ⟨hI.x, hI.scaling, hI.sg, hI.shess, hI.delta, rfl, one_pos, le_rfl, fun i => ⟨rfl, rfl⟩⟩
    exact basis2d hP hn O hO cols pd nw h
  rcases hb with h | ⟨a, b, h1, h2, h3, h4⟩
  · exact Or.inl h
  · refine Or.inr ⟨a, b, h1, h3, h4, fun ha => ⟨h2 ha, fun t u => ?_⟩⟩
    have ha1 : rdot a a = 1 := by rw [← rnorm_sq, h2 ha, one_mul]
    have hb1 : rdot b b = 1 := by rw [← rnorm_sq, h3, one_mul]
    rw [rnorm, add_rdot, rdot_add, rdot_add, smul_rdot, smul_rdot, smul_rdot, smul_rdot, rdot_smul, rdot_smul, rdot_smul, rdot_smul,
      rdot_comm b a, h4, ha1, hb1]
    congr 1; ring

/-! ## C26 -/

theorem rnorm_segment (a b : Fin n → ℝ) (t D : ℝ) (h0 : 0 ≤ t) (h1 : t ≤ 1) (ha : rnorm a ≤ D) (hb : rnorm (a + b) ≤ D) :
    rnorm (a + t • b) ≤ D := by
  have hD : 0 ≤ D := (rnorm_nonneg a).trans ha
  rw [rnorm_le_iff hD] at *
  have e : rdot (a + t • b) (a + t • b) = (1 - t) * rdot a a + t * rdot (a + b) (a + b) - t * (1 - t) * rdot b b := by
    rw [add_rdot, rdot_add, rdot_add, smul_rdot, smul_rdot, rdot_smul, rdot_smul, add_rdot, rdot_add, rdot_add, rdot_comm b a]
    ring
  rw [e]
  have h2 := rdot_self_nonneg b
  have h3 : 0 ≤ t * (1 - t) := mul_nonneg h0 (by linarith)
  nlinarith [mul_le_mul_of_nonneg_left ha (by linarith : (0 : ℝ) ≤ 1 - t), mul_le_mul_of_nonneg_left hb h0, mul_nonneg h3 h2]

theorem finCols_list (cols : List (Vec Num n)) (h : FinCols cols) : ∃ L : List (Fin n → ℝ), cols = L.map ofV := by
  induction cols with
  | nil => exact ⟨[], rfl⟩
  | cons c cols ih =>
    obtain ⟨r, rfl⟩ := h c (by simp)
    obtain ⟨L, rfl⟩ := ih (fun c hc => h c (by simp [hc]))
    exact ⟨r :: L, rfl⟩

theorem chess_sym (B : Fin n → Fin n → ℝ) (hB : Sym B) (L : List (Fin n → ℝ)) :
    ∃ M, chess (ofM B) (L.map ofV) = ofM M ∧ Sym M := by
  refine ⟨fun a b => rdot (L.get (a.cast (by simp))) (rmv B (L.get (b.cast (by simp)))), ?_, ?_⟩
  · funext a b
    have e : ∀ a : Fin (L.map ofV).length, (L.map (ofV (n := n))).get a = ofV (L.get (a.cast (by simp))) := by
      intro a; simp
    simp only [chess, e, mulVec_ofM, dot_ofV, ofM_apply]
  · intro a b
    beta_reduce
    rw [Sym.rdot_rmv hB, rdot_comm]

/-- the step of a subproblem computation stays in the ball, up to `2^-26`: one column, or orthogonal columns orthogonal to the
starting point -/
theorem calculate_radius {P : Prob Num n} {x d sg : Fin n → ℝ} {B : Fin n → Fin n → ℝ} {delta theta : ℝ} (hP : RealProb P x d sg B delta theta)
    (hB : Sym B) (hd : 0 ≤ delta) (O : Oracles Num) (hE : ExactEig O.sub) (hF : FindsRoots O.sub) (st st' : Step Num n)
    (L : List (Fin n → ℝ)) (hL : st.subspace = L.map ofV) (ss0 : Fin n → ℝ) (h0 : st.ss0 = ofV ss0)
    (hcol : L.length ≤ 1 ∨ (OrthList L ∧ ∀ c ∈ L, rdot ss0 c = 0)) (h : st.calculate O.sub P = .ok st') (og : Fin n → ℝ) (hog : st'.ogSs = ofV og) :
    rnorm (ss0 + og) ≤ max (delta + 1 / 67108864) (rnorm ss0) ∧ ∃ ts, og = comb L ts := by
  have hmax : max delta (rnorm ss0) ≤ max (delta + 1 / 67108864) (rnorm ss0) := max_le_max (by linarith) le_rfl
  unfold Step.calculate at h
  split at h
  · cases h
  rename_i st1 hc
  cases h
  have hog' : st1.ss = ofV og := hog
  unfold Step.computeStep at hc
  split at hc
  · rename_i hsub
    cases hc
    have : og = 0 := by
      have hz : (vzero : Vec Num n) = ofV og := hog'
      rw [vzero_ofV, ofV_inj] at hz; exact hz.symm
    rw [this, add_zero]
    refine ⟨le_max_right _ _, [], ?_⟩
    cases L <;> rfl
  · rename_i c hsub
    cases hc
    obtain ⟨u, hu⟩ : ∃ u, L = [u] := by
      rw [hL] at hsub
      have : L.length = 1 := by simpa using congrArg List.length hsub
      exact List.length_eq_one_iff.mp this
    rw [hL, hu] at hsub
    have hcu : c = ofV u := by simpa using hsub.symm
    subst hcu
    have hss : subDot [ofV u] [solve1d P.shess P.sg (ofV u) P.delta st.ss0] = ofV og := hog'
    rw [hP.shess, hP.sg, hP.delta, h0] at hss
    rcases Nat.eq_zero_or_pos n with rfl | hn
    · have : ss0 + og = ss0 := funext fun i => i.elim0
      rw [this]
      exact ⟨le_max_right _ _, [0], funext fun i => i.elim0⟩
    rcases solve1d_noinf hn B sg u ss0 delta with ht | ⟨t, ht⟩
    · exfalso
      rw [ht] at hss
      have := congrFun hss ⟨0, hn⟩
      simp [subDot, sum_cons] at this
    · rw [ht, subDot_one, ofV_inj] at hss
      rw [← hss]
      exact ⟨(solve1d_radius B sg u ss0 delta t hd ht).trans hmax, [t], by rw [hu]; simp [comb]⟩
  · rename_i hne hne1
    have hlen : ¬ L.length ≤ 1 := by
      intro hl
      rcases Nat.le_one_iff_eq_zero_or_eq_one.mp hl with h1 | h1
      · rw [List.length_eq_zero_iff] at h1
        exact hne (by rw [hL, h1]; rfl)
      · obtain ⟨u, hu⟩ := List.length_eq_one_iff.mp h1
        exact hne1 (ofV u) (by rw [hL, hu]; rfl)
    obtain ⟨hor, hperp⟩ := hcol.resolve_left hlen
    simp only at hc
    split at hc
    · cases hc
    rename_i sc ty hnd
    cases hc
    have hss : subDot st.subspace (List.ofFn sc) = ofV og := hog'
    have hrad : FloatOps.sqrt (pyMax (P.delta * P.delta - norm st.ss0 * norm st.ss0) (Fides.lit 0)) =
        fin (Real.sqrt (max (delta * delta - rnorm ss0 * rnorm ss0) 0)) := by
      rw [hP.delta, h0, norm_ofV, fin_mul, fin_mul, fin_sub, lit_def, pyMax_fin, fin_sqrt _ (by push_cast; exact le_max_right _ _)]
      simp
    set rad := Real.sqrt (max (delta * delta - rnorm ss0 * rnorm ss0) 0) with hr
    rw [hrad, hP.shess, hP.sg] at hnd
    clear_value rad
    have hsp : ∃ (m : ℕ) (M : Fin m → Fin m → ℝ) (gg : Fin m → ℝ) (sc' : Vec Num m), Sym M ∧ solveNd O.sub (ofM M) (ofV gg) (fin rad) = .ok (sc', ty) ∧
        List.ofFn sc = List.ofFn sc' := by
      obtain ⟨M, hM, hMs⟩ := chess_sym B hB L
      obtain ⟨gg, hgg⟩ := cg_finite sg (L.map ofV) (by
        intro c hc
        obtain ⟨r, _, rfl⟩ := List.mem_map.mp hc
        exact ⟨r, rfl⟩)
      have key : ∀ (cols : List (Vec Num n)) (sc : Vec Num cols.length), cols = L.map ofV →
          solveNd O.sub (chess (ofM B) cols) (cg (ofV sg) cols) (fin rad) = .ok (sc, ty) →
          ∃ (sc' : Vec Num (L.map (ofV (n := n))).length), solveNd O.sub (ofM M) (ofV gg) (fin rad) = .ok (sc', ty) ∧ List.ofFn sc = List.ofFn sc' := by
        rintro cols sc rfl h
        rw [hM, hgg] at h
        exact ⟨sc, h, rfl⟩
      obtain ⟨sc', h1, h2⟩ := key _ _ hL hnd
      exact ⟨_, M, gg, sc', hMs, h1, h2⟩
    obtain ⟨m, M, gg, sc', hMs, hnd', hsceq⟩ := hsp
    have hrad0 : 0 ≤ rad := by rw [hr]; exact Real.sqrt_nonneg _
    obtain ⟨r, hrr, hrn⟩ := C21_radius_total O.sub (ofM M) gg rad hrad0 (fun v U he => by
      obtain ⟨vals, Ur, h1, h2, h3⟩ := hE M hMs v U he
      exact ⟨vals, Ur, h1, h2, h3.1⟩) hF sc' ty hnd'
    have hsc : List.ofFn sc = (List.ofFn r).map fin := by
      rw [hsceq, hrr, List.map_ofFn]; rfl
    rw [hsc, hL, subDot_comb, ofV_inj] at hss
    refine ⟨?_, _, hss.symm⟩
    -- norms
    have hsum : ((List.ofFn r).map fun t => t * t).sum = rdot r r := by
      rw [List.map_ofFn, List.sum_ofFn]; rfl
    have hle : rdot og og ≤ rdot r r := by
      rw [← hss, ← hsum]; exact comb_le L _ hor
    have hz : rdot ss0 og = 0 := by rw [← hss]; exact rdot_comb_zero ss0 L _ hperp
    have htot : rdot (ss0 + og) (ss0 + og) = rdot ss0 ss0 + rdot og og := by
      rw [add_rdot, rdot_add, rdot_add, rdot_comm og ss0, hz]; ring
    rcases le_total (delta * delta) (rnorm ss0 * rnorm ss0) with hbig | hsmall
    · -- start outside: the radius is zero
      have hr0 : rad = 0 := by rw [hr, max_eq_right (by linarith), Real.sqrt_zero]
      rw [hr0, solveNd, if_pos (by simp)] at hnd'
      cases hnd'
      have hz0 : r = 0 := by
        rw [vzero_ofV, ofV_inj] at hrr; exact hrr.symm
      rw [hz0, rdot_zero] at hle
      have : og = 0 := rdot_self_eq_zero.mp (le_antisymm hle (rdot_self_nonneg _))
      rw [this, add_zero]; exact le_max_right _ _
    · have hr2 : rad * rad = delta * delta - rnorm ss0 * rnorm ss0 := by
        rw [hr, Real.mul_self_sqrt (le_max_right _ _), max_eq_left (by linarith)]
      have hradd : rad ≤ delta := by nlinarith [rnorm_nonneg ss0]
      refine le_trans ?_ (le_max_left _ _)
      have hD : 0 ≤ delta + 1 / 67108864 := by linarith
      rw [rnorm_le_iff hD, htot]
      have h1 : rdot r r ≤ (rad + 1 / 67108864) * (rad + 1 / 67108864) := by
        rw [← rnorm_sq]; exact mul_self_le_mul_self (rnorm_nonneg _) hrn
      rw [rnorm_sq] at hr2
      nlinarith

/-- starting point and full step lie in the ball of radius `D` -/
structure InBall (D : ℝ) (st : Step Num n) : Prop where
  start : ∀ ss0, st.ss0 = ofV ss0 → rnorm ss0 ≤ D
  full : ∀ ss0 og, st.ss0 = ofV ss0 → st.ogSs = ofV og → rnorm (ss0 + og) ≤ D

theorem InBall.taken {D : ℝ} {st : Step Num n} (h : InBall D st) (a : ℝ) (ha0 : 0 ≤ a) (ha1 : a ≤ 1) (ss0 og : Fin n → ℝ) (h0 : st.ss0 = ofV ss0)
    (h1 : st.ogSs = ofV og) : rnorm (ss0 + a • og) ≤ D := rnorm_segment _ _ _ _ ha0 ha1 (h.start _ h0) (h.full _ _ h0 h1)

theorem calculate_frame (O : SubOracles Num) (P : Prob Num n) (st st' : Step Num n) (h : st.calculate O P = .ok st') :
    st'.ss0 = st.ss0 ∧ st'.s0 = st.s0 ∧ st'.subspace = st.subspace := by
  unfold Step.calculate at h
  split at h
  · cases h
  · rename_i st1 hc
    cases h
    obtain ⟨_, h2, h3, h4⟩ := computeStep_frame O P st st1 hc
    exact ⟨h3, h2, h4⟩

section
variable {P : Prob Num n} {x d sg : Fin n → ℝ} {B : Fin n → Fin n → ℝ} {delta theta : ℝ}

theorem calculate_inBall (hP : RealProb P x d sg B delta theta)
    (hB : Sym B) (hd : 0 ≤ delta) (O : Oracles Num) (hE : ExactEig O.sub) (hF : FindsRoots O.sub) (st st' : Step Num n)
    (L : List (Fin n → ℝ)) (hL : st.subspace = L.map ofV) (ss0 : Fin n → ℝ) (h0 : st.ss0 = ofV ss0) (hs0 : rnorm ss0 ≤ delta + 1 / 67108864)
    (hcol : L.length ≤ 1 ∨ (OrthList L ∧ ∀ c ∈ L, rdot ss0 c = 0)) (h : st.calculate O.sub P = .ok st') :
    InBall (delta + 1 / 67108864) st' := by
  have hf := (calculate_frame O.sub P st st' h).1
  refine ⟨fun q hq => ?_, fun q og hq hog => ?_⟩
  · rw [hf, h0, ofV_inj] at hq; rw [← hq]; exact hs0
  · rw [hf, h0, ofV_inj] at hq; subst hq
    have := (calculate_radius hP hB hd O hE hF st st' L hL ss0 h0 hcol h og hog).1
    rwa [max_eq_left hs0] at this

/-- reflection keeps to the ball -/
theorem reflect_inBall (hP : RealProb P x d sg B delta theta) (hn : 1 < n)
    (hB : Sym B) (hd : 0 ≤ delta) (O : Oracles Num) (hO : FiniteOracles O) (hE : ExactEig O.sub) (hF : FindsRoots O.sub) (fuel : ℕ) (dim : SubSpaceDim)
    (cur st : Step Num n) (hc : Cand O fuel P dim cur) (ha : feq cur.alpha (Fides.lit 1) = false)
    (h : stepReflected O P cur = .ok st) (ih : InBall (delta + 1 / 67108864) cur) : InBall (delta + 1 / 67108864) st := by
  have hf := cand_finStep hP hn O hO fuel dim cur hc
  obtain ⟨r, hr0, hm, _⟩ := hf.cut ha
  obtain ⟨ss0, hss0⟩ := hf.ss0
  obtain ⟨_, ogs, hogs⟩ : (∃ r, cur.ogS = ofV r) ∧ ∃ r, cur.ogSs = ofV r := by
    rcases hf.og with h | ⟨h, _⟩
    · exact h
    · rw [h] at ha; simp at ha
  have hp : pyMin cur.minbr (Fides.lit 1) = fin (min r 1) := by
    rw [hm, pyMin]
    simp only [lit_def, Rat.cast_one, fin_lt, decide_eq_true_eq]
    split
    · rename_i h1; rw [min_eq_right h1.le]
    · rename_i h1; rw [min_eq_left (not_lt.mp h1)]
  have hv : (fun i => if cur.iminbr i = true then cur.ogSs i * Fides.lit (-1) else cur.ogSs i) =
      ofV (fun i => if cur.iminbr i = true then ogs i * ((-1 : ℚ) : ℝ) else ogs i) := by
    funext i
    simp only [hogs, ofV_apply, lit_def, fin_mul]
    split <;> rfl
  refine calculate_inBall hP hB hd O hE hF (reflectInit P cur) st
    [(rnorm (fun i => if cur.iminbr i = true then ogs i * ((-1 : ℚ) : ℝ) else ogs i))⁻¹ •
      (fun i => if cur.iminbr i = true then ogs i * ((-1 : ℚ) : ℝ) else ogs i)] ?_ (ss0 + min r 1 • ogs) ?_ ?_ (Or.inl (by simp)) h
  · show [normalize (fun i => if cur.iminbr i = true then cur.ogSs i * Fides.lit (-1) else cur.ogSs i)] = _
    rw [hv, normalize_ofV]; rfl
  · show vadd (vsmul (pyMin cur.minbr (Fides.lit 1)) cur.ogSs) cur.ss0 = _
    rw [hp, hogs, hss0, vsmul_ofV, vadd_ofV, add_comm]
  · exact ih.taken _ (le_min hr0 (by norm_num)) (min_le_right _ _) _ _ hss0 hogs

theorem rnorm_residual (z u : Fin n → ℝ) (hu : rdot u u ≤ 1) : rnorm (z - rdot z u • u) ≤ rnorm z := by
  apply Real.sqrt_le_sqrt
  rw [sub_rdot, rdot_sub, rdot_sub, smul_rdot, smul_rdot, rdot_smul, rdot_smul, rdot_comm u z]
  nlinarith [mul_self_nonneg (rdot z u)]

/-- the exit of the Steihaug loop at the boundary -/
theorem boundary_exit_ball (hP : RealProb P x d sg B delta theta) (hd : 0 ≤ delta) (z e p : Fin n → ℝ) (hz : rnorm z ≤ delta) (t : Num)
    (ht : t = boundarySolution1d P.shess P.sg (ofV e) (ofV z) P.delta * Fides.lit 1) (h : subDot [ofV e] [t] = ofV p) :
    rnorm (z + p) ≤ delta := by
  rcases Nat.eq_zero_or_pos n with rfl | hn
  · have : z + p = z := funext fun i => i.elim0
    rw [this]; exact hz
  have h0 := congrFun h ⟨0, hn⟩
  have hs : ∀ i, ofV e i * t = ofV p i := by
    intro i
    have := congrFun h i
    simp only [subDot, List.zipWith_cons_cons, List.zipWith_nil_left, sum_cons, sum_nil, lit_def, Rat.cast_zero, add_zero_num] at this
    exact this
  obtain ⟨a, b, _, hb, _⟩ := mul_fin_iff _ _ _ (hs ⟨0, hn⟩)
  rw [hb, subDot_one, ofV_inj] at h
  rw [← h]
  by_cases he : e = 0
  · rw [he, smul_zero, add_zero]; exact hz
  rw [hb, hP.shess, hP.sg, hP.delta] at ht
  obtain ⟨a', b', h1, h2, h3⟩ := mul_fin_iff _ _ _ ht.symm
  simp only [lit_def, Rat.cast_one, fin_inj] at h2
  rw [← h2, mul_one] at h3
  rw [← h3] at h1
  have := boundary_radius B sg e z delta _ he h1
  rw [rnorm, this, Real.sqrt_mul_self hd]

/-- the Steihaug loop keeps to the ball -/
theorem steihaugLoop_ball (hP : RealProb P x d sg B delta theta) (hd : 0 ≤ delta) (eps : ℝ) (k : ℕ) (z r e : Fin n → ℝ)
    (he : 0 < eps ∨ rdot e (rmv B e) ≤ 0) (hz : rnorm z ≤ delta) (o : CGOut Num n) (h : steihaugLoop P (fin eps) k (ofV z) (ofV r) (ofV e) = .ok o) :
    ∃ q, o.ss0 = ofV q ∧ rnorm q ≤ delta ∧ ∀ p, o.ss = ofV p → rnorm (q + p) ≤ delta := by
  induction k generalizing z r e with
  | zero => cases h
  | succ k ih =>
    rcases le_or_gt (rdot e (rmv B e)) 0 with hc | hc
    · obtain ⟨t, h1, h2⟩ := cg_exit_curv P B delta eps hP.shess hP.delta k z r e hc
      rw [h1] at h; cases h
      exact ⟨z, rfl, hz, fun p hp => boundary_exit_ball hP hd z e p hz t h2 hp⟩
    have heps := he.resolve_right (not_le.mpr hc)
    rcases le_or_gt delta (rnorm (z + (rdot r r / rdot e (rmv B e)) • e)) with hf | hf
    · obtain ⟨t, h1, h2⟩ := cg_exit_far P B delta eps hP.shess hP.delta k z r e hc hf
      rw [h1] at h; cases h
      exact ⟨z, rfl, hz, fun p hp => boundary_exit_ball hP hd z e p hz t h2 hp⟩
    rcases lt_or_ge (rnorm (r + (rdot r r / rdot e (rmv B e)) • rmv B e)) eps with hr | hr
    · rw [cg_conv P B delta eps hP.shess hP.delta k z r e hc hf hr] at h
      cases h
      refine ⟨_, rfl, (rnorm_residual _ _ ?_).trans hf.le, fun p hp => ?_⟩
      · by_cases h0 : e = 0
        · rw [h0, smul_zero, rdot_zero]; norm_num
        · rw [← rnorm_sq, rnorm_normalized h0]; norm_num
      · rw [ofV_inj] at hp
        rw [← hp, sub_add_cancel]; exact hf.le
    · have hr0 : r ≠ 0 := by
        rintro rfl
        rw [rdot_zero, zero_div, zero_smul, add_zero, rnorm_eq_zero.mpr rfl] at hr
        linarith
      rw [cg_step P B delta eps hP.shess hP.delta k z r e hr0 hc hf hr] at h
      exact ih _ _ _ (Or.inl heps) hf.le h

theorem steihaug_inBall (hP : RealProb P x d sg B delta theta) (hd : 0 ≤ delta) (fuel : ℕ) (st : Step Num n)
    (h : stepSteihaug fuel P = .ok st) : InBall delta st := by
  obtain ⟨c, hc0, hc1, hc2, hc3⟩ := steihaug_eps sg
  simp only [stepSteihaug] at h
  split at h
  · cases h
  · split at h
    · cases h
    · rename_i o ho
      cases h
      rw [hP.sg, hc3, vzero_ofV, vneg_ofV] at ho
      have hz : rnorm (0 : Fin n → ℝ) ≤ delta := by rw [rnorm_eq_zero.mpr rfl]; exact hd
      obtain ⟨q, h1, h2, h3⟩ := steihaugLoop_ball hP hd (c * rnorm sg) fuel 0 sg (-sg) (by
        by_cases hz : sg = 0
        · right; rw [hz, neg_zero, zero_rdot]
        · left; exact mul_pos (hc2 (rnorm_pos hz)) (rnorm_pos hz)) hz o ho
      refine ⟨fun ss0 h0 => ?_, fun ss0 og h0 hog => ?_⟩
      · have h0' : o.ss0 = ofV ss0 := h0
        rw [h1, ofV_inj] at h0'; rw [← h0']; exact h2
      · have h0' : o.ss0 = ofV ss0 := h0
        have hog' : o.ss = ofV og := hog
        rw [h1, ofV_inj] at h0'; rw [← h0']; exact h3 og hog'

/-- columns with pairwise disjoint supports, of length at most one -/
def DisjList (L : List (Fin n → ℝ)) : Prop := L.Pairwise (fun a b => ∀ i, a i * b i = 0) ∧ ∀ c ∈ L, rdot c c ≤ 1

theorem DisjList.orth {L : List (Fin n → ℝ)} (h : DisjList L) : OrthList L :=
  ⟨h.1.imp fun hab => Finset.sum_eq_zero fun i _ => hab i, h.2⟩

open Classical in
/-- the reduced subspace over the reals -/
noncomputable def reduceR (im : Fin n → Bool) (L : List (Fin n → ℝ)) : List (Fin n → ℝ) :=
  ((L.map fun c i => if im i = true then 0 else c i).filter fun c => decide (c ≠ 0)).map fun c => (rnorm c)⁻¹ • c

theorem reduce_real (im : Fin n → Bool) (L : List (Fin n → ℝ)) : reduceSubspace im (L.map ofV) = (reduceR im L).map ofV := by
  unfold reduceSubspace reduceR
  simp only
  induction L with
  | nil => rfl
  | cons c L ih =>
    have hc : (fun (i : Fin n) => if im i = true then (Fides.lit 0 : Num) else ofV c i) = ofV (fun i => if im i = true then 0 else c i) := by
      funext i; simp only [ofV_apply]; split <;> simp
    simp only [List.map_cons, List.filter_cons, hc]
    have hp : decide (∃ i, feq (ofV (fun i => if im i = true then 0 else c i) i) (Fides.lit 0 : Num) = false) =
        decide ((fun i => if im i = true then 0 else c i) ≠ (0 : Fin n → ℝ)) := by
      rw [decide_eq_decide]
      constructor
      · rintro ⟨i, hi⟩ h0
        rw [h0] at hi; simp at hi
      · intro h0
        by_contra hne
        push Not at hne
        apply h0
        funext i
        have := hne i
        simpa using this
    rw [hp]
    by_cases hz : (fun i => if im i = true then 0 else c i) ≠ (0 : Fin n → ℝ)
    · simp only [hz, ne_eq, not_false_eq_true, decide_true, if_true, List.map_cons, normalize_ofV, ih]
    · simp only [hz, decide_false, Bool.false_eq_true, if_false, ih]

theorem reduceR_dead (im : Fin n → Bool) (L : List (Fin n → ℝ)) (i : Fin n) (h : im i = true ∨ ∀ c ∈ L, c i = 0) : ∀ c ∈ reduceR im L, c i = 0 := by
  intro c hc
  obtain ⟨c1, hc1, rfl⟩ := List.mem_map.mp hc
  obtain ⟨c2, hc2, rfl⟩ := List.mem_map.mp (List.mem_of_mem_filter hc1)
  simp only [Pi.smul_apply, smul_eq_mul]
  rcases h with h | h
  · rw [if_pos h, mul_zero]
  · split
    · rw [mul_zero]
    · rw [h c2 hc2, mul_zero]

theorem reduceR_disj (im : Fin n → Bool) (L : List (Fin n → ℝ)) (h : DisjList L) : DisjList (reduceR im L) := by
  constructor
  · refine List.Pairwise.map _ (fun a b hab i => ?_) (List.Pairwise.filter _ (List.Pairwise.map _ (S := fun a b => ∀ i, a i * b i = 0) (fun a b hab i => ?_) h.1))
    · simp only [Pi.smul_apply, smul_eq_mul]
      have := hab i
      calc _ = (rnorm a)⁻¹ * (rnorm b)⁻¹ * (a i * b i) := by ring
        _ = 0 := by rw [this, mul_zero]
    · beta_reduce
      split
      · simp
      · exact hab i
  · intro c hc
    obtain ⟨c1, hc1, rfl⟩ := List.mem_map.mp hc
    have hne : c1 ≠ 0 := by
      have := (List.mem_filter.mp hc1).2
      simpa using this
    rw [← rnorm_sq, rnorm_normalized hne]; norm_num

/-- what truncation preserves: disjoint columns, starting point and columns on different coordinates -/
structure TInv (D : ℝ) (st : Step Num n) : Prop where
  ball : InBall D st
  cols : ∃ L : List (Fin n → ℝ), st.subspace = L.map ofV ∧ DisjList L ∧
    (∀ ss0, st.ss0 = ofV ss0 → ∀ i, (∀ c ∈ L, c i = 0) ∨ ss0 i = 0) ∧
    (∀ og, st.ogSs = ofV og → ∀ i, (∀ c ∈ L, c i = 0) → og i = 0)

theorem comb_dead (L : List (Fin n → ℝ)) (ts : List ℝ) (i : Fin n) (h : ∀ c ∈ L, c i = 0) : comb L ts i = 0 := by
  induction L generalizing ts with
  | nil => rfl
  | cons c L ih =>
    cases ts with
    | nil => rfl
    | cons t ts =>
      simp only [comb, Pi.add_apply, Pi.smul_apply, smul_eq_mul]
      rw [h c (by simp), ih ts (fun c hc => h c (by simp [hc]))]; simp

theorem calculate_tInv (hP : RealProb P x d sg B delta theta)
    (hB : Sym B) (hd : 0 ≤ delta) (O : Oracles Num) (hE : ExactEig O.sub) (hF : FindsRoots O.sub) (st st' : Step Num n)
    (L : List (Fin n → ℝ)) (hL : st.subspace = L.map ofV) (ss0 : Fin n → ℝ) (h0 : st.ss0 = ofV ss0) (hs0 : rnorm ss0 ≤ delta + 1 / 67108864)
    (hdis : DisjList L) (hsep : ∀ i, (∀ c ∈ L, c i = 0) ∨ ss0 i = 0) (h : st.calculate O.sub P = .ok st') :
    TInv (delta + 1 / 67108864) st' := by
  have hfr := calculate_frame O.sub P st st' h
  have hperp : ∀ c ∈ L, rdot ss0 c = 0 := fun c hc => Finset.sum_eq_zero fun i _ => by
    rcases hsep i with h | h
    · rw [h c hc, mul_zero]
    · rw [h, zero_mul]
  refine ⟨calculate_inBall hP hB hd O hE hF st st' L hL ss0 h0 hs0 (Or.inr ⟨hdis.orth, hperp⟩) h, L, by rw [hfr.2.2, hL], hdis, ?_, ?_⟩
  · intro q hq
    rw [hfr.1, h0, ofV_inj] at hq
    rw [← hq]; exact hsep
  · intro og hog i hi
    obtain ⟨_, ts, hts⟩ := calculate_radius hP hB hd O hE hF st st' L hL ss0 h0 (Or.inr ⟨hdis.orth, hperp⟩) h og hog
    rw [hts]; exact comb_dead L ts i hi

theorem calculate_back (O : SubOracles Num) (st st' : Step Num n) (h : st.calculate O P = .ok st') :
    ∃ (st1 : Step Num n) (q : Num), st' = { st1.stepBack P with qpval := q } := by
  unfold Step.calculate at h
  split at h
  · cases h
  · rename_i st1 _
    cases h; exact ⟨st1, _, rfl⟩

/-- every considered step comes out of `step_back` -/
theorem cand_back (O : Oracles Num) (fuel : ℕ) (dim : SubSpaceDim) (st : Step Num n) (h : Cand O fuel P dim st) :
    ∃ (st1 : Step Num n) (q : Num), st = { st1.stepBack P with qpval := q } := by
  cases h with
  | base _ h =>
    cases dim with
    | two =>
      simp only [trStep, step2d] at h
      split at h
      · cases h
      · exact calculate_back _ _ _ h
    | full => exact calculate_back _ _ _ h
    | steihaug =>
      simp only [trStep, stepSteihaug] at h
      split at h
      · cases h
      · split at h
        · cases h
        · cases h; exact ⟨_, _, rfl⟩
    | other => cases h
  | grad _ h => exact calculate_back _ _ _ h
  | refl cur _ _ ha h => exact calculate_back _ _ _ h
  | trunc cur _ _ ha h => exact calculate_back _ _ _ h
  | refined cur _ _ h =>
    simp only [stepRefined] at h
    split at h
    · cases h
    · cases h; exact ⟨_, _, rfl⟩

theorem cand_alpha (O : Oracles Num) (fuel : ℕ) (dim : SubSpaceDim) (st : Step Num n) (h : Cand O fuel P dim st) :
    st.alpha = npMin2 (Fides.lit 1) (P.theta * st.minbr) := by
  obtain ⟨st1, q, rfl⟩ := cand_back O fuel dim st h
  rfl

theorem cand_ss (O : Oracles Num) (fuel : ℕ) (dim : SubSpaceDim) (st : Step Num n) (h : Cand O fuel P dim st) :
    st.ss = fun i => st.ogSs i * st.alpha := by
  obtain ⟨st1, q, rfl⟩ := cand_back O fuel dim st h
  rfl

theorem cand_alpha01 (hP : RealProb P x d sg B delta theta) (O : Oracles Num) (fuel : ℕ) (dim : SubSpaceDim) (st : Step Num n)
    (h : Cand O fuel P dim st) (a : ℝ) (ha : st.alpha = fin a) : 0 ≤ a ∧ a ≤ 1 := by
  have hf := cand_feas hP.x hP.theta hP.th0 hP.th1 hP.box O fuel dim st h
  obtain ⟨st1, q, rfl⟩ := cand_back O fuel dim st h
  have ha' : (st1.stepBack P).alpha = fin a := ha
  rcases stepBack_alpha_cases P st1 theta hP.theta hP.th0 (fun i => hf.base i) with ⟨_, h2⟩ | ⟨_, h2, _⟩ | ⟨r, h1, _, h2, _⟩
  · rw [h2] at ha'; cases ha'
  · rw [h2, fin_inj] at ha'; rw [← ha']; norm_num
  · rw [h2, fin_inj] at ha'; rw [← ha']
    exact ⟨le_min zero_le_one (mul_nonneg hP.th0.le h1), min_le_left _ _⟩

/-- truncation keeps to the ball when the columns have disjoint supports -/
theorem truncate_tInv (hP : RealProb P x d sg B delta theta) (hn : 1 < n)
    (hB : Sym B) (hd : 0 ≤ delta) (O : Oracles Num) (hO : FiniteOracles O) (hE : ExactEig O.sub) (hF : FindsRoots O.sub) (fuel : ℕ) (dim : SubSpaceDim)
    (cur st : Step Num n) (hc : Cand O fuel P dim cur) (ha : feq cur.alpha (Fides.lit 1) = false)
    (h : stepTruncated O P cur = .ok st) (ih : TInv (delta + 1 / 67108864) cur) : TInv (delta + 1 / 67108864) st := by
  have hf := cand_finStep hP hn O hO fuel dim cur hc
  obtain ⟨r, hr0, hm, _⟩ := hf.cut ha
  obtain ⟨ss0, hss0⟩ := hf.ss0
  obtain ⟨_, ogs, hogs⟩ : (∃ r, cur.ogS = ofV r) ∧ ∃ r, cur.ogSs = ofV r := by
    rcases hf.og with h | ⟨h, _⟩
    · exact h
    · rw [h] at ha; simp at ha
  have hbr : ∀ i, cur.iminbr i = true → cur.br i = fin r := fun i hi => by
    rw [feq_true_eq ((hf.imin i).mp hi), hm]
  obtain ⟨L, hL, hdis, hsep, hdead⟩ := ih.cols
  have hth : 0 ≤ theta * r ∧ theta * r ≤ 1 := by
    refine ⟨mul_nonneg hP.th0.le hr0, ?_⟩
    have hal := cand_alpha O fuel dim cur hc
    rw [hal, hm, hP.theta, fin_mul, lit_def, npMin2_fin] at ha
    simp only [lit_def, Rat.cast_one, fin_feq, decide_eq_false_iff_not] at ha
    by_contra hgt
    exact ha (min_eq_left (not_le.mp hgt).le)
  have e0 : (truncateInit P cur).ss0 = ofV (fun i => if cur.iminbr i = true then ss0 i + theta * r * ogs i else ss0 i) := by
    funext i
    show (if cur.iminbr i = true then cur.ss0 i + P.theta * cur.br i * cur.ogSs i else cur.ss0 i) = _
    simp only [ofV_apply]
    by_cases hi : cur.iminbr i = true
    · rw [if_pos hi, if_pos hi, hbr i hi, hss0, hogs, hP.theta]; rfl
    · rw [if_neg hi, if_neg hi, hss0]; rfl
  refine calculate_tInv hP hB hd O hE hF (truncateInit P cur) st (reduceR cur.iminbr L) ?_ _ e0 ?_ (reduceR_disj _ _ hdis) ?_ h
  · show reduceSubspace cur.iminbr cur.subspace = _
    rw [hL, reduce_real]
  · refine le_trans ?_ (ih.ball.full _ _ hss0 hogs)
    apply Real.sqrt_le_sqrt
    refine Finset.sum_le_sum fun i _ => ?_
    simp only [Pi.add_apply]
    rcases hsep _ hss0 i with h1 | h1
    · rw [hdead _ hogs i h1]
      split <;> simp
    · rw [h1]
      split
      · have h2 := hth.1
        have h3 := hth.2
        have : (theta * r) * (theta * r) ≤ 1 := by nlinarith
        nlinarith [mul_self_nonneg (ogs i)]
      · simpa using mul_self_nonneg (ogs i)
  · intro i
    by_cases hi : cur.iminbr i = true
    · exact Or.inl (reduceR_dead _ _ _ (Or.inl hi))
    · rw [if_neg hi]
      rcases hsep _ hss0 i with h1 | h1
      · exact Or.inl (reduceR_dead _ _ _ (Or.inr h1))
      · exact Or.inr h1

theorem ball_of_zero (hn : n = 0) (hd : 0 ≤ delta) (p : Fin n → ℝ) : rnorm p ≤ delta := by
  subst hn
  have : p = 0 := funext fun i => i.elim0
  rw [this, rnorm_eq_zero.mpr rfl]; exact hd

theorem reach (hd : 0 ≤ delta) : rnorm (0 : Fin n → ℝ) ≤ delta + 1 / 67108864 := by
  rw [rnorm_eq_zero.mpr rfl]; linarith

theorem eyeCols_disj : DisjList (List.ofFn fun j : Fin n => fun i : Fin n => if i = j then (1 : ℝ) else 0) := by
  constructor
  · rw [List.pairwise_ofFn]
    intro j k hjk i
    beta_reduce
    by_cases h : i = j
    · have : i ≠ k := by rintro rfl; exact absurd h hjk.ne'
      rw [if_neg this, mul_zero]
    · rw [if_neg h, zero_mul]
  · intro c hc
    obtain ⟨j, rfl⟩ := List.mem_ofFn.mp hc
    simp [rdot]

theorem full_tInv (hP : RealProb P x d sg B delta theta) (hB : Sym B) (hd : 0 ≤ delta) (O : Oracles Num) (hE : ExactEig O.sub) (hF : FindsRoots O.sub)
    (st : Step Num n) (h : stepFull O P = .ok st) : TInv (delta + 1 / 67108864) st := by
  refine calculate_tInv hP hB hd O hE hF _ st (List.ofFn fun j : Fin n => fun i : Fin n => if i = j then (1 : ℝ) else 0) ?_ 0 vzero_ofV
    (reach hd) eyeCols_disj (fun i => Or.inr rfl) h
  rw [List.map_ofFn]
  show List.ofFn _ = List.ofFn _
  congr 1
  funext j i
  rw [meye_ofM]; rfl

theorem grad_inBall (hP : RealProb P x d sg B delta theta) (hB : Sym B) (hd : 0 ≤ delta) (O : Oracles Num) (hE : ExactEig O.sub) (hF : FindsRoots O.sub)
    (st : Step Num n) (h : stepGradient O P = .ok st) : InBall (delta + 1 / 67108864) st := by
  refine calculate_inBall hP hB hd O hE hF _ st [(rnorm sg)⁻¹ • sg] ?_ 0 vzero_ofV (reach hd) (Or.inl le_rfl) h
  show [normalize P.sg] = _
  rw [hP.sg, normalize_ofV]; rfl

theorem calculate_one (hP : RealProb P x d sg B delta theta) (hn : n = 1) (O : SubOracles Num) (c : Vec Num n) (st st' : Step Num n) (hs : st.subspace = [c])
    (h : st.calculate O P = .ok st') (og : Fin n → ℝ) (hog : st'.ogSs = ofV og) : ∃ u, c = ofV u := by
  subst hn
  unfold Step.calculate Step.computeStep at h
  rw [hs] at h
  cases h
  have h0 := congrFun hog 0
  have h0' : subDot [c] [solve1d P.shess P.sg c P.delta st.ss0] 0 = ofV og 0 := h0
  simp only [subDot, List.zipWith_cons_cons, List.zipWith_nil_left, sum_cons, sum_nil, lit_def, Rat.cast_zero, add_zero_num] at h0'
  obtain ⟨a, _, ha, _⟩ := mul_fin_iff _ _ _ h0'
  exact ⟨fun _ => a, funext fun i => by rw [Subsingleton.elim i 0, ha]; rfl⟩

theorem two_inBall (hP : RealProb P x d sg B delta theta) (hB : Sym B) (hd : 0 ≤ delta) (O : Oracles Num) (hO : FiniteOracles O) (hE : ExactEig O.sub)
    (hF : FindsRoots O.sub) (st : Step Num n) (h : step2d O P = .ok st) : InBall (delta + 1 / 67108864) st := by
  rcases Nat.lt_trichotomy n 1 with hn | hn | hn
  · have hn0 : n = 0 := by omega
    exact ⟨fun q _ => (ball_of_zero hn0 hd _).trans (by linarith), fun q og _ _ => (ball_of_zero hn0 hd _).trans (by linarith)⟩
  · simp only [step2d] at h
    split at h
    · cases h
    · rename_i cols pd nw hs
      obtain ⟨c, rfl⟩ : ∃ c, cols = [c] := by
        rw [subspace2d] at hs
        split at hs
        · cases hs
        · split at hs
          · cases hs
          · rw [if_pos hn] at hs
            cases hs
            exact ⟨_, rfl⟩
      have hf := calculate_frame O.sub P _ st h
      constructor
      · intro q hq
        rw [hf.1] at hq
        have : (vzero : Vec Num n) = ofV q := hq
        rw [vzero_ofV, ofV_inj] at this
        rw [← this]; exact reach hd
      · intro q og hq hog
        obtain ⟨u, rfl⟩ := calculate_one hP hn O.sub c _ st rfl h og hog
        exact (calculate_inBall hP hB hd O hE hF _ st [u] rfl 0 vzero_ofV (reach hd) (Or.inl le_rfl) h).full q og hq hog
  · simp only [step2d] at h
    split at h
    · cases h
    · rename_i cols pd nw hs
      rcases basis2d hP hn O hO cols pd nw hs with ⟨a, rfl, _⟩ | ⟨a, b, rfl, h1, h2, h3⟩
      · exact calculate_inBall hP hB hd O hE hF _ st [a] rfl 0 vzero_ofV (reach hd) (Or.inl le_rfl) h
      · refine calculate_inBall hP hB hd O hE hF _ st [a, b] rfl 0 vzero_ofV (reach hd) (Or.inr ⟨⟨?_, ?_⟩, fun c _ => zero_rdot c⟩) h
        · simpa using h3
        · intro c hc
          simp only [List.mem_cons, List.not_mem_nil, or_false] at hc
          rcases hc with rfl | rfl
          · by_cases h0 : c = 0
            · rw [h0, rdot_zero]; norm_num
            · rw [← rnorm_sq, h1 h0]; norm_num
          · rw [← rnorm_sq, h2]; norm_num

theorem base_inBall (hP : RealProb P x d sg B delta theta) (hB : Sym B) (hd : 0 ≤ delta) (O : Oracles Num) (hO : FiniteOracles O) (hE : ExactEig O.sub)
    (hF : FindsRoots O.sub) (fuel : ℕ) (dim : SubSpaceDim) (st : Step Num n) (h : trStep O fuel P dim = .ok st) : InBall (delta + 1 / 67108864) st := by
  cases dim with
  | two => exact two_inBall hP hB hd O hO hE hF st h
  | full => exact (full_tInv hP hB hd O hE hF st h).ball
  | steihaug =>
    have := steihaug_inBall hP hd fuel st h
    exact ⟨fun q hq => (this.start q hq).trans (by linarith), fun q og hq hog => (this.full q og hq hog).trans (by linarith)⟩
  | other => cases h

end

/-- **C26.** In exact arithmetic, with an exact eigendecomposition routine and root finders that find the root they are asked for,
the scaled step `p = ss + ss0` of the returned proposal has length at most `delta + 2^-26`: for every solver with the
reflection strategies, and for the full-space solver with the truncation and mixed strategies too.  (Missing: the truncation
strategies with the 2D solver, where it is false, see `C26_counterexample`, and with the Steihaug solver; the `refine` strategy, whose
step comes from an external solver.) -/
theorem C26_radius_partial {I : TRIn Num n} {x d g dv : Fin n → ℝ} {H : Fin n → Fin n → ℝ} {delta theta : ℝ} (hI : RealData I x d g dv H delta theta)
    (h0 : 0 < theta) (h1 : theta ≤ 1) (hbox : InBox I.lb I.ub x) (hd : 0 ≤ delta) (O : Oracles Num) (hO : FiniteOracles O) (hE : ExactEig O.sub)
    (hF : FindsRoots O.sub) (fuel : ℕ) (dim : SubSpaceDim) (strat : StepBackStrategy) (hr : strat ≠ .refine)
    (ht : dim = .full ∨ (strat ≠ .truncate ∧ strat ≠ .mixed)) (st : Step Num n) (h : trustRegion O fuel dim strat I = .ok st)
    (p : Fin n → ℝ) (hp : vadd st.ss st.ss0 = ofV p) : rnorm p ≤ delta + 1 / 2 ^ 26 := by
  have hP := RealData.prob hI h0 h1 hbox
  have hB : Sym (fun i j => d i * H i j * d j + if i = j then |g i| * dv i else 0) := by
    intro i j
    by_cases hij : i = j
    · subst hij; rfl
    · simp only [hij, Ne.symm hij, if_false, hI.sym i j]; ring
  obtain ⟨tr, htr, hch⟩ := trustRegion_chain O fuel dim strat I st h
  have hc : Cand O fuel I.prob dim tr := .base tr htr
  have hbase := base_inBall hP hB hd O hO hE hF fuel dim tr htr
  have hball : InBall (delta + 1 / 67108864) st := by
    rcases hch with ⟨hch, hn | rfl⟩ | ⟨hn, hg⟩ | ⟨hn, hs, hch⟩ | ⟨_, hs, _⟩
    · clear h hp
      induction hch with
      | base => exact hbase
      | next cur st hch ha hst ih => exact reflect_inBall hP hn hB hd O hO hE hF fuel dim cur st (hch.cand hc) ha hst ih
    · exact hbase
    · exact grad_inBall hP hB hd O hE hF st hg
    · have hfull : dim = .full := by
        rcases ht with h | h
        · exact h
        · rcases hs with hs | hs
          · exact absurd hs h.1
          · exact absurd hs h.2
      subst hfull
      have ht := full_tInv hP hB hd O hE hF tr htr
      have : TInv (delta + 1 / 67108864) st := by
        clear h hp
        induction hch with
        | base => exact ht
        | next cur st hch ha hst ih => exact truncate_tInv hP hn hB hd O hO hE hF fuel .full cur st (hch.cand hc) ha hst ih
      exact this.ball
    · exact absurd hs hr
  have hcst := trustRegion_cand O fuel dim strat I st h
  rcases Nat.eq_zero_or_pos n with hn0 | hn0
  · exact (ball_of_zero hn0 hd p).trans (by norm_num)
  have hss := cand_ss O fuel dim st hcst
  have hfin : ∀ i, ∃ a b c : ℝ, st.ogSs i = fin a ∧ st.alpha = fin b ∧ st.ss0 i = fin c := by
    intro i
    obtain ⟨u, c, h2, h3, _⟩ := add_fin_iff _ _ _ (congrFun hp i)
    rw [hss] at h2
    obtain ⟨a, b, h4, h5, _⟩ := mul_fin_iff _ _ _ h2
    exact ⟨a, b, c, h4, h5, h3⟩
  obtain ⟨_, a, _, _, ha, _⟩ := hfin ⟨0, hn0⟩
  obtain ⟨ha0, ha1⟩ := cand_alpha01 hP O fuel dim st hcst a ha
  choose og b ss0 h1 _ h3 using hfin
  have hog : st.ogSs = ofV og := funext h1
  have hss0 : st.ss0 = ofV ss0 := funext h3
  have := hball.taken a ha0 ha1 ss0 og hss0 hog
  have hpe : p = ss0 + a • og := by
    rw [← ofV_inj, ← hp]
    funext i
    show st.ss i + st.ss0 i = _
    rw [hss]
    beta_reduce
    rw [h1 i, h3 i, ha, fin_mul, fin_add, ofV_apply, fin_inj]
    simp only [Pi.add_apply, Pi.smul_apply, smul_eq_mul]; ring
  rw [hpe]
  refine this.trans (le_of_eq ?_)
  norm_num

/-- **C26**, for the displacement itself: with the 2D and full-space solvers the displacement `s + s0` added to `x` is `D p` for a vector `p`
of length at most `delta + 2^-26`. -/
theorem C26_displacement_partial {I : TRIn Num n} {x d g dv : Fin n → ℝ} {H : Fin n → Fin n → ℝ} {delta theta : ℝ} (hI : RealData I x d g dv H delta theta)
    (h0 : 0 < theta) (h1 : theta ≤ 1) (hbox : InBox I.lb I.ub x) (hd : 0 ≤ delta) (O : Oracles Num) (hO : FiniteOracles O) (hE : ExactEig O.sub)
    (hF : FindsRoots O.sub) (fuel : ℕ) (dim : SubSpaceDim) (hdim : dim ≠ .steihaug) (strat : StepBackStrategy) (hr : strat ≠ .refine)
    (ht : dim = .full ∨ (strat ≠ .truncate ∧ strat ≠ .mixed)) (st : Step Num n) (h : trustRegion O fuel dim strat I = .ok st)
    (q : ℝ) (hq : st.qpval = fin q) :
    ∃ p : Fin n → ℝ, vadd st.s st.s0 = ofV (fun i => d i * p i) ∧ rnorm p ≤ delta + 1 / 2 ^ 26 := by
  obtain ⟨p, h2, h3, _⟩ := C25_step_partial O fuel dim hdim strat I d g dv H hI.scaling hI.g hI.dv hI.hess st h q hq
  exact ⟨p, h3, C26_radius_partial hI h0 h1 hbox hd O hO hE hF fuel dim strat hr ht st h p h2⟩

end Fides
