import Verif.Spec.Rotation
import Verif.Lemmas.Library
import Verif.Lemmas.CG
import Verif.Props.Unbounded

/-! Helper lemmas: proposals on rotated problems. -/

namespace Fides
open Num Spec
variable {n : ℕ}

/-- the value of the boundary solution -/
theorem boundary_value {B : Fin n → Fin n → ℝ} (g s s0 : Fin n → ℝ) (delta : ℝ) (hs : s ≠ 0) (h0 : rdot s0 s0 < delta * delta) :
    let aux := 2 * rdot s0 s + csgn (2 * rdot s0 s) * Real.sqrt (2 * rdot s0 s * (2 * rdot s0 s) - 4 * rdot s s * (rdot s0 s0 - delta * delta))
    let t1 := -aux / (2 * rdot s s)
    let t2 := -2 * (rdot s0 s0 - delta * delta) / aux
    boundarySolution1d (ofM B) (ofV g) (ofV s) (ofV s0) (fin delta) = fin (if quad B g (s0 + t2 • s) < quad B g (s0 + t1 • s) then t2 else t1) := by
  have ha := rdot_self_pos hs
  obtain ⟨hne, hr⟩ := boundary_roots (rdot s s) (2 * rdot s0 s) (rdot s0 s0 - delta * delta) ha (by linarith) (Or.inr (by linarith))
  have hdisc : 0 ≤ 2 * rdot s0 s * (2 * rdot s0 s) - 4 * rdot s s * (rdot s0 s0 - delta * delta) := by
    nlinarith [mul_self_nonneg (2 * rdot s0 s), mul_nonneg ha.le (sub_nonneg.mpr h0.le)]
  intro aux t1 t2
  have hcs : FloatOps.copysign (fin (Real.sqrt (2 * rdot s0 s * (2 * rdot s0 s) - 4 * rdot s s * (rdot s0 s0 - delta * delta)))) (fin (2 * rdot s0 s)) =
      fin (csgn (2 * rdot s0 s) * Real.sqrt (2 * rdot s0 s * (2 * rdot s0 s) - 4 * rdot s s * (rdot s0 s0 - delta * delta))) := by
    rw [fin_copysign, abs_of_nonneg (Real.sqrt_nonneg _)]
    unfold csgn
    split
    · rw [neg_one_mul]
    · rw [one_mul]
  have hval : boundarySolution1d (ofM B) (ofV g) (ofV s) (ofV s0) (fin delta) =
      argminGo (fun t => quadraticForm (ofM B) (ofV g) (vadd (ofV s0) (vsmul t (ofV s)))) (fin t1) [fin t2] := by
    simp only [boundarySolution1d, dot_ofV, lit_def, fin_mul, fin_sub]
    have c2 : ((2 : ℚ) : ℝ) = 2 := by norm_num
    have c4 : ((4 : ℚ) : ℝ) = 4 := by norm_num
    have cm2 : ((-2 : ℚ) : ℝ) = -2 := by norm_num
    rw [c2, c4, cm2, fin_sqrt _ hdisc, hcs, fin_add, fin_neg, fin_div _ _ (by positivity), fin_div _ _ hne]
  have key : ∀ t : ℝ, quadraticForm (ofM B) (ofV g) (vadd (ofV s0) (vsmul (fin t) (ofV s))) =
      fin (quad B g (s0 + t • s)) := by
    intro t; rw [vsmul_ofV, vadd_ofV, quadraticForm_ofV]
  rw [argminGo_pair (fun t => quadraticForm (ofM B) (ofV g) (vadd (ofV s0) (vsmul t (ofV s)))) _ _ _ _ (key t1) (key t2)] at hval
  rw [hval]
  split <;> rfl

theorem rmv_sum_rot {k : ℕ} (Q : Fin n → Fin n → ℝ) (C : Fin k → Fin n → ℝ) (r : Fin k → ℝ) : rmv Q (colsum C r) = colsum (fun i => rmv Q (C i)) r := by
  funext i
  simp only [colsum, rmv, rdot, Finset.sum_apply, Pi.smul_apply, smul_eq_mul, Finset.mul_sum]
  rw [Finset.sum_comm]
  refine Finset.sum_congr rfl fun a _ => Finset.sum_congr rfl fun j _ => by ring

/-- the matrix `B'` is `B` in the coordinates `Q x` -/
def Conj (Q B B' : Fin n → Fin n → ℝ) : Prop := ∀ v, rmv B' (rmv Q v) = rmv Q (rmv B v)

section
variable {Q : Fin n → Fin n → ℝ} (hQ : OrthoCols Q)
include hQ

theorem rot_norm (u : Fin n → ℝ) : rnorm (rmv Q u) = rnorm u := by
  rw [rnorm, ortho_rdot hQ, rnorm]

theorem rot_ne {u : Fin n → ℝ} (h : u ≠ 0) : rmv Q u ≠ 0 := by
  intro h0
  apply h
  have := rot_norm hQ u
  rw [h0, rnorm_eq_zero.mpr rfl] at this
  exact rnorm_eq_zero.mp this.symm

theorem rot_surj (v : Fin n → ℝ) : ∃ u, rmv Q u = v := ⟨_, ortho_complete hQ v⟩

theorem rot_quad {B B' : Fin n → Fin n → ℝ} (hc : Conj Q B B') (g p : Fin n → ℝ) : quad B' (rmv Q g) (rmv Q p) = quad B g p := by
  simp only [quad, hc p, ortho_rdot hQ]

theorem rot_sym {B B' : Fin n → Fin n → ℝ} (hc : Conj Q B B') (hS : Sym B) : Sym B' := by
  have key : ∀ u v, rdot u (rmv B' v) = rdot (rmv B' u) v := by
    intro u v
    obtain ⟨u, rfl⟩ := rot_surj hQ u
    obtain ⟨v, rfl⟩ := rot_surj hQ v
    rw [hc, hc, ortho_rdot hQ, ortho_rdot hQ, Sym.rdot_rmv hS]
  intro i j
  have := key (fun k => if k = i then 1 else 0) (fun k => if k = j then 1 else 0)
  simpa [rdot, rmv] using this

theorem rot_pd {B B' : Fin n → Fin n → ℝ} (hc : Conj Q B B') (hpd : PD B) : PD B' := by
  intro v hv
  obtain ⟨u, rfl⟩ := rot_surj hQ v
  rw [hc, ortho_rdot hQ]
  apply hpd
  rintro rfl
  exact hv (rmv_zero _)

theorem rot_boundary {B B' : Fin n → Fin n → ℝ} (hc : Conj Q B B') (g s s0 : Fin n → ℝ) (delta : ℝ) (hs : s ≠ 0) (h0 : rdot s0 s0 < delta * delta) :
    boundarySolution1d (ofM B') (ofV (rmv Q g)) (ofV (rmv Q s)) (ofV (rmv Q s0)) (fin delta) = boundarySolution1d (ofM B) (ofV g) (ofV s) (ofV s0) (fin delta) := by
  rw [boundary_value g s s0 delta hs h0, boundary_value _ _ _ delta (rot_ne hQ hs) (by rw [ortho_rdot hQ]; exact h0)]
  simp only [ortho_rdot hQ]
  have e : ∀ t : ℝ, quad B' (rmv Q g) (rmv Q s0 + t • rmv Q s) = quad B g (s0 + t • s) := by
    intro t
    rw [← rot_quad hQ hc, rmv_add, rmv_smul]
  simp only [e]

theorem rot_solve1d {B B' : Fin n → Fin n → ℝ} (hc : Conj Q B B') (g s : Fin n → ℝ) {delta : ℝ} (hd : 0 < delta) (hs : s ≠ 0) :
    solve1d (ofM B') (ofV (rmv Q g)) (ofV (rmv Q s)) (fin delta) (ofV 0) = solve1d (ofM B) (ofV g) (ofV s) (fin delta) (ofV 0) := by
  have hz : ∀ u : Fin n → ℝ, u ≠ 0 → (decide (∀ i, feq (ofV u i) (Fides.lit 0 : Num) = true)) = false := by
    intro u hu
    rw [decide_eq_false_iff_not]
    intro h
    apply hu
    funext i
    simpa using h i
  have hb := rot_boundary hQ hc g s 0 delta hs (by rw [rdot_zero]; positivity)
  rw [rmv_zero] at hb
  unfold solve1d
  rw [hz s hs, hz _ (rot_ne hQ hs), hb]
  have hBs : rdot s (rmv B s) = rdot (rmv Q s) (rmv B' (rmv Q s)) := by rw [hc, ortho_rdot hQ]
  have h1 : dot (mulVec (ofM B') (ofV (rmv Q s))) (ofV (rmv Q s)) = dot (mulVec (ofM B) (ofV s)) (ofV s) := by
    rw [mulVec_ofM, mulVec_ofM, dot_ofV, dot_ofV, hc, ortho_rdot hQ]
  have h2 : dot (ofV (rmv Q s)) (vadd (mulVec (ofM B') (ofV 0)) (ofV (rmv Q g))) = dot (ofV s) (vadd (mulVec (ofM B) (ofV 0)) (ofV g)) := by
    rw [mulVec_ofM, mulVec_ofM, rmv_zero, rmv_zero, vadd_ofV, vadd_ofV, zero_add, zero_add, dot_ofV, dot_ofV, ortho_rdot hQ]
  simp only [h1, h2]
  generalize hm : -dot (ofV s) (vadd (mulVec (ofM B) (ofV 0)) (ofV g)) / ((Fides.lit 2 : Num) * ((Fides.lit (1 / 2) : Num) * dot (mulVec (ofM B) (ofV s)) (ofV s))) = m
  by_cases ha : lt (Fides.lit 0) ((Fides.lit (1 / 2) : Num) * dot (mulVec (ofM B) (ofV s)) (ofV s)) = true
  · have hp : 0 < rdot (rmv B s) s := by
      rw [mulVec_ofM, dot_ofV, lit_def, lit_def, fin_mul, fin_lt] at ha
      have := of_decide_eq_true ha
      push_cast at this
      linarith
    obtain ⟨t, rfl⟩ : ∃ t, m = fin t := by
      rw [← hm, mulVec_ofM, mulVec_ofM, vadd_ofV, dot_ofV, dot_ofV, lit_def, lit_def, fin_mul, fin_mul, fin_neg, fin_div _ _ (by push_cast; positivity)]
      exact ⟨_, rfl⟩
    have hn : norm (vadd (vsmul (fin t) (ofV (rmv Q s))) (ofV 0)) = norm (vadd (vsmul (fin t) (ofV s)) (ofV 0)) := by
      rw [vsmul_ofV, vsmul_ofV, vadd_ofV, vadd_ofV, norm_ofV, norm_ofV, add_zero, add_zero, ← rmv_smul, rot_norm hQ]
    rw [hn]
  · simp only [ha, Bool.false_and]

end

section
variable {Q : Fin n → Fin n → ℝ} (hQ : OrthoCols Q) {P P' : Prob Num n} {x g : Fin n → ℝ} {B B' : Fin n → Fin n → ℝ} {D th th' : ℝ}
  (hP : RealProb P x 1 g B D th) (hP' : RealProb P' (rmv Q x) 1 (rmv Q g) B' D th') (hb : NoBounds P.lb P.ub) (hb' : NoBounds P'.lb P'.ub) (hc : Conj Q B B')

include hQ hP hP' hb hb' hc

theorem rot_calc_one (hS : Sym B) (hD : 0 < D) (O O' : Oracles Num) (st st' : Step Num n) (hs0 : st.s0 = vzero) (hss0 : st.ss0 = vzero) (hx : st.x = P.x)
    (hs0' : st'.s0 = vzero) (hss0' : st'.ss0 = vzero) (hx' : st'.x = P'.x) (u : Fin n → ℝ) (hu : u ≠ 0) (hcols : st.subspace = [ofV u]) (hcols' : st'.subspace = [ofV (rmv Q u)]) :
    ∃ r r' p, st.calculate O.sub P = .ok r ∧ st'.calculate O'.sub P' = .ok r' ∧ Proposes1 r x g B p ∧ Proposes1 r' (rmv Q x) (rmv Q g) B' (rmv Q p) := by
  obtain ⟨t, ht, -, -⟩ := C20_solve1d hS g u 0 D hD.le (by rw [rnorm_eq_zero.mpr rfl]; exact hD.le) (Or.inl (by rw [rnorm_eq_zero.mpr rfl]; exact hD))
  have hcs : st.computeStep O.sub P = .ok { st with sc := [fin t], ss := ofV (t • u), s := sdot P.scaling (ofV (t • u)) } := by
    unfold Step.computeStep
    rw [hcols]
    simp only [hP.shess, hP.sg, hP.delta, hss0, vzero_ofV, ht, subDot_one]
  have ht' := (rot_solve1d hQ hc g u hD hu).trans ht
  have hcs' : st'.computeStep O'.sub P' = .ok { st' with sc := [fin t], ss := ofV (rmv Q (t • u)), s := sdot P'.scaling (ofV (rmv Q (t • u))) } := by
    unfold Step.computeStep
    rw [hcols']
    simp only [hP'.shess, hP'.sg, hP'.delta, hss0', vzero_ofV, ht', subDot_one, rmv_smul]
  obtain ⟨r, h1, h2, h3, h4⟩ := calculate_of_ss hP hb O.sub st _ hs0 hss0 hx (t • u) hcs rfl
  obtain ⟨r', k1, k2, k3, k4⟩ := calculate_of_ss hP' hb' O'.sub st' _ hs0' hss0' hx' (rmv Q (t • u)) hcs' rfl
  exact ⟨r, r', _, h1, k1, ⟨h3, h2, h4⟩, ⟨k3, k2, k4⟩⟩

theorem rot_calc_many (hS : Sym B) (hpd : PD B) (hD : 0 < D) (O O' : Oracles Num) (hX : ExactRoutines O) (hX' : ExactRoutines O') (st st' : Step Num n)
    (hs0 : st.s0 = vzero) (hss0 : st.ss0 = vzero) (hx : st.x = P.x) (hs0' : st'.s0 = vzero) (hss0' : st'.ss0 = vzero) (hx' : st'.x = P'.x)
    (a b : Fin n → ℝ) (hcols : st.subspace = [ofV a, ofV b]) (hcols' : st'.subspace = [ofV (rmv Q a), ofV (rmv Q b)]) (ha : rdot a a = 1) (hab : rdot a b = 0) (hbb : rdot b b = 1) :
    ∃ r r' p, st.calculate O.sub P = .ok r ∧ st'.calculate O'.sub P' = .ok r' ∧ Proposes1 r x g B p ∧ Proposes1 r' (rmv Q x) (rmv Q g) B' (rmv Q p) := by
  set C : Fin 2 → Fin n → ℝ := fun i => if i = 0 then a else b with hCd
  have hor : ∀ i j, rdot (C i) (C j) = if i = j then 1 else 0 := by
    intro i j
    match i, j with
    | 0, 0 => simpa [hCd] using ha
    | 0, 1 => simpa [hCd] using hab
    | 1, 0 => rw [rdot_comm]; simpa [hCd] using hab
    | 1, 1 => simpa [hCd] using hbb
  have hnorm := colsum_norm C hor
  have hC : ∀ i, [ofV a, ofV b].get i = (ofV (C i) : Vec Num n) := by
    intro i
    match i with
    | ⟨0, _⟩ => rfl
    | ⟨1, _⟩ => rfl
  have hC' : ∀ i, [ofV (rmv Q a), ofV (rmv Q b)].get i = (ofV (rmv Q (C i)) : Vec Num n) := by
    intro i
    match i with
    | ⟨0, _⟩ => rfl
    | ⟨1, _⟩ => rfl
  have hM : chess (ofM B) [ofV a, ofV b] = ofM (reduced B C) := by
    funext i j
    simp only [chess, hC, mulVec_ofM, dot_ofV, ofM_apply, reduced]
  have hM' : chess (ofM B') [ofV (rmv Q a), ofV (rmv Q b)] = ofM (reduced B C) := by
    funext i j
    simp only [chess, hC', mulVec_ofM, dot_ofV, ofM_apply, reduced, hc _, ortho_rdot hQ]
  have hg : cg (ofV g) [ofV a, ofV b] = ofV fun i => rdot (C i) g := by
    funext i
    simp only [cg, hC, dot_ofV, ofV_apply]
  have hg' : cg (ofV (rmv Q g)) [ofV (rmv Q a), ofV (rmv Q b)] = ofV fun i => rdot (C i) g := by
    funext i
    simp only [cg, hC', dot_ofV, ofV_apply, ortho_rdot hQ]
  have hSr : Sym (reduced B C) := by
    intro i j
    simp only [reduced]
    rw [Sym.rdot_rmv hS, rdot_comm]
  have hpdr : PD (reduced B C) := by
    intro v hv
    rw [reduced_form]
    apply hpd
    intro h0
    apply hv
    have := hnorm v
    rw [h0, rnorm_eq_zero.mpr rfl] at this
    exact rnorm_eq_zero.mp this.symm
  obtain ⟨r, ty, ty', h1, h2⟩ := solveNd_same O O' hX hX' (by omega) hSr hpdr (fun i => rdot (C i) g) hD
  have hrad : ∀ (P : Prob Num n) (st : Step Num n), P.delta = fin D → st.ss0 = vzero →
      FloatOps.sqrt (pyMax (P.delta * P.delta - norm st.ss0 * norm st.ss0) (Fides.lit 0)) = fin D := by
    intro P st hd hss0
    rw [hd, hss0, vzero_ofV, norm_ofV, rnorm_eq_zero.mpr rfl, fin_mul, fin_mul, fin_sub, lit_def, pyMax_fin]
    have : max (D * D - 0 * 0) ((0 : ℚ) : ℝ) = D * D := by
      rw [max_eq_left (by push_cast; nlinarith)]; ring
    rw [this, fin_sqrt _ (by positivity), Real.sqrt_mul_self hD.le]
  have hsum : rmv Q (colsum C r) = colsum (fun i => rmv Q (C i)) r := rmv_sum_rot Q C r
  have hcomp : st.computeStep O.sub P = .ok { st with sc := List.ofFn (ofV r), ss := ofV (colsum C r), s := sdot P.scaling (ofV (colsum C r)) } := by
    rw [computeStep_many O.sub P st _ (by simp) hcols, hrad P st hP.delta hss0, hP.shess, hP.sg, hM, hg, h1]
    simp only [subDot_colsum [ofV a, ofV b] C hC]
  have hcomp' : st'.computeStep O'.sub P' = .ok { st' with sc := List.ofFn (ofV r), ss := ofV (rmv Q (colsum C r)), s := sdot P'.scaling (ofV (rmv Q (colsum C r))) } := by
    rw [computeStep_many O'.sub P' st' _ (by simp) hcols', hrad P' st' hP'.delta hss0', hP'.shess, hP'.sg, hM', hg', h2]
    simp only [subDot_colsum [ofV (rmv Q a), ofV (rmv Q b)] (fun i => rmv Q (C i)) hC', hsum]
    rfl
  obtain ⟨s, e1, e2, e3, e4⟩ := calculate_of_ss hP hb O.sub st _ hs0 hss0 hx _ hcomp rfl
  obtain ⟨s', k1, k2, k3, k4⟩ := calculate_of_ss hP' hb' O'.sub st' _ hs0' hss0' hx' _ hcomp' rfl
  exact ⟨s, s', _, e1, k1, ⟨e3, e2, e4⟩, ⟨k3, k2, k4⟩⟩

theorem rot_full (hn : 0 < n) (hS : Sym B) (hpd : PD B) (hD : 0 < D) (O O' : Oracles Num) (hX : ExactRoutines O) (hX' : ExactRoutines O') :
    ∃ r r' p, stepFull O P = .ok r ∧ stepFull O' P' = .ok r' ∧ Proposes1 r x g B p ∧ Proposes1 r' (rmv Q x) (rmv Q g) B' (rmv Q p) := by
  obtain ⟨nv, hnv⟩ := pd_solve hS hpd g
  have hS' := rot_sym hQ hc hS
  have hpd' := rot_pd hQ hc hpd
  obtain ⟨r, h1, p, h2, h3, h4, h5⟩ := full_best hP hb hn hS hpd hD O hX nv hnv
  obtain ⟨r', k1, p', k2, k3, k4, k5⟩ := full_best hP' hb' hn hS' hpd' hD O' hX' (rmv Q nv) (by rw [hc, hnv, rmv_neg])
  rw [rot_norm hQ] at k4
  have : p' = rmv Q p := by
    by_cases hin : 1 < n ∧ rnorm nv ≤ D + ballTol
    · rw [k4 hin.1 hin.2, h4 hin.1 hin.2]
    · have e1 : rnorm p ≤ D := by
        rcases h3 with h | ⟨h0, rfl, h⟩
        · exact h
        · exact absurd ⟨h0, h⟩ hin
      have e2 : rnorm p' ≤ D := by
        rcases k3 with h | ⟨h0, rfl, h⟩
        · exact h
        · exact absurd ⟨h0, by rw [rot_norm hQ] at h; exact h⟩ hin
      refine min_unique hS' hpd' hD.le k5 (fun q hq => ?_) e2 (by rw [rot_norm hQ]; exact e1)
      obtain ⟨q, rfl⟩ := rot_surj hQ q
      rw [rot_quad hQ hc, rot_quad hQ hc]
      exact h5 q (by rw [rot_norm hQ] at hq; exact hq)
  subst this
  exact ⟨r, r', p, h1, k1, h2, k2⟩

theorem rot_two (hS : Sym B) (hpd : PD B) (hD : 0 < D) (hg : g ≠ 0) (O O' : Oracles Num) (hX : ExactRoutines O) (hX' : ExactRoutines O') :
    ∃ r r' p, step2d O P = .ok r ∧ step2d O' P' = .ok r' ∧ Proposes1 r x g B p ∧ Proposes1 r' (rmv Q x) (rmv Q g) B' (rmv Q p) := by
  have hn : 0 < n := by
    rcases Nat.eq_zero_or_pos n with h0 | h0
    · subst h0; exact absurd (funext fun i => i.elim0) hg
    · exact h0
  obtain ⟨nv, hnv⟩ := pd_solve hS hpd g
  have hnv0 : nv ≠ 0 := by
    rintro rfl
    rw [rmv_zero] at hnv
    exact hg (by rw [← neg_neg g, ← hnv, neg_zero])
  have hsub : ∀ (O : Oracles Num) (P : Prob Num n) (x g nv : Fin n → ℝ) (B : Fin n → Fin n → ℝ) (th : ℝ), ExactRoutines O → RealProb P x 1 g B D th → Sym B → PD B → rmv B nv = -g →
      subspace2d O P = if n = 1 then .ok ([ofV nv], some true, none)
        else if lt (norm (ofV nv)) P.delta then .ok ([normalize (ofV nv)], some true, some true) else .ok (subspace2dOrth (ofV nv) (ofV g), some true, some false) := by
    intro O P x g nv B th hX hP hS hpd hnv
    obtain ⟨z, hz, hBz⟩ := exact_lstsq O hX hS g (-nv) (by rw [rmv_neg, hnv, neg_neg])
    have hzn : z = -nv := pd_injective hpd (by rw [hBz, rmv_neg, hnv, neg_neg])
    rw [hzn] at hz
    obtain ⟨vals, U, he, hE⟩ := hX.npEig B hS
    have hpdt := exact_posdef vals hn (pd_vals hpd hE)
    have hvn : vneg (ofV (-nv)) = ofV nv := by rw [vneg_ofV, neg_neg]
    unfold subspace2d
    rw [hP.shess, hP.sg, hz, he]
    simp only [hpdt, hvn, if_true]
    by_cases h1 : n = 1
    · subst h1
      rw [if_pos rfl, if_pos rfl]
      have : (fun i : Fin 1 => -ofV g i / ofM B i i) = ofV nv := by
        funext i
        have hi : i = 0 := Subsingleton.elim _ _
        subst hi
        have e := congrFun hnv 0
        simp only [rmv, rdot, Finset.univ_unique, Fin.default_eq_zero, Finset.sum_singleton, Pi.neg_apply] at e
        have hB0 : 0 < B 0 0 := by
          have := hpd (fun _ => 1) (fun h => one_ne_zero (congrFun h 0))
          simpa [rmv, rdot] using this
        rw [ofV_apply, ofM_apply, fin_neg, fin_div _ _ hB0.ne', ofV_apply, fin_inj]
        field_simp
        linarith
      rw [this]
    · rw [if_neg h1, if_neg h1]
  have hnv' : rmv B' (rmv Q nv) = -rmv Q g := by rw [hc, hnv, rmv_neg]
  have h1 := hsub O P x g nv B th hX hP hS hpd hnv
  have h2 := hsub O' P' _ _ _ B' th' hX' hP' (rot_sym hQ hc hS) (rot_pd hQ hc hpd) hnv'
  have hnn : ∀ v : Fin n → ℝ, normalize (ofV (rmv Q v)) = ofV (rmv Q ((rnorm v)⁻¹ • v)) := by
    intro v; rw [normalize_ofV, rot_norm hQ, rmv_smul]
  have horth : ∃ cs : List (Fin n → ℝ), subspace2dOrth (ofV nv) (ofV g) = cs.map ofV ∧ subspace2dOrth (ofV (rmv Q nv)) (ofV (rmv Q g)) = cs.map fun v => ofV (rmv Q v) := by
    have e1 : (fun i => ofV ((rnorm nv)⁻¹ • nv) i * fin (rdot ((rnorm nv)⁻¹ • nv) g)) = ofV (rdot ((rnorm nv)⁻¹ • nv) g • ((rnorm nv)⁻¹ • nv)) := by
      funext i; simp [mul_comm]
    have e2 : ∀ (v : Fin n → ℝ) (t : ℝ), (fun i => ofV (rmv Q v) i * fin t) = ofV (rmv Q (t • v)) := by
      intro v t
      rw [rmv_smul]; funext i; simp [mul_comm]
    unfold subspace2dOrth
    simp only [normalize_ofV nv, hnn, dot_ofV, ortho_rdot hQ, e1, e2, vsub_ofV]
    rw [← rmv_sub, norm_ofV, norm_ofV, rot_norm hQ, normalize_ofV, hnn]
    by_cases h : lt spacing1 (fin (rnorm (g - rdot ((rnorm nv)⁻¹ • nv) g • (rnorm nv)⁻¹ • nv))) = true
    · simp only [if_pos h]
      exact ⟨[_, _], rfl, rfl⟩
    · simp only [if_neg h]
      exact ⟨[_], rfl, rfl⟩
  have hinj : Function.Injective (List.map (ofV : (Fin n → ℝ) → Vec Num n)) := List.map_injective_iff.mpr fun _ _ h => ofV_inj.mp h
  have hu0 : (rnorm nv)⁻¹ • nv ≠ 0 := smul_ne_zero (inv_ne_zero (rnorm_pos hnv0).ne') hnv0
  unfold step2d
  rw [h1, h2]
  by_cases hn1 : n = 1
  · simp only [if_pos hn1]
    exact rot_calc_one hQ hP hP' hb hb' hc hS hD O O' _ _ rfl rfl rfl rfl rfl rfl nv hnv0 rfl rfl
  · simp only [if_neg hn1]
    rw [norm_ofV, norm_ofV, rot_norm hQ, hP.delta, hP'.delta]
    by_cases hlt : lt (fin (rnorm nv)) (fin D) = true
    · simp only [if_pos hlt]
      exact rot_calc_one hQ hP hP' hb hb' hc hS hD O O' _ _ rfl rfl rfl rfl rfl rfl _ hu0 (by show [normalize (ofV nv)] = _; rw [normalize_ofV]) (by show [normalize _] = _; rw [hnn])
    · simp only [if_neg hlt]
      obtain ⟨cs, c1, c2⟩ := horth
      rcases orth2d_span nv g hnv0 _ rfl with ⟨h, -⟩ | ⟨b, h, hb1, hb2, -⟩
      · have hcs : cs = [(rnorm nv)⁻¹ • nv] := by
          rw [c1] at h
          exact hinj h
        subst hcs
        exact rot_calc_one hQ hP hP' hb hb' hc hS hD O O' _ _ rfl rfl rfl rfl rfl rfl _ hu0 c1 c2
      · have hcs : cs = [(rnorm nv)⁻¹ • nv, b] := by
          rw [c1] at h
          exact hinj h
        subst hcs
        have hu1 : rnorm ((rnorm nv)⁻¹ • nv) = 1 := rnorm_normalized hnv0
        exact rot_calc_many hQ hP hP' hb hb' hc hS hpd hD O O' hX hX' _ _ rfl rfl rfl rfl rfl rfl _ _ c1 c2 (by rw [← rnorm_sq, hu1]; norm_num) hb2 (by rw [← rnorm_sq, hb1]; norm_num)

omit hb hb' in
theorem rot_cg (hS : Sym B) (hD : 0 < D) (eps : ℝ) (he : 0 < eps) (k : ℕ) (z r e : Fin n → ℝ) (hz : rnorm z < D) (hr : r = g + rmv B z) (hre : rdot r e = -rdot r r) (hr0 : r ≠ 0) :
    (steihaugLoop P (fin eps) k (ofV z) (ofV r) (ofV e) = .error .diverges ∧ steihaugLoop P' (fin eps) k (ofV (rmv Q z)) (ofV (rmv Q r)) (ofV (rmv Q e)) = .error .diverges) ∨
    ∃ o o' q p, steihaugLoop P (fin eps) k (ofV z) (ofV r) (ofV e) = .ok o ∧ steihaugLoop P' (fin eps) k (ofV (rmv Q z)) (ofV (rmv Q r)) (ofV (rmv Q e)) = .ok o' ∧
      o.ss0 = ofV q ∧ o.ss = ofV p ∧ o'.ss0 = ofV (rmv Q q) ∧ o'.ss = ofV (rmv Q p) := by
  induction k generalizing z r e with
  | zero => exact Or.inl ⟨rfl, rfl⟩
  | succ k ih =>
    have hr2 := rdot_self_pos hr0
    have he0 : e ≠ 0 := by
      rintro rfl
      rw [rdot_zero] at hre; linarith
    have hzz : rdot z z < D * D := by
      rw [← rnorm_sq]; nlinarith [rnorm_nonneg z]
    obtain ⟨-, -, t, ht, -⟩ := boundarySolution1d_fin (B := B) g e z D he0 hzz.le (Or.inl hzz)
    have ht' := (rot_boundary hQ hc g e z D he0 hzz).trans ht
    have hBe : rmv B' (rmv Q e) = rmv Q (rmv B e) := hc e
    have hce : rdot (rmv Q e) (rmv B' (rmv Q e)) = rdot e (rmv B e) := by rw [hBe, ortho_rdot hQ]
    have hrr : rdot (rmv Q r) (rmv Q r) = rdot r r := ortho_rdot hQ r r
    have hzp : rmv Q z + (rdot (rmv Q r) (rmv Q r) / rdot (rmv Q e) (rmv B' (rmv Q e))) • rmv Q e = rmv Q (z + (rdot r r / rdot e (rmv B e)) • e) := by
      rw [hrr, hce, rmv_add, rmv_smul]
    have hrp' : rmv Q r + (rdot (rmv Q r) (rmv Q r) / rdot (rmv Q e) (rmv B' (rmv Q e))) • rmv B' (rmv Q e) = rmv Q (r + (rdot r r / rdot e (rmv B e)) • rmv B e) := by
      rw [hrr, hce, hBe, rmv_add, rmv_smul]
    rcases le_or_gt (rdot e (rmv B e)) 0 with hcv | hcv
    · obtain ⟨t1, h1, h2⟩ := cg_exit_curv P B D eps hP.shess hP.delta k z r e hcv
      obtain ⟨t2, k1, k2⟩ := cg_exit_curv P' B' D eps hP'.shess hP'.delta k (rmv Q z) (rmv Q r) (rmv Q e) (by rw [hce]; exact hcv)
      rw [hP.shess, hP.sg, hP.delta, ht, lit_def, fin_mul, Rat.cast_one, mul_one] at h2
      rw [hP'.shess, hP'.sg, hP'.delta, ht', lit_def, fin_mul, Rat.cast_one, mul_one] at k2
      refine Or.inr ⟨_, _, z, t • e, h1, k1, rfl, ?_, rfl, ?_⟩
      · rw [h2]; exact subDot_one e t
      · rw [k2, rmv_smul]; exact subDot_one _ t
    rcases le_or_gt D (rnorm (z + (rdot r r / rdot e (rmv B e)) • e)) with hf | hf
    · obtain ⟨t1, h1, h2⟩ := cg_exit_far P B D eps hP.shess hP.delta k z r e hcv hf
      obtain ⟨t2, k1, k2⟩ := cg_exit_far P' B' D eps hP'.shess hP'.delta k (rmv Q z) (rmv Q r) (rmv Q e) (by rw [hce]; exact hcv) (by rw [hzp, rot_norm hQ]; exact hf)
      rw [hP.shess, hP.sg, hP.delta, ht, lit_def, fin_mul, Rat.cast_one, mul_one] at h2
      rw [hP'.shess, hP'.sg, hP'.delta, ht', lit_def, fin_mul, Rat.cast_one, mul_one] at k2
      refine Or.inr ⟨_, _, z, t • e, h1, k1, rfl, ?_, rfl, ?_⟩
      · rw [h2]; exact subDot_one e t
      · rw [k2, rmv_smul]; exact subDot_one _ t
    have hac : rdot r r / rdot e (rmv B e) * rdot e (rmv B e) = rdot r r := by field_simp
    rcases lt_or_ge (rnorm (r + (rdot r r / rdot e (rmv B e)) • rmv B e)) eps with hrp | hrp
    · have k1 := cg_conv P' B' D eps hP'.shess hP'.delta k (rmv Q z) (rmv Q r) (rmv Q e) (by rw [hce]; exact hcv) (by rw [hzp, rot_norm hQ]; exact hf) (by rw [hrp', rot_norm hQ]; exact hrp)
      refine Or.inr ⟨_, _, _, _, cg_conv P B D eps hP.shess hP.delta k z r e hcv hf hrp, k1, rfl, rfl, ?_, ?_⟩
      · show ofV _ = _
        rw [hzp, rot_norm hQ, ← rmv_smul, ortho_rdot hQ, ← rmv_smul, ← rmv_sub]
      · show ofV _ = _
        rw [hzp, rot_norm hQ, ← rmv_smul, ortho_rdot hQ, ← rmv_smul]
    · have k1 := cg_step P' B' D eps hP'.shess hP'.delta k (rmv Q z) (rmv Q r) (rmv Q e) (rot_ne hQ hr0) (by rw [hce]; exact hcv) (by rw [hzp, rot_norm hQ]; exact hf)
        (by rw [hrp', rot_norm hQ]; exact hrp)
      rw [cg_step P B D eps hP.shess hP.delta k z r e hr0 hcv hf hrp, k1]
      simp only
      rw [hrp', hzp, ortho_rdot hQ, ortho_rdot hQ]
      set a := rdot r r / rdot e (rmv B e) with hadef
      have hrp0 : r + a • rmv B e ≠ 0 := by
        intro h0
        rw [h0, rnorm_eq_zero.mpr rfl] at hrp
        linarith
      have hrd : rdot (r + a • rmv B e) e = 0 := by
        rw [add_rdot, smul_rdot, hre, rdot_comm (rmv B e) e, hac]; ring
      rw [← rmv_neg, ← rmv_smul Q (rdot (r + a • rmv B e) (r + a • rmv B e) / rdot r r) e, ← rmv_add]
      exact ih _ _ _ hf (by rw [rmv_add, rmv_smul, hr]; abel) (by rw [rdot_add, rdot_neg, rdot_smul, hrd]; ring) hrp0

theorem rot_steihaug (hS : Sym B) (hD : 0 < D) (hg : g ≠ 0) (fuel : ℕ) :
    (stepSteihaug fuel P = .error .diverges ∧ stepSteihaug fuel P' = .error .diverges) ∨
    ∃ r r' p, stepSteihaug fuel P = .ok r ∧ stepSteihaug fuel P' = .ok r' ∧ Proposes1 r x g B p ∧ Proposes1 r' (rmv Q x) (rmv Q g) B' (rmv Q p) := by
  obtain ⟨c, hc0, hc1, hc2, hc3⟩ := steihaug_eps g
  have hgp := rnorm_pos hg
  have hcp := hc2 hgp
  have hz : rnorm (0 : Fin n → ℝ) = 0 := rnorm_eq_zero.mpr rfl
  have hn' : norm (ofV (rmv Q g)) = norm (ofV g) := by rw [norm_ofV, norm_ofV, rot_norm hQ]
  have hlt : lt (norm (ofV g)) (fin (c * rnorm g)) = false := by
    rw [norm_ofV, fin_lt, decide_eq_false_iff_not]
    nlinarith
  have main := rot_cg hQ hP hP' hc hS hD (c * rnorm g) (mul_pos hcp hgp) fuel 0 g (-g) (by rw [hz]; exact hD) (by rw [rmv_zero, add_zero]) (rdot_neg _ _) hg
  rw [rmv_zero, rmv_neg] at main
  have fin1 : ∀ (P : Prob Num n) (x g : Fin n → ℝ) (B : Fin n → Fin n → ℝ) (th : ℝ), RealProb P x 1 g B D th → NoBounds P.lb P.ub → ∀ (o : CGOut Num n) (q p : Fin n → ℝ),
      o.ss0 = ofV q → o.ss = ofV p → Proposes1 { (({ Step.init P .cgs o.subspace with sc := o.sc, ss := o.ss, ss0 := o.ss0, s := sdot P.scaling (vadd o.ss o.ss0) } : Step Num n).stepBack P) with
        qpval := quadraticForm P.shess P.sg (vadd (({ Step.init P .cgs o.subspace with sc := o.sc, ss := o.ss, ss0 := o.ss0, s := sdot P.scaling (vadd o.ss o.ss0) } : Step Num n).stepBack P).ss
          (({ Step.init P .cgs o.subspace with sc := o.sc, ss := o.ss, ss0 := o.ss0, s := sdot P.scaling (vadd o.ss o.ss0) } : Step Num n).stepBack P).ss0) } x g B (p + q) := by
    intro P x g B th hP hb o q p h1 h2
    set st1 : Step Num n := { Step.init P .cgs o.subspace with sc := o.sc, ss := o.ss, ss0 := o.ss0, s := sdot P.scaling (vadd o.ss o.ss0) } with hst1
    have hs1 : st1.s = ofV (p + q) := by
      show sdot P.scaling (vadd o.ss o.ss0) = _
      rw [h1, h2, vadd_ofV, hP.scaling]
      funext i
      rw [sdot_fin 1 _ i ((p + q) i) rfl]; simp
    obtain ⟨ha, hs⟩ := (stepBack_noBounds P hb th hP.theta hP.th0 st1).2 x (p + q) hP.x hs1
    have hss : (st1.stepBack P).ss = ofV p := by
      funext i
      show st1.ss i * (st1.stepBack P).alpha = _
      rw [ha, show st1.ss = ofV p from h2]; simp
    have hss0 : (st1.stepBack P).ss0 = ofV q := h1
    have hs0 : (st1.stepBack P).s0 = vzero := rfl
    refine ⟨?_, ?_, ?_⟩
    · simp only [hs, hs0, vzero_ofV, vadd_ofV, add_zero]
    · simp only [hss, hss0, vadd_ofV]
    · simp only [hss, hss0, vadd_ofV, hP.shess, hP.sg, quadraticForm_ofV]
  simp only [stepSteihaug]
  rw [hP.sg, hP'.sg, hn', hc3, hlt, vzero_ofV, vneg_ofV, vneg_ofV]
  simp only [Bool.false_eq_true, if_false]
  rcases main with ⟨m1, m2⟩ | ⟨o, o', q, p, m1, m2, h1, h2, h3, h4⟩
  · left; rw [m1, m2]; exact ⟨rfl, rfl⟩
  · right
    rw [m1, m2]
    have k1 := fin1 P x g B th hP hb o q p h1 h2
    have k2 := fin1 P' _ _ B' th' hP' hb' o' _ _ h3 h4
    rw [hP.sg] at k1
    rw [hP'.sg] at k2
    refine ⟨_, _, p + q, rfl, rfl, k1, ?_⟩
    rw [rmv_add]; exact k2

end

/-- the three solvers, on a problem without bounds -/
theorem rot_step {Q : Fin n → Fin n → ℝ} (hQ : OrthoCols Q) {I I' : TRIn Num n} {x g : Fin n → ℝ} {B B' : Fin n → Fin n → ℝ} {D : ℝ} (hI : PlainInput I x g B D)
    (hI' : PlainInput I' (rmv Q x) (rmv Q g) B' D) (hc : Conj Q B B') (hg : g ≠ 0) (O O' : Oracles Num) (dim : SubSpaceDim)
    (hX : dim = .steihaug ∨ (dim = .two ∨ dim = .full) ∧ PD B ∧ ExactRoutines O ∧ ExactRoutines O') (fuel : ℕ) (sb : StepBackStrategy) :
    (trustRegion O fuel dim sb I = .error .diverges ∧ trustRegion O' fuel dim sb I' = .error .diverges) ∨
    ∃ r r' p, trustRegion O fuel dim sb I = .ok r ∧ trustRegion O' fuel dim sb I' = .ok r' ∧ Proposes1 r x g B p ∧ Proposes1 r' (rmv Q x) (rmv Q g) B' (rmv Q p) := by
  obtain ⟨hb, th, h1, h2, h3, hP⟩ := hI.prob
  obtain ⟨hb', th', h1', h2', h3', hP'⟩ := hI'.prob
  have hn : 0 < n := by
    rcases Nat.eq_zero_or_pos n with h0 | h0
    · subst h0; exact absurd (funext fun i => i.elim0) hg
    · exact h0
  rw [C51_one_candidate _ _ _ _ _ hb th h1 h2, C51_one_candidate _ _ _ _ _ hb' th' h1' h2']
  rcases hX with rfl | ⟨rfl | rfl, hpd, hX, hX'⟩
  · exact rot_steihaug hQ hP hP' hb hb' hc hI.sym hI.positive hg fuel
  · exact Or.inr (rot_two hQ hP hP' hb hb' hc hI.sym hpd hI.positive hg O O' hX hX')
  · exact Or.inr (rot_full hQ hP hP' hb hb' hc hn hI.sym hpd hI.positive O O' hX hX')

end Fides
