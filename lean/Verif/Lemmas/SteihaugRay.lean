import Verif.Lemmas.SteihaugDecrease
import Verif.Lemmas.CG

/-! Helper lemmas: on a positive definite model the step of the Steihaug solver minimizes the model along its own ray at the earliest, and its residual is below the
tolerance unless the boundary is near. -/

namespace Fides
open Num Spec
variable {n : ℕ}

section
variable {P : Prob Num n} {x d sg : Fin n → ℝ} {B : Fin n → Fin n → ℝ} {delta theta : ℝ}

/-- exit at the boundary ahead of positive curvature: the point ahead is chosen, and it comes not later than the minimum on the line -/
theorem boundary_exit_ahead (hP : RealProb P x d sg B delta theta) (hS : Sym B) (hdel : 0 < delta) (z r e : Fin n → ℝ)
    (hz : rnorm z < delta) (hr : r = sg + rmv B z) (hre : rdot r e = -rdot r r) (hr0 : r ≠ 0) (t : Num)
    (ht : t = boundarySolution1d P.shess P.sg (ofV e) (ofV z) P.delta * Fides.lit 1)
    (hc : 0 < rdot e (rmv B e)) (hfar : delta ≤ rnorm (z + (rdot r r / rdot e (rmv B e)) • e)) :
    ∃ a : ℝ, subDot [ofV e] [t] = ofV (a • e) ∧ 0 < a ∧ a * rdot e (rmv B e) ≤ rdot r r := by
  have hr2 := rdot_self_pos hr0
  have he : e ≠ 0 := by
    rintro rfl
    rw [rdot_zero] at hre; linarith
  have hzz : rdot z z < delta * delta := by
    rw [← rnorm_sq]; nlinarith [rnorm_nonneg z]
  obtain ⟨t1, t2, t', h1, h2, h3, h4, h5⟩ := boundarySolution1d_fin (B := B) sg e z delta he hzz.le (Or.inl hzz)
  rw [hP.shess, hP.sg, hP.delta, h1, lit_def, fin_mul, Rat.cast_one, mul_one] at ht
  refine ⟨t', by rw [ht, subDot_one], ?_⟩
  have hee := rdot_self_pos he
  have hneg : t1 * t2 < 0 := by
    have := h2 0
    rw [zero_smul, add_zero] at this
    by_contra hcon
    push Not at hcon
    nlinarith [mul_nonneg hee.le hcon]
  have hline : ∀ s : ℝ, quad B sg (z + s • e) = quad B sg z - s * rdot r r + s * s * rdot e (rmv B e) / 2 := by
    intro s
    rw [quad_line hS]
    have e1 : rdot e (rmv B z + sg) = -rdot r r := by rw [← hre, hr, rdot_comm, add_comm]
    rw [e1, rdot_comm (rmv B e) e]
    ring
  -- a root ahead comes before the minimum on the line, and is better than a root behind
  have key : ∀ a b : ℝ, 0 < a → b < 0 → (∀ s, rdot (z + s • e) (z + s • e) - delta * delta = rdot e e * ((s - a) * (s - b))) →
      a * rdot e (rmv B e) ≤ rdot r r ∧ quad B sg (z + a • e) < quad B sg (z + b • e) := by
    intro a b ha hb hq
    have hal : a ≤ rdot r r / rdot e (rmv B e) := by
      by_contra hcon; push Not at hcon
      have h6 := hq (rdot r r / rdot e (rmv B e))
      have h7 : delta * delta ≤ rdot (z + (rdot r r / rdot e (rmv B e)) • e) (z + (rdot r r / rdot e (rmv B e)) • e) := by
        rw [← rnorm_sq]; exact mul_self_le_mul_self hdel.le hfar
      have h8 : 0 < rdot r r / rdot e (rmv B e) := div_pos hr2 hc
      have : 0 < rdot e e * ((a - rdot r r / rdot e (rmv B e)) * (rdot r r / rdot e (rmv B e) - b)) := by apply mul_pos hee; apply mul_pos <;> linarith
      nlinarith
    rw [le_div_iff₀ hc] at hal
    refine ⟨hal, ?_⟩
    rw [hline, hline]
    nlinarith [mul_nonneg ha.le (sub_nonneg.mpr hal), mul_pos ha hr2, mul_pos (neg_pos.mpr hb) hr2, mul_pos (mul_self_pos.mpr hb.ne) hc]
  rcases lt_trichotomy t1 0 with h | h | h
  · have h' : 0 < t2 := by by_contra hcon; push Not at hcon; nlinarith
    obtain ⟨k1, k2⟩ := key t2 t1 h' h (fun s => by rw [h2 s]; ring)
    rcases h3 with rfl | rfl
    · linarith
    · exact ⟨h', k1⟩
  · rw [h] at hneg; linarith
  · have h' : t2 < 0 := by by_contra hcon; push Not at hcon; nlinarith
    obtain ⟨k1, k2⟩ := key t1 t2 h h' h2
    rcases h3 with rfl | rfl
    · exact ⟨h, k1⟩
    · linarith

/-- the output of the loop -/
theorem steihaugLoop_ray (hP : RealProb P x d sg B delta theta) (hS : Sym B) (hdel : 0 < delta) {m : ℝ} (hm : 0 < m) (hlow : ∀ v, m * rdot v v ≤ rdot v (rmv B v))
    (eps : ℝ) (he : 0 < eps) (k : ℕ) (z r e : Fin n → ℝ) (hz : rnorm z < delta) (hr : r = sg + rmv B z) (j : ℕ) (D : ℕ → Fin n → ℝ) (hI : CGInv B j D r e)
    (hspan : ∀ w, (∀ i < j, rdot w (D i) = 0) → rdot w z = 0) (o : CGOut Num n) (h : steihaugLoop P (fin eps) k (ofV z) (ofV r) (ofV e) = .ok o) :
    ∃ q p, o.ss0 = ofV q ∧ o.ss = ofV p ∧ rdot (q + p) (sg + rmv B (q + p)) ≤ 0 ∧ (rnorm sg < m * delta → rnorm (sg + rmv B (q + p)) < eps) := by
  induction k generalizing z r e j D with
  | zero => cases h
  | succ k ih =>
    have hr0 := hI.res
    have hr2 := rdot_self_pos hr0
    have hre := hI.rd
    have he0 : e ≠ 0 := by
      rintro rfl
      rw [rdot_zero] at hre; linarith
    have hc : 0 < rdot e (rmv B e) := lt_of_lt_of_le (mul_pos hm (rdot_self_pos he0)) (hlow e)
    have hrz : rdot r z = 0 := hspan r hI.orth
    have hez : rdot (rmv B e) z = 0 := hspan _ (fun i hi => by rw [← Sym.rdot_rmv hS]; exact hI.conj i hi)
    -- the ray condition on the line
    have hray : ∀ a : ℝ, rdot (z + a • e) (sg + rmv B (z + a • e)) = -a * rdot r r + a * a * rdot e (rmv B e) := by
      intro a
      have e1 : sg + rmv B (z + a • e) = r + a • rmv B e := by rw [rmv_add, rmv_smul, hr]; abel
      rw [e1, add_rdot, smul_rdot, rdot_add, rdot_add, rdot_smul, rdot_smul, rdot_comm z r, hrz, rdot_comm z, hez, rdot_comm e r, hre]
      ring
    rcases le_or_gt delta (rnorm (z + (rdot r r / rdot e (rmv B e)) • e)) with hf | hf
    · obtain ⟨t, h1, h2⟩ := cg_exit_far P B delta eps hP.shess hP.delta k z r e hc hf
      rw [h1] at h; cases h
      obtain ⟨a, hp, ha, hal⟩ := boundary_exit_ahead hP hS hdel z r e hz hr hre hr0 t h2 hc hf
      refine ⟨z, a • e, rfl, hp, ?_, fun hs => ?_⟩
      · rw [hray]; nlinarith
      · exfalso
        set y := z + (rdot r r / rdot e (rmv B e)) • e with hy
        have h3 : rdot y (sg + rmv B y) = 0 := by
          rw [hy, hray]; field_simp; ring
        rw [rdot_add] at h3
        have h4 := hlow y
        rw [← rnorm_sq] at h4
        have h5 := cauchy_schwarz (-y) sg
        rw [neg_rdot, pyrnorm_neg] at h5
        have h6 : rnorm y * (m * rnorm y) ≤ rnorm y * rnorm sg := by linarith
        have h7 : 0 < rnorm y := hdel.trans_le hf
        have h8 := le_of_mul_le_mul_left h6 h7
        have h9 := mul_le_mul_of_nonneg_left hf hm.le
        linarith
    have ha : 0 < rdot r r / rdot e (rmv B e) := div_pos hr2 hc
    rcases lt_or_ge (rnorm (r + (rdot r r / rdot e (rmv B e)) • rmv B e)) eps with hrp | hrp
    · rw [cg_conv P B delta eps hP.shess hP.delta k z r e hc hf hrp] at h
      cases h
      refine ⟨_, _, rfl, rfl, ?_, fun _ => ?_⟩
      · rw [sub_add_cancel, hray]
        have : rdot r r / rdot e (rmv B e) * (rdot r r / rdot e (rmv B e)) * rdot e (rmv B e) = rdot r r / rdot e (rmv B e) * rdot r r := by field_simp
        linarith
      · rw [sub_add_cancel, rmv_add, rmv_smul, ← add_assoc, ← hr]
        exact hrp
    · rw [cg_step P B delta eps hP.shess hP.delta k z r e hr0 hc hf hrp] at h
      have hrp0 : r + (rdot r r / rdot e (rmv B e)) • rmv B e ≠ 0 := by
        intro h0
        rw [h0, rnorm_eq_zero.mpr rfl] at hrp
        linarith
      refine ih _ _ _ hf (by rw [rmv_add, rmv_smul, hr]; abel) (j + 1) _ (cgInv_step B hS j D r e hI hc hrp0) ?_ h
      intro w hw
      have h1 : rdot w z = 0 := hspan w (fun i hi => by
        have := hw i (by omega)
        rwa [Function.update_of_ne (by omega)] at this)
      have h2 : rdot w e = 0 := by
        have := hw j (by omega)
        rwa [Function.update_self] at this
      rw [rdot_add, rdot_smul, h1, h2]; ring

/-- the tolerance of the loop -/
theorem steihaug_tol (g : Fin n → ℝ) :
    pyMin (Fides.lit (1 / 2)) (FloatOps.sqrt (norm (ofV g))) * norm (ofV g) = fin (min (1 / 2) (Real.sqrt (rnorm g)) * rnorm g) := by
  rw [norm_ofV, fin_sqrt _ (rnorm_nonneg g)]
  simp only [pyMin, lit_def, fin_lt, decide_eq_true_eq]
  split
  · rename_i h
    push_cast at h
    rw [fin_mul, min_eq_right h.le]
  · rename_i h
    push_cast at h ⊢
    rw [fin_mul, min_eq_left (not_lt.mp h)]

/-- the step of the Steihaug solver on an unbounded problem with a positive definite model -/
theorem stepSteihaug_inexact (hP : RealProb P x 1 sg B delta theta)
    (hb : NoBounds P.lb P.ub) (hS : Sym B) (hD : 0 < delta) {m : ℝ} (hm : 0 < m) (hlow : ∀ v, m * rdot v v ≤ rdot v (rmv B v)) (hg : sg ≠ 0)
    (fuel : ℕ) (st : Step Num n) (h : stepSteihaug fuel P = .ok st) (p : Fin n → ℝ) (hp : vadd st.ss st.ss0 = ofV p) :
    rdot p (sg + rmv B p) ≤ 0 ∧ (rnorm sg < m * delta → rnorm (sg + rmv B p) < min (1 / 2) (Real.sqrt (rnorm sg)) * rnorm sg) := by
  simp only [stepSteihaug] at h
  split at h
  · cases h
  · split at h
    · cases h
    · rename_i o ho
      cases h
      rw [hP.sg, steihaug_tol, vzero_ofV, vneg_ofV] at ho
      have hgp := rnorm_pos hg
      have heps : 0 < min (1 / 2) (Real.sqrt (rnorm sg)) * rnorm sg := mul_pos (lt_min (by norm_num) (Real.sqrt_pos.mpr hgp)) hgp
      have hz : rnorm (0 : Fin n → ℝ) = 0 := rnorm_eq_zero.mpr rfl
      obtain ⟨q, p', h1, h2, h3, h4⟩ := steihaugLoop_ray hP hS hD hm hlow _ heps fuel 0 sg (-sg) (by rw [hz]; exact hD) (by rw [rmv_zero, add_zero]) 0 _ (cgInv_start B sg hg)
        (fun w _ => rdot_zero w) o ho
      set st1 : Step Num n := { Step.init P .cgs o.subspace with sc := o.sc, ss := o.ss, ss0 := o.ss0, s := sdot P.scaling (vadd o.ss o.ss0) } with hst1
      have hs1 : st1.s = ofV (p' + q) := by
        show sdot P.scaling (vadd o.ss o.ss0) = _
        rw [h1, h2, vadd_ofV, hP.scaling]
        funext i
        rw [sdot_fin 1 _ i ((p' + q) i) rfl]; simp
      obtain ⟨ha, hs⟩ := (stepBack_noBounds P hb theta hP.theta hP.th0 st1).2 x (p' + q) hP.x hs1
      have hss : (st1.stepBack P).ss = ofV p' := by
        funext i
        show st1.ss i * (st1.stepBack P).alpha = _
        rw [ha, show st1.ss = ofV p' from h2]; simp
      have hss0 : (st1.stepBack P).ss0 = ofV q := h1
      rw [hss, hss0, vadd_ofV, ofV_inj] at hp
      rw [← hp, add_comm p' q]
      exact ⟨h3, h4⟩

end

end Fides
