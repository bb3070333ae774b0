import Verif.Lemmas.SteihaugCauchy

/-! Helper lemmas: Steihaug's loop does at least as well as every point of its first search line in the ball. -/

namespace Fides
open Num Spec
variable {n : ℕ}

section
variable {P : Prob Num n} {x d sg : Fin n → ℝ} {B : Fin n → Fin n → ℝ} {delta theta : ℝ}

/-- exit at the boundary: no point of the ball on the search line is better -/
theorem boundary_exit_best (hP : RealProb P x d sg B delta theta) (hS : Sym B) (hdel : 0 < delta) (z r e : Fin n → ℝ)
    (hz : rnorm z < delta) (hr : r = sg + rmv B z) (hre : rdot r e = -rdot r r) (hr0 : r ≠ 0) (t : Num)
    (ht : t = boundarySolution1d P.shess P.sg (ofV e) (ofV z) P.delta * Fides.lit 1)
    (hc : rdot e (rmv B e) ≤ 0 ∨ 0 < rdot e (rmv B e) ∧ delta ≤ rnorm (z + (rdot r r / rdot e (rmv B e)) • e)) :
    ∃ p, subDot [ofV e] [t] = ofV p ∧ ∀ s : ℝ, rnorm (z + s • e) ≤ delta → quad B sg (z + p) ≤ quad B sg (z + s • e) := by
  have hr2 := rdot_self_pos hr0
  have he : e ≠ 0 := by
    rintro rfl
    rw [rdot_zero] at hre; linarith
  have hzz : rdot z z < delta * delta := by
    rw [← rnorm_sq]; nlinarith [rnorm_nonneg z]
  obtain ⟨t1, t2, t', h1, h2, h3, h4, h5⟩ := boundarySolution1d_fin (B := B) sg e z delta he hzz.le (Or.inl hzz)
  rw [hP.shess, hP.sg, hP.delta, h1, lit_def, fin_mul, Rat.cast_one, mul_one] at ht
  refine ⟨t' • e, by rw [ht, subDot_one], fun s hs => ?_⟩
  have hee := rdot_self_pos he
  have hq : ∀ u, (u = min t1 t2 ∨ u = max t1 t2) → quad B sg (z + t' • e) ≤ quad B sg (z + u • e) := by
    intro u hu
    rcases hu with rfl | rfl
    · rcases min_choice t1 t2 with h | h <;> rw [h] <;> assumption
    · rcases max_choice t1 t2 with h | h <;> rw [h] <;> assumption
  have hline : ∀ u, quad B sg (z + u • e) = quad B sg z - u * rdot r r + u * u * (rdot e (rmv B e) / 2) := by
    intro u
    rw [quad_line hS]
    have e1 : rdot e (rmv B z + sg) = -rdot r r := by rw [← hre, hr, rdot_comm, add_comm]
    rw [e1, rdot_comm (rmv B e) e]; ring
  have hlu : min t1 t2 ≤ s ∧ s ≤ max t1 t2 := by
    have h6 := h2 s
    have h7 : rdot (z + s • e) (z + s • e) ≤ delta * delta := (rnorm_le_iff hdel.le).mp hs
    have h8 : (s - t1) * (s - t2) ≤ 0 := by
      by_contra hcon
      push Not at hcon
      have := mul_pos hee hcon
      linarith
    rcases mul_nonpos_iff.mp h8 with ⟨p, q⟩ | ⟨p, q⟩
    · exact ⟨(min_le_left _ _).trans (by linarith), le_trans (by linarith) (le_max_right _ _)⟩
    · exact ⟨(min_le_right _ _).trans (by linarith), le_trans (by linarith) (le_max_left _ _)⟩
  -- the vertex of the parabola is not inside
  have hcase : rdot e (rmv B e) ≤ 0 ∨ 0 < rdot e (rmv B e) ∧ max t1 t2 * rdot e (rmv B e) ≤ rdot r r := by
    rcases hc with hc | ⟨hc, hfar⟩
    · exact Or.inl hc
    · refine Or.inr ⟨hc, ?_⟩
      set v := rdot r r / rdot e (rmv B e) with hv
      have hvp : 0 < v := div_pos hr2 hc
      have h6 := h2 v
      have h7 : delta * delta ≤ rdot (z + v • e) (z + v • e) := by
        rw [← rnorm_sq]; exact mul_self_le_mul_self hdel.le hfar
      have h0 := h2 0
      rw [zero_smul, add_zero, zero_sub, zero_sub, neg_mul_neg] at h0
      have hneg : t1 * t2 < 0 := by
        by_contra hcon
        push Not at hcon
        have := mul_nonneg hee.le hcon
        linarith
      have h8 : 0 ≤ (v - t1) * (v - t2) := by
        by_contra hcon
        push Not at hcon
        have := mul_neg_of_pos_of_neg hee hcon
        linarith
      have h9 : max t1 t2 ≤ v := by
        by_contra hcon
        push Not at hcon
        rcases lt_max_iff.mp hcon with h | h
        · have : t2 < 0 := by by_contra hc'; push Not at hc'; nlinarith
          nlinarith [mul_pos (show 0 < t1 - v by linarith) (show 0 < v - t2 by linarith)]
        · have : t1 < 0 := by by_contra hc'; push Not at hc'; nlinarith
          nlinarith [mul_pos (show 0 < t2 - v by linarith) (show 0 < v - t1 by linarith)]
      calc max t1 t2 * rdot e (rmv B e) ≤ v * rdot e (rmv B e) := mul_le_mul_of_nonneg_right h9 hc.le
        _ = rdot r r := by rw [hv]; field_simp
  rcases hcase with hcv | ⟨hcv, hout⟩
  · rcases parabola_endpoint (rdot e (rmv B e) / 2) (-rdot r r) _ _ s hlu.1 hlu.2 (Or.inl (by linarith)) with h | h
    · refine (hq _ (Or.inl rfl)).trans ?_
      rw [hline, hline]; nlinarith
    · refine (hq _ (Or.inr rfl)).trans ?_
      rw [hline, hline]; nlinarith
  · refine (hq _ (Or.inr rfl)).trans ?_
    rw [hline, hline]
    have h6 : 0 ≤ max t1 t2 - s := by linarith [hlu.2]
    have h7 : s * rdot e (rmv B e) ≤ rdot r r := le_trans (mul_le_mul_of_nonneg_right hlu.2 hcv.le) hout
    nlinarith [mul_nonneg h6 (show 0 ≤ 2 * rdot r r - (max t1 t2 + s) * rdot e (rmv B e) by nlinarith)]

/-- the result of the loop is at least as good as every point of the ball on the first search line -/
theorem steihaugLoop_best (hP : RealProb P x d sg B delta theta) (hS : Sym B) (hdel : 0 < delta) (eps : ℝ) (he : 0 < eps) (k : ℕ)
    (z r e : Fin n → ℝ) (hz : rnorm z < delta) (hr : r = sg + rmv B z) (hre : rdot r e = -rdot r r) (hr0 : r ≠ 0) (o : CGOut Num n)
    (h : steihaugLoop P (fin eps) k (ofV z) (ofV r) (ofV e) = .ok o) :
    ∃ q p, o.ss0 = ofV q ∧ o.ss = ofV p ∧ ∀ s : ℝ, rnorm (z + s • e) ≤ delta → quad B sg (q + p) ≤ quad B sg (z + s • e) := by
  cases k with
  | zero => cases h
  | succ k =>
    have hr2 := rdot_self_pos hr0
    rcases le_or_gt (rdot e (rmv B e)) 0 with hc | hc
    · obtain ⟨t, h1, h2⟩ := cg_exit_curv P B delta eps hP.shess hP.delta k z r e hc
      rw [h1] at h; cases h
      obtain ⟨p, hp, hq⟩ := boundary_exit_best hP hS hdel z r e hz hr hre hr0 t h2 (Or.inl hc)
      exact ⟨z, p, rfl, hp, hq⟩
    rcases le_or_gt delta (rnorm (z + (rdot r r / rdot e (rmv B e)) • e)) with hf | hf
    · obtain ⟨t, h1, h2⟩ := cg_exit_far P B delta eps hP.shess hP.delta k z r e hc hf
      rw [h1] at h; cases h
      obtain ⟨p, hp, hq⟩ := boundary_exit_best hP hS hdel z r e hz hr hre hr0 t h2 (Or.inr ⟨hc, hf⟩)
      exact ⟨z, p, rfl, hp, hq⟩
    have hac : rdot r r / rdot e (rmv B e) * rdot e (rmv B e) = rdot r r := by field_simp
    have hline : ∀ u, quad B sg (z + u • e) = quad B sg z - u * rdot r r + u * u * (rdot e (rmv B e) / 2) := by
      intro u
      rw [quad_line hS]
      have e1 : rdot e (rmv B z + sg) = -rdot r r := by rw [← hre, hr, rdot_comm, add_comm]
      rw [e1, rdot_comm (rmv B e) e]; ring
    have hq : ∀ s : ℝ, quad B sg (z + (rdot r r / rdot e (rmv B e)) • e) ≤ quad B sg (z + s • e) := by
      intro s
      rw [hline, hline]
      set a := rdot r r / rdot e (rmv B e)
      have h6 := mul_nonneg hc.le (mul_self_nonneg (s - a))
      rw [← hac]
      nlinarith
    rcases lt_or_ge (rnorm (r + (rdot r r / rdot e (rmv B e)) • rmv B e)) eps with hrp | hrp
    · rw [cg_conv P B delta eps hP.shess hP.delta k z r e hc hf hrp] at h
      cases h
      refine ⟨_, _, rfl, rfl, fun s _ => ?_⟩
      rw [sub_add_cancel]; exact hq s
    · rw [cg_step P B delta eps hP.shess hP.delta k z r e hr0 hc hf hrp] at h
      set a := rdot r r / rdot e (rmv B e) with hadef
      have hrp0 : r + a • rmv B e ≠ 0 := by
        intro h0
        rw [h0, rnorm_eq_zero.mpr rfl] at hrp
        linarith
      have hrd : rdot (r + a • rmv B e) e = 0 := by
        rw [add_rdot, smul_rdot, hre, rdot_comm (rmv B e) e, hac]; ring
      obtain ⟨q, p, h1, h2, b, hb, h3, _⟩ := steihaugLoop_model hP hS hdel eps he k _ _ _ hf (by rw [rmv_add, rmv_smul, hr]; abel)
        (by rw [rdot_add, rdot_neg, rdot_smul, hrd]; ring) hrp0 _ h
      refine ⟨q, p, h1, h2, fun s _ => le_trans ?_ (hq s)⟩
      have := mul_nonneg hb.le (rdot_self_nonneg (r + a • rmv B e))
      linarith

end

end Fides
