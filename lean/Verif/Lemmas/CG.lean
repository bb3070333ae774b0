import Verif.Lemmas.Line
import Mathlib.LinearAlgebra.Dimension.StrongRankCondition
import Mathlib.LinearAlgebra.Dimension.Constructions

/-! Helper lemmas: the conjugate gradient loop of the Steihaug solver in exact arithmetic. -/

namespace Fides
open Num Spec
variable {n : ℕ}

section loop
variable (P : Prob Num n) (B : Fin n → Fin n → ℝ) (delta eps : ℝ) (hB : P.shess = ofM B) (hd : P.delta = fin delta)
variable (k : ℕ) (z r d : Fin n → ℝ)
include hB hd

/-- exit of the loop at nonpositive curvature -/
theorem cg_exit_curv (hc : rdot d (rmv B d) ≤ 0) : ∃ t, steihaugLoop P (fin eps) (k + 1) (ofV z) (ofV r) (ofV d) =
    .ok { subspace := [ofV d], sc := [t], ss := subDot [ofV d] [t], ss0 := ofV z } ∧
      t = boundarySolution1d P.shess P.sg (ofV d) (ofV z) P.delta * Fides.lit 1 := by
  refine ⟨_, ?_, rfl⟩
  rw [steihaugLoop]
  have : le (dot (ofV d) (mulVec P.shess (ofV d))) (Fides.lit 0 : Num) = true := by
    rw [hB, mulVec_ofM, dot_ofV]; simpa using hc
  simp only [this, Bool.true_or, if_true]

/-- exit of the loop at the trust-region boundary -/
theorem cg_exit_far (hc : 0 < rdot d (rmv B d)) (hfar : delta ≤ rnorm (z + (rdot r r / rdot d (rmv B d)) • d)) :
    ∃ t, steihaugLoop P (fin eps) (k + 1) (ofV z) (ofV r) (ofV d) =
    .ok { subspace := [ofV d], sc := [t], ss := subDot [ofV d] [t], ss0 := ofV z } ∧
      t = boundarySolution1d P.shess P.sg (ofV d) (ofV z) P.delta * Fides.lit 1 := by
  refine ⟨_, ?_, rfl⟩
  rw [steihaugLoop]
  have : le P.delta (norm (vadd (ofV z) (vsmul (dot (ofV r) (ofV r) / dot (ofV d) (mulVec P.shess (ofV d))) (ofV d)))) = true := by
    rw [hB, mulVec_ofM, dot_ofV, dot_ofV, fin_div _ _ hc.ne', vsmul_ofV, vadd_ofV, norm_ofV, hd]
    simpa using hfar
  simp only [this, Bool.or_true, if_true]

/-- exit of the loop at a small residual -/
theorem cg_conv (hc : 0 < rdot d (rmv B d)) (hnear : rnorm (z + (rdot r r / rdot d (rmv B d)) • d) < delta)
    (hr : rnorm (r + (rdot r r / rdot d (rmv B d)) • rmv B d) < eps) :
    steihaugLoop P (fin eps) (k + 1) (ofV z) (ofV r) (ofV d) =
    .ok { subspace := [ofV ((rnorm d)⁻¹ • d)], sc := [fin (rdot (z + (rdot r r / rdot d (rmv B d)) • d) ((rnorm d)⁻¹ • d))],
          ss := ofV (rdot (z + (rdot r r / rdot d (rmv B d)) • d) ((rnorm d)⁻¹ • d) • ((rnorm d)⁻¹ • d)),
          ss0 := ofV (z + (rdot r r / rdot d (rmv B d)) • d - rdot (z + (rdot r r / rdot d (rmv B d)) • d) ((rnorm d)⁻¹ • d) • ((rnorm d)⁻¹ • d)) } := by
  rw [steihaugLoop]
  simp only [hB, mulVec_ofM, dot_ofV, fin_div _ _ hc.ne', vsmul_ofV, vadd_ofV, norm_ofV, hd, lit_def, Rat.cast_zero, fin_le, fin_lt,
    fin_sqrt _ (rdot_self_nonneg _), normalize_ofV, Rat.cast_one, fin_mul, mul_one, subDot_one, vsub_ofV]
  rw [if_neg (by simp [hc, hnear]), if_pos (by simpa [rnorm] using hr)]

/-- one complete pass of the loop -/
theorem cg_step (hr2 : r ≠ 0) (hc : 0 < rdot d (rmv B d)) (hnear : rnorm (z + (rdot r r / rdot d (rmv B d)) • d) < delta)
    (hr : eps ≤ rnorm (r + (rdot r r / rdot d (rmv B d)) • rmv B d)) :
    steihaugLoop P (fin eps) (k + 1) (ofV z) (ofV r) (ofV d) =
      let rp := r + (rdot r r / rdot d (rmv B d)) • rmv B d
      steihaugLoop P (fin eps) k (ofV (z + (rdot r r / rdot d (rmv B d)) • d)) (ofV rp) (ofV (-rp + (rdot rp rp / rdot r r) • d)) := by
  rw [steihaugLoop]
  simp only [hB, mulVec_ofM, dot_ofV, fin_div _ _ hc.ne', fin_div _ _ (rdot_self_pos hr2).ne', vsmul_ofV, vadd_ofV, norm_ofV, hd, lit_def, Rat.cast_zero, fin_le, fin_lt,
    fin_sqrt _ (rdot_self_nonneg _), vneg_ofV]
  rw [if_neg (by simp [hc, hnear]), if_neg (by simpa [rnorm] using hr)]

end loop

/-- invariant of the loop after `k` passes with earlier directions `D 0, …, D (k-1)` -/
structure CGInv (B : Fin n → Fin n → ℝ) (k : ℕ) (D : ℕ → Fin n → ℝ) (r d : Fin n → ℝ) : Prop where
  res : r ≠ 0
  rd : rdot r d = -rdot r r
  orth : ∀ j < k, rdot r (D j) = 0
  conj : ∀ j < k, rdot d (rmv B (D j)) = 0
  curv : ∀ j < k, 0 < rdot (D j) (rmv B (D j))
  conjD : ∀ i < k, ∀ j < k, i ≠ j → rdot (D i) (rmv B (D j)) = 0
  spanR : ∀ w, (∀ j < k, rdot w (D j) = 0) → rdot w d = 0 → rdot w r = 0
  spanB : ∀ w, (∀ j < k, rdot w (D j) = 0) → rdot w d = 0 → ∀ j < k, rdot w (rmv B (D j)) = 0

theorem cgInv_start (B : Fin n → Fin n → ℝ) (g : Fin n → ℝ) (hg : g ≠ 0) : CGInv B 0 (fun _ => 0) g (-g) where
  res := hg
  rd := rdot_neg _ _
  orth := by intro j hj; omega
  conj := by intro j hj; omega
  curv := by intro j hj; omega
  conjD := by intro i hi; omega
  spanR := by
    intro w _ h
    rw [rdot_neg] at h; linarith
  spanB := by intro w _ _ j hj; omega

theorem cgInv_step (B : Fin n → Fin n → ℝ) (hs : Sym B) (k : ℕ) (D : ℕ → Fin n → ℝ) (r d : Fin n → ℝ) (h : CGInv B k D r d)
    (hc : 0 < rdot d (rmv B d)) (hr : r + (rdot r r / rdot d (rmv B d)) • rmv B d ≠ 0) :
    CGInv B (k + 1) (Function.update D k d) (r + (rdot r r / rdot d (rmv B d)) • rmv B d)
      (-(r + (rdot r r / rdot d (rmv B d)) • rmv B d) +
        (rdot (r + (rdot r r / rdot d (rmv B d)) • rmv B d) (r + (rdot r r / rdot d (rmv B d)) • rmv B d) / rdot r r) • d) := by
  set a := rdot r r / rdot d (rmv B d) with ha
  set rp := r + a • rmv B d with hrp
  set b := rdot rp rp / rdot r r with hb
  have hr2 : 0 < rdot r r := rdot_self_pos h.res
  have ha0 : 0 < a := div_pos hr2 hc
  have hac : a * rdot d (rmv B d) = rdot r r := by rw [ha]; field_simp
  have hU : ∀ j < k, Function.update D k d j = D j := fun j hj => Function.update_of_ne (by omega) _ _
  have hUk : Function.update D k d k = d := Function.update_self _ _ _
  have hrd : rdot rp d = 0 := by
    rw [hrp, add_rdot, smul_rdot, h.rd, rdot_comm (rmv B d) d, hac]; ring
  have hrD : ∀ j < k, rdot rp (D j) = 0 := by
    intro j hj
    rw [hrp, add_rdot, smul_rdot, h.orth j hj, ← Sym.rdot_rmv hs, h.conj j hj]; ring
  have hrr : rdot rp r = 0 := h.spanR rp hrD hrd
  have hsplit : ∀ j, j < k + 1 → j < k ∨ j = k := fun j hj => by omega
  have hrB : rdot rp (rmv B d) = rdot rp rp / a := by
    have : rdot rp rp = rdot rp r + a * rdot rp (rmv B d) := by
      conv_lhs => rw [hrp, rdot_add, ← hrp, rdot_smul]
    rw [this, hrr]; field_simp; ring
  have hwr : ∀ w, (∀ j < k + 1, rdot w (Function.update D k d j) = 0) → rdot w (-rp + b • d) = 0 → rdot w rp = 0 := by
    intro w hw hwd
    have := hw k (by omega)
    rw [hUk] at this
    rw [rdot_add, rdot_neg, rdot_smul, this] at hwd; linarith
  refine ⟨hr, ?_, ?_, ?_, ?_, ?_, ?_, ?_⟩
  · rw [rdot_add, rdot_neg, rdot_smul, hrd]; ring
  · intro j hj
    rcases hsplit j hj with hj | rfl
    · rw [hU j hj]; exact hrD j hj
    · rw [hUk]; exact hrd
  · intro j hj
    rcases hsplit j hj with hj | rfl
    · rw [hU j hj, add_rdot, neg_rdot, smul_rdot, h.conj j hj, h.spanB rp hrD hrd j hj]; ring
    · rw [hUk, add_rdot, neg_rdot, smul_rdot, hrB, hb]
      have : rdot rp rp / a = rdot rp rp / rdot r r * rdot d (rmv B d) := by
        rw [ha]; field_simp
      rw [this]; ring
  · intro j hj
    rcases hsplit j hj with hj | rfl
    · rw [hU j hj]; exact h.curv j hj
    · rw [hUk]; exact hc
  · intro i hi j hj hij
    rcases hsplit i hi with hi | rfl <;> rcases hsplit j hj with hj | rfl
    · rw [hU i hi, hU j hj]; exact h.conjD i hi j hj hij
    · rw [hU i hi, hUk, Sym.rdot_rmv hs, rdot_comm]; exact h.conj i hi
    · rw [hU j hj, hUk]; exact h.conj j hj
    · exact absurd rfl hij
  · exact hwr
  · intro w hw hwd j hj
    have hwD : ∀ j < k, rdot w (D j) = 0 := fun j hj => by
      have := hw j (by omega); rwa [hU j hj] at this
    have hwd' : rdot w d = 0 := by have := hw k (by omega); rwa [hUk] at this
    rcases hsplit j hj with hj | rfl
    · rw [hU j hj]; exact h.spanB w hwD hwd' j hj
    · rw [hUk]
      have h1 := hwr w hw hwd
      rw [hrp, rdot_add, rdot_smul, h.spanR w hwD hwd'] at h1
      have : a * rdot w (rmv B d) = 0 := by linarith
      rcases mul_eq_zero.mp this with h | h
      · exact absurd h ha0.ne'
      · exact h

/-- there are at most `n - 1` earlier directions when another one is available -/
theorem cgInv_bound (B : Fin n → Fin n → ℝ) (k : ℕ) (D : ℕ → Fin n → ℝ) (r d : Fin n → ℝ) (h : CGInv B k D r d) : k < n := by
  have hd0 : d ≠ 0 := by
    intro hd
    have := h.rd
    rw [hd, rdot_zero] at this
    have := rdot_self_pos h.res
    linarith
  let V : Fin (k + 1) → (Fin n → ℝ) := fun j => if j.val < k then D j.val else d
  have hV : LinearIndependent ℝ V := by
    rw [Fintype.linearIndependent_iff]
    intro c hc
    have hcast : ∀ i (hi : i < k), c ⟨i, by omega⟩ = 0 := by
      intro i hi
      have h1 : rdot (∑ j, c j • V j) (rmv B (D i)) = 0 := by rw [hc, zero_rdot]
      rw [rdot_comm, rdot_sum_right, Finset.sum_eq_single ⟨i, by omega⟩] at h1
      · rw [rdot_smul, rdot_comm] at h1
        have : V ⟨i, by omega⟩ = D i := by simp [V, hi]
        rw [this] at h1
        rcases mul_eq_zero.mp h1 with h1 | h1
        · exact h1
        · exact absurd h1 (h.curv i hi).ne'
      · intro j _ hj
        rw [rdot_smul, rdot_comm]
        by_cases hjk : j.val < k
        · have : V j = D j.val := by simp [V, hjk]
          rw [this, h.conjD j.val hjk i hi (fun he => hj (Fin.ext he)), mul_zero]
        · have : V j = d := by simp [V, hjk]
          rw [this, h.conj i hi, mul_zero]
      · simp
    have hlast : c (Fin.last k) = 0 := by
      rw [Finset.sum_eq_single (Fin.last k)] at hc
      · have : V (Fin.last k) = d := by simp [V]
        rw [this] at hc
        exact (smul_eq_zero.mp hc).resolve_right hd0
      · intro j _ hj
        have hjk : j.val < k := by
          rcases Nat.lt_or_ge j.val k with h | h
          · exact h
          · exact absurd (Fin.ext (by simp; omega)) hj
        have := hcast j.val hjk
        rw [show (⟨j.val, by omega⟩ : Fin (k + 1)) = j from rfl] at this
        rw [this, zero_smul]
      · simp
    intro i
    by_cases hi : i.val < k
    · exact hcast i.val hi
    · have : i = Fin.last k := Fin.ext (by simp; omega)
      rw [this]; exact hlast
  have := hV.fintype_card_le_finrank
  simp at this
  omega

/-- from any point of the loop it ends within the passes left -/
theorem cg_terminates (P : Prob Num n) (B : Fin n → Fin n → ℝ) (delta eps : ℝ) (hB : P.shess = ofM B) (hd : P.delta = fin delta)
    (hs : Sym B) (he : 0 < eps) (m k : ℕ) (hm : n ≤ m + k) (D : ℕ → Fin n → ℝ) (z r d : Fin n → ℝ) (h : CGInv B k D r d) :
    ∃ o, steihaugLoop P (fin eps) m (ofV z) (ofV r) (ofV d) = .ok o := by
  induction m generalizing k D z r d with
  | zero => have := cgInv_bound B k D r d h; omega
  | succ m ih =>
    rcases le_or_gt (rdot d (rmv B d)) 0 with hc | hc
    · obtain ⟨t, ht, _⟩ := cg_exit_curv P B delta eps hB hd m z r d hc
      exact ⟨_, ht⟩
    rcases le_or_gt delta (rnorm (z + (rdot r r / rdot d (rmv B d)) • d)) with hf | hf
    · obtain ⟨t, ht, _⟩ := cg_exit_far P B delta eps hB hd m z r d hc hf
      exact ⟨_, ht⟩
    rcases lt_or_ge (rnorm (r + (rdot r r / rdot d (rmv B d)) • rmv B d)) eps with hr | hr
    · exact ⟨_, cg_conv P B delta eps hB hd m z r d hc hf hr⟩
    · rw [cg_step P B delta eps hB hd m z r d h.res hc hf hr]
      refine ih (k + 1) (by omega) _ _ _ _ (cgInv_step B hs k D r d h hc ?_)
      intro h0
      rw [h0, rnorm_eq_zero.mpr rfl] at hr
      linarith

end Fides
