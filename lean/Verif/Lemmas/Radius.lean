import Verif.Lemmas.FiniteStep
import Verif.Props.Subproblem

/-!
# Helper lemmas: lengths of subproblem solutions
-/

set_option linter.unusedSectionVars false

namespace Fides
open Num Spec
variable {n : ℕ}

theorem boundary_radius (B : Fin n → Fin n → ℝ) (g s s0 : Fin n → ℝ) (delta t : ℝ) (hs : s ≠ 0)
    (h : boundarySolution1d (ofM B) (ofV g) (ofV s) (ofV s0) (fin delta) = fin t) :
    rdot (s0 + t • s) (s0 + t • s) = delta * delta := by
  simp only [boundarySolution1d, dot_ofV, lit_def, fin_mul, fin_sub] at h
  rw [fin_sqrt_def] at h
  have ha := rdot_self_pos hs
  have e : ∀ b : ℝ, FloatOps.copysign (nan : Num) (fin b) = nan := fun b => by
    show (if _ then _ else _) = _
    split <;> rfl
  rw [rnorm_line]
  have hmem := fun (q : Num → Num) (a b : Num) => argminGo_mem q a [b]
  split at h
  · rw [e] at h
    have := hmem (fun t => quadraticForm (ofM B) (ofV g) (vadd (ofV s0) (vsmul t (ofV s)))) nan nan
    simp only [add_nan, neg_nan, nan_div, div_nan] at h
    rw [h] at this
    simp at this
  · rename_i hd
    rw [not_lt] at hd
    rw [fin_copysign] at h
    set b := ((2 : ℚ) : ℝ) * rdot s0 s with hb
    set c := rdot s0 s0 - delta * delta with hc
    set a := rdot s s with ha'
    set D := b * b - ((4 : ℚ) : ℝ) * a * c with hD
    have hsplit : (if b < 0 then fin (-|Real.sqrt D|) else fin |Real.sqrt D|) = fin (csgn b * Real.sqrt D) := by
      rw [abs_of_nonneg (Real.sqrt_nonneg D)]
      unfold csgn
      split <;> simp
    rw [hsplit, fin_add] at h
    set aux := b + csgn b * Real.sqrt D with haux
    have hsq : (aux - b) * (aux - b) = D := by
      rw [haux]
      have h1 := csgn_sq b
      have h2 := Real.mul_self_sqrt hd
      calc _ = csgn b * csgn b * (Real.sqrt D * Real.sqrt D) := by ring
        _ = D := by rw [h1, h2, one_mul]
    have hDe : D = b * b - 4 * a * c := by rw [hD]; norm_num
    have h2a : ((2 : ℚ) : ℝ) * a ≠ 0 := by norm_num; exact ha.ne'
    have h2 : ((2 : ℚ) : ℝ) = 2 := by norm_num
    have hb' : b = 2 * rdot s0 s := by rw [hb, h2]
    have key : a * (t * t) + b * t + c = 0 → rdot s0 s0 + t * (2 * rdot s0 s) + t * t * a = delta * delta := by
      intro hk; rw [hb', hc] at hk; linarith
    have := hmem (fun t => quadraticForm (ofM B) (ofV g) (vadd (ofV s0) (vsmul t (ofV s)))) (-(fin aux) / fin (((2 : ℚ) : ℝ) * a)) (fin (((-2 : ℚ) : ℝ) * c) / fin aux)
    rw [h] at this
    have hroot : a * (t * t) + b * t + c = 0 := by
      simp only [List.mem_cons, List.not_mem_nil, or_false] at this
      rcases this with ht | ht
      · rw [fin_neg, fin_div _ _ h2a, fin_inj, h2] at ht
        have h3 : 2 * a * t = -aux := by rw [ht]; field_simp
        have h4 : 4 * a * (a * (t * t) + b * t + c) = 0 := by
          have : (2 * a * t + b) * (2 * a * t + b) = D := by rw [h3, ← hsq]; ring
          rw [hDe] at this
          linarith
        have h5 : 4 * a ≠ 0 := by positivity
        exact (mul_eq_zero.mp h4).resolve_left h5
      · rw [fin_div_def] at ht
        split at ht
        · exfalso
          unfold infSign at ht
          split at ht
          · cases ht
          · split at ht <;> cases ht
        · rename_i hne
          rw [fin_inj] at ht
          have h3 : t * aux = -2 * c := by rw [ht]; push_cast; field_simp
          have h4 : aux * aux * (a * (t * t) + b * t + c) = 0 := by
            have e1 : aux * aux - 2 * b * aux + 4 * a * c = 0 := by
              have : aux * aux - 2 * b * aux + b * b = b * b - 4 * a * c := by rw [← hDe, ← hsq]; ring
              linarith
            calc aux * aux * (a * (t * t) + b * t + c) = a * (t * aux) * (t * aux) + b * aux * (t * aux) + c * (aux * aux) := by ring
              _ = c * (aux * aux - 2 * b * aux + 4 * a * c) := by rw [h3]; ring
              _ = 0 := by rw [e1, mul_zero]
          exact (mul_eq_zero.mp h4).resolve_left (mul_ne_zero hne hne)
    have := key hroot
    linarith

/-- wherever the 1-D problem starts, a finite solution does not leave the ball of radius `delta` (or of the start) -/
theorem solve1d_radius (B : Fin n → Fin n → ℝ) (g s s0 : Fin n → ℝ) (delta t : ℝ) (hd : 0 ≤ delta)
    (h : solve1d (ofM B) (ofV g) (ofV s) (fin delta) (ofV s0) = fin t) : rnorm (s0 + t • s) ≤ max delta (rnorm s0) := by
  rw [solve1d] at h
  split at h
  · rename_i h0
    simp only [lit_def, Rat.cast_zero, fin_feq, decide_eq_true_eq] at h0
    rw [lit_def, fin_mul, fin_inj, h0, zero_mul] at h
    rw [← h, zero_smul, add_zero]; exact le_max_right _ _
  split at h
  · rename_i hz
    simp only [lit_def, Rat.cast_zero, fin_inj] at h
    rw [← h, zero_smul, add_zero]; exact le_max_right _ _
  rename_i hz
  have hs : s ≠ 0 := by
    intro h0
    apply hz
    rw [decide_eq_true_eq]
    intro i; rw [h0]; simp
  simp only at h
  split at h
  · rename_i hc
    simp only [Bool.and_eq_true, mulVec_ofM, dot_ofV, lit_def, fin_mul, fin_lt, decide_eq_true_eq, vadd_ofV, fin_neg] at h hc
    have h2a : ((2 : ℚ) : ℝ) * (((1 / 2 : ℚ) : ℝ) * rdot (rmv B s) s) ≠ 0 := by
      have := hc.1
      push_cast at this ⊢
      have h3 : (0 : ℝ) < 2 * (1 / 2 * rdot (rmv B s) s) := by linarith
      exact h3.ne'
    rw [fin_div _ _ h2a] at h hc
    rw [fin_mul, fin_inj] at h
    rw [vsmul_ofV, vadd_ofV, norm_ofV, fin_le, decide_eq_true_eq] at hc
    have ht : t = -rdot s (rmv B s0 + g) / (((2 : ℚ) : ℝ) * (((1 / 2 : ℚ) : ℝ) * rdot (rmv B s) s)) := by
      rw [← h]; push_cast; ring
    rw [← ht, add_comm] at hc
    exact hc.2.trans (le_max_left _ _)
  · obtain ⟨a, b, h1, h2, h3⟩ := mul_fin_iff _ _ _ h
    simp only [lit_def, Rat.cast_one, fin_inj] at h2
    rw [← h2, mul_one] at h3
    subst h3
    have := boundary_radius B g s s0 delta _ hs h1
    refine le_trans (le_of_eq ?_) (le_max_left _ _)
    rw [rnorm, this, Real.sqrt_mul_self hd]

/-! ### combinations of orthogonal columns -/

/-- `Σ t_k c_k` -/
def comb : List (Fin n → ℝ) → List ℝ → (Fin n → ℝ)
  | c :: L, t :: ts => t • c + comb L ts
  | _, _ => 0

theorem subDot_comb (L : List (Fin n → ℝ)) (ts : List ℝ) : subDot (L.map ofV) (ts.map fin) = ofV (comb L ts) := by
  funext i
  simp only [subDot]
  induction L generalizing ts with
  | nil => simp [comb, sum_nil]
  | cons c L ih =>
    cases ts with
    | nil => simp [comb, sum_nil]
    | cons t ts =>
      simp only [List.map_cons, List.zipWith_cons_cons, sum_cons, comb, ih]
      simp only [ofV_apply, fin_mul, fin_add, Pi.add_apply, Pi.smul_apply, smul_eq_mul, mul_comm]

theorem rdot_comb_zero (v : Fin n → ℝ) (L : List (Fin n → ℝ)) (ts : List ℝ) (h : ∀ c ∈ L, rdot v c = 0) : rdot v (comb L ts) = 0 := by
  induction L generalizing ts with
  | nil => simp [comb, rdot_zero]
  | cons c L ih =>
    cases ts with
    | nil => simp [comb, rdot_zero]
    | cons t ts =>
      rw [comb, rdot_add, rdot_smul, h c (by simp), ih _ (fun c hc => h c (by simp [hc]))]
      simp

/-- pairwise orthogonal columns of length at most one -/
def OrthList (L : List (Fin n → ℝ)) : Prop := L.Pairwise (fun a b => rdot a b = 0) ∧ ∀ c ∈ L, rdot c c ≤ 1

theorem comb_le (L : List (Fin n → ℝ)) (ts : List ℝ) (h : OrthList L) : rdot (comb L ts) (comb L ts) ≤ (ts.map fun t => t * t).sum := by
  induction L generalizing ts with
  | nil =>
    simp only [comb, rdot_zero]
    apply List.sum_nonneg
    intro x hx
    obtain ⟨y, _, rfl⟩ := List.mem_map.mp hx
    exact mul_self_nonneg y
  | cons c L ih =>
    cases ts with
    | nil => simp [comb, rdot_zero]
    | cons t ts =>
      have hp := List.pairwise_cons.mp h.1
      have hz : rdot c (comb L ts) = 0 := rdot_comb_zero c L ts hp.1
      have := ih ts ⟨hp.2, fun c hc => h.2 c (by simp [hc])⟩
      have h1 := h.2 c (by simp)
      rw [comb, add_rdot, rdot_add, rdot_add, smul_rdot, smul_rdot, rdot_smul, hz, rdot_comm (comb L ts), smul_rdot, hz]
      simp only [List.map_cons, List.sum_cons]
      nlinarith [mul_self_nonneg t]

end Fides
