import Verif.Lemmas.ExactOracles
import Verif.Spec.Routines

/-! Exact routines exist: the contract `ExactRoutines` can be met. -/

namespace Fides
open Num Spec
variable {n : ℕ}

theorem mul_self_le' {a b : ℝ} (_ : 0 ≤ a) (hb : 0 ≤ b) (h : a * a ≤ b * b) : a ≤ b := by
  by_contra hcon
  push Not at hcon
  have := mul_self_lt_mul_self hb hcon
  linarith

/-- solution of minimal length of a least-squares problem with symmetric matrix -/
theorem exists_lstsq (B : Fin n → Fin n → ℝ) (hB : Sym B) (g : Fin n → ℝ) :
    ∃ z, (∀ y, rnorm (rmv B z - g) ≤ rnorm (rmv B y - g)) ∧ ∀ y, rnorm (rmv B y - g) ≤ rnorm (rmv B z - g) → rnorm z ≤ rnorm y := by
  obtain ⟨vals, U, hE⟩ := exists_isEig B hB
  set g' : Fin n → ℝ := fun i => rdot (fun l => U l i) g with hg'
  have hg : g = rmv U g' := (ortho_complete hE.1 g).symm
  set z' : Fin n → ℝ := fun i => if vals i = 0 then 0 else g' i / vals i with hz'
  have hres : ∀ c, rnorm (rmv B (rmv U c) - g) * rnorm (rmv B (rmv U c) - g) = ∑ i, (vals i * c i - g' i) * (vals i * c i - g' i) := by
    intro c
    rw [eig_apply hE, hg, ← rmv_sub, rnorm_sq, ortho_rdot hE.1]
    rfl
  have hnorm : ∀ c, rnorm (rmv U c) * rnorm (rmv U c) = ∑ i, c i * c i := by
    intro c
    rw [rnorm_sq, ortho_rdot hE.1]; rfl
  have hterm : ∀ (c : Fin n → ℝ) i, (vals i * z' i - g' i) * (vals i * z' i - g' i) ≤ (vals i * c i - g' i) * (vals i * c i - g' i) := by
    intro c i
    simp only [hz']
    by_cases h : vals i = 0
    · rw [if_pos h, h]; simp
    · rw [if_neg h]
      have : vals i * (g' i / vals i) - g' i = 0 := by field_simp; ring
      rw [this, mul_zero]
      exact mul_self_nonneg _
  refine ⟨rmv U z', ?_, ?_⟩
  · intro y
    rw [← ortho_complete hE.1 y]
    refine mul_self_le' (rnorm_nonneg _) (rnorm_nonneg _) ?_
    rw [hres, hres]
    exact Finset.sum_le_sum fun i _ => hterm (fun i => rdot (fun l => U l i) y) i
  · intro y hy
    rw [← ortho_complete hE.1 y] at hy ⊢
    set c : Fin n → ℝ := fun i => rdot (fun l => U l i) y with hc
    have h1 := mul_self_le_mul_self (rnorm_nonneg _) hy
    rw [hres, hres] at h1
    have h2 : ∀ i, (vals i * z' i - g' i) * (vals i * z' i - g' i) = (vals i * c i - g' i) * (vals i * c i - g' i) := by
      have := (Finset.sum_eq_sum_iff_of_le (s := Finset.univ) fun i _ => hterm c i).mp
        (le_antisymm (Finset.sum_le_sum fun i _ => hterm c i) h1)
      exact fun i => this i (Finset.mem_univ _)
    refine mul_self_le' (rnorm_nonneg _) (rnorm_nonneg _) ?_
    rw [hnorm, hnorm]
    refine Finset.sum_le_sum fun i _ => ?_
    by_cases h : vals i = 0
    · simp only [hz', if_pos h, mul_zero]; exact mul_self_nonneg _
    · have h3 := h2 i
      have e : vals i * z' i - g' i = 0 := by simp only [hz', if_neg h]; field_simp; ring
      rw [e, mul_zero] at h3
      have h4 : vals i * c i - g' i = 0 := mul_self_eq_zero.mp h3.symm
      have : z' i = c i := by
        have : vals i * z' i = vals i * c i := by linarith
        exact mul_left_cancel₀ h this
      rw [this]

open Classical in
/-- routines that meet the contract -/
noncomputable def exactRoutines : Oracles Num :=
  { exactOracles with
    lstsq := fun {k} b r => if h : ∃ (B : Fin k → Fin k → ℝ) (g z : Fin k → ℝ), b = ofM B ∧ r = ofV g ∧
        (∀ y, rnorm (rmv B z - g) ≤ rnorm (rmv B y - g)) ∧ ∀ y, rnorm (rmv B y - g) ≤ rnorm (rmv B z - g) → rnorm z ≤ rnorm y then
          .ok (ofV h.choose_spec.choose_spec.choose) else .error .valueError }

theorem ofM_inj {k m : ℕ} {A B : Fin k → Fin m → ℝ} (h : ofM A = ofM B) : A = B := by
  funext i j
  have := congrFun (congrFun h i) j
  simpa using this

theorem exactRoutines_ok : ExactRoutines exactRoutines where
  eig {k} B hB := by
    obtain ⟨vals, U, h⟩ := exists_isEig B hB
    have hex : ∃ (B' : Fin k → Fin k → ℝ) (vals : Fin k → ℝ) (U : Fin k → Fin k → ℝ), ofM B = ofM B' ∧ IsEig B' vals U := ⟨B, vals, U, rfl, h⟩
    refine ⟨hex.choose_spec.choose, hex.choose_spec.choose_spec.choose, ?_, ?_⟩
    · simp only [exactRoutines, exactOracles]
      rw [dif_pos hex]
    · have key : ∀ (B' : Fin k → Fin k → ℝ) vals U, ofM B = ofM B' ∧ IsEig B' vals U → IsEig B vals U := by
        rintro B' vals U ⟨h1, h2⟩
        rw [ofM_inj h1]; exact h2
      exact key _ _ _ hex.choose_spec.choose_spec.choose_spec
  npEig {k} B hB := by
    obtain ⟨vals, U, h⟩ := exists_isEig B hB
    have hex : ∃ (B' : Fin k → Fin k → ℝ) (vals : Fin k → ℝ) (U : Fin k → Fin k → ℝ), ofM B = ofM B' ∧ IsEig B' vals U := ⟨B, vals, U, rfl, h⟩
    refine ⟨hex.choose_spec.choose, hex.choose_spec.choose_spec.choose, ?_, ?_⟩
    · simp only [exactRoutines, exactOracles]
      rw [dif_pos hex]
    · have key : ∀ (B' : Fin k → Fin k → ℝ) vals U, ofM B = ofM B' ∧ IsEig B' vals U → IsEig B vals U := by
        rintro B' vals U ⟨h1, h2⟩
        rw [ofM_inj h1]; exact h2
      exact key _ _ _ hex.choose_spec.choose_spec.choose_spec
  lstsq {k} B g hB := by
    obtain ⟨z, h1, h2⟩ := exists_lstsq B hB g
    have hex : ∃ (B' : Fin k → Fin k → ℝ) (g' z : Fin k → ℝ), ofM B = ofM B' ∧ ofV g = ofV g' ∧
        (∀ y, rnorm (rmv B' z - g') ≤ rnorm (rmv B' y - g')) ∧ ∀ y, rnorm (rmv B' y - g') ≤ rnorm (rmv B' z - g') → rnorm z ≤ rnorm y :=
      ⟨B, g, z, rfl, rfl, h1, h2⟩
    refine ⟨hex.choose_spec.choose_spec.choose, ?_, ?_⟩
    · simp only [exactRoutines]
      rw [dif_pos hex]
    · have key : ∀ (B' : Fin k → Fin k → ℝ) (g' z : Fin k → ℝ), (ofM B = ofM B' ∧ ofV g = ofV g' ∧
          (∀ y, rnorm (rmv B' z - g') ≤ rnorm (rmv B' y - g')) ∧ ∀ y, rnorm (rmv B' y - g') ≤ rnorm (rmv B' z - g') → rnorm z ≤ rnorm y) →
          (∀ y, rnorm (rmv B z - g) ≤ rnorm (rmv B y - g)) ∧ ∀ y, rnorm (rmv B y - g) ≤ rnorm (rmv B z - g) → rnorm z ≤ rnorm y := by
        rintro B' g' z ⟨h1, h2, h3⟩
        rw [ofV_inj] at h2
        rw [ofM_inj h1, h2]; exact h3
      exact key _ _ _ hex.choose_spec.choose_spec.choose_spec
  roots f x0 f' hq := exact_findsRoots f x0 f' hq

end Fides
