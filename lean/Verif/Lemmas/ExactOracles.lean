import Verif.Props.TrustBall
import Verif.Props.Loops
import Mathlib.Analysis.Matrix.Spectrum

/-!
# Exact external routines exist

The contracts assumed of the external routines (`FiniteOracles`, `ExactEig`, `FindsRoots`, `ExactRoots`, `TerminatingOracles`) are met at once by
routines that are total on symmetric matrices.
-/

set_option linter.unusedSectionVars false

namespace Fides
open Num Spec
variable {n : ℕ}

/-- the spectral theorem in the vocabulary of the specification -/
theorem exists_isEig (B : Fin n → Fin n → ℝ) (hB : Sym B) : ∃ vals U, IsEig B vals U := by
  let A : Matrix (Fin n) (Fin n) ℝ := Matrix.of B
  have hA : A.IsHermitian := by
    ext i j
    simp only [Matrix.conjTranspose_apply, star_trivial]
    exact hB j i
  refine ⟨hA.eigenvalues, fun i j => hA.eigenvectorBasis j i, ?_, ?_⟩
  · intro a b
    have h := orthonormal_iff_ite.mp hA.eigenvectorBasis.orthonormal b a
    rw [EuclideanSpace.inner_eq_star_dotProduct] at h
    simp only [dotProduct] at h
    simp only [rdot]
    have e : ∀ x y : ℝ, x = y → y = x := fun _ _ h => h.symm
    rw [show (if a = b then (1 : ℝ) else 0) = if b = a then 1 else 0 by simp [eq_comm]]
    rw [← h]
    rfl
  · intro j
    funext i
    have h := congrFun (hA.mulVec_eigenvectorBasis j) i
    simp only [Matrix.mulVec, dotProduct] at h
    simp only [rmv, rdot]
    exact h

open Classical in
/-- routines that meet every contract -/
noncomputable def exactOracles : Oracles Num where
  sub :=
    { eig := fun {k} b => if h : ∃ (B : Fin k → Fin k → ℝ) (vals : Fin k → ℝ) (U : Fin k → Fin k → ℝ), b = ofM B ∧ IsEig B vals U then
          .ok (ofV h.choose_spec.choose, ofM h.choose_spec.choose_spec.choose) else .error .valueError
      newton := exactNewton
      brentq := fun _ _ _ _ => .error .runtimeError }
  lstsq _ _ := .ok (ofV 0)
  npEig := fun {k} b => if h : ∃ (B : Fin k → Fin k → ℝ) (vals : Fin k → ℝ) (U : Fin k → Fin k → ℝ), b = ofM B ∧ IsEig B vals U then
          .ok (ofV h.choose_spec.choose, ofV fun i => |h.choose_spec.choose i|, ofM h.choose_spec.choose_spec.choose) else .error .valueError
  refine _ _ := .ok []

theorem exact_eig : ExactEig exactOracles.sub := by
  intro k B hB v U h
  simp only [exactOracles] at h
  split at h
  · rename_i hex
    cases h
    refine ⟨_, _, rfl, rfl, ?_⟩
    have key : ∀ (B' : Fin k → Fin k → ℝ) (vals : Fin k → ℝ) (U : Fin k → Fin k → ℝ), ofM B = ofM B' ∧ IsEig B' vals U → IsEig B vals U := by
      rintro B' vals U ⟨h1, h2⟩
      have : B = B' := by
        funext i j
        have := congrFun (congrFun h1 i) j
        simpa using this
      rw [this]; exact h2
    exact key _ _ _ hex.choose_spec.choose_spec.choose_spec
  · cases h

theorem exact_eig_total (B : Fin n → Fin n → ℝ) (hB : Sym B) : ∃ r, exactOracles.sub.eig (ofM B) = .ok r := by
  obtain ⟨vals, U, h⟩ := exists_isEig B hB
  simp only [exactOracles]
  rw [dif_pos ⟨B, vals, U, rfl, h⟩]
  exact ⟨_, rfl⟩

theorem exact_finite : FiniteOracles exactOracles where
  eig B v U h := by
    simp only [exactOracles] at h
    split at h
    · cases h; exact ⟨⟨_, rfl⟩, ⟨_, rfl⟩⟩
    · cases h
  newton f x f' r h := by
    simp only [exactOracles, exactNewton] at h
    split at h
    · split at h
      · cases h; exact ⟨_, rfl⟩
      · cases h
    · cases h
  brentq f a b m r h := by cases h
  lstsq B g v h := by cases h; exact ⟨_, rfl⟩
  npEig B re ab V h := by
    simp only [exactOracles] at h
    split at h
    · cases h; exact ⟨_, rfl⟩
    · cases h
  refine P st sc h := by cases h; exact ⟨[], rfl⟩

theorem exact_terminating : TerminatingOracles exactOracles where
  eig B h := by
    simp only [exactOracles] at h
    split at h <;> cases h
  newton f x f' h := by
    simp only [exactOracles, exactNewton] at h
    split at h
    · split at h <;> cases h
    · cases h
  brentq f a b m h := by cases h
  lstsq B g h := by cases h
  npEig B h := by
    simp only [exactOracles] at h
    split at h <;> cases h
  refine P st h := by cases h

theorem exact_findsRoots : FindsRoots exactOracles.sub := by
  intro f x0 f' hq
  refine ⟨hq.choose, ?_, hq.choose_spec.1, hq.choose_spec.2⟩
  simp only [exactOracles, exactNewton, dif_pos hq]

/-- the hypotheses of C26 are met with a step that was reflected at a bound -/
example : ∃ (st : Step Num 2) (p : Fin 2 → ℝ), RealData cutIn 0 ![1 / 2, 1] ![2, 1] ![1, 1] ![![-4, 0], ![0, 2]] 10 (19 / 20) ∧
    InBox cutIn.lb cutIn.ub 0 ∧ FiniteOracles exactOracles ∧ ExactEig exactOracles.sub ∧ FindsRoots exactOracles.sub ∧
    trustRegion exactOracles 2 .steihaug .singleReflect cutIn = .ok st ∧ vadd st.ss st.ss0 = ofV p := by
  obtain ⟨tr, st, h1, h2, h3, h4, h5, h6⟩ := cutIn_tr exactOracles
  refine ⟨st, ?_⟩
  have hv := C25_value exactOracles 2 .steihaug .singleReflect cutIn st h3
  rw [h4] at hv
  have : ∀ i, ∃ r, vadd st.ss st.ss0 i = fin r := fun i => quadraticForm_fin _ _ _ _ hv.symm i
  choose p hp using this
  refine ⟨p, cutIn_real, ?_, exact_finite, exact_eig, exact_findsRoots, h3, funext hp⟩
  intro i
  fin_cases i <;> constructor <;> simp [cutIn] <;> norm_num

end Fides
