import Verif.Lemmas.FiniteCand
import Verif.Lemmas.Subproblem

/-! Helper lemmas: the unscaled step is the scaled step times the scaling. -/

namespace Fides
open Num Spec
variable {n : ℕ}

/-- where `b` is finite, `a` is `d * b` -/
def ScaledBy (d : Fin n → ℝ) (a b : Vec Num n) : Prop := ∀ i r, b i = fin r → a i = fin (d i * r)

structure Rel (d : Fin n → ℝ) (st : Step Num n) : Prop where
  s0 : ScaledBy d st.s0 st.ss0
  og : ScaledBy d st.ogS st.ogSs
  s : ScaledBy d st.s st.ss

theorem scaledBy_zero (d : Fin n → ℝ) : ScaledBy d (vzero : Vec Num n) vzero := by
  intro i r h
  simp only [vzero, lit_def, Rat.cast_zero, fin_inj] at h ⊢
  rw [← h]; simp

theorem scaledBy_sdot (d : Fin n → ℝ) (v : Vec Num n) : ScaledBy d (sdot (ofV d) v) v := fun i r h => sdot_fin d v i r h

theorem stepBack_rel (P : Prob Num n) (d : Fin n → ℝ) (st : Step Num n) (h0 : ScaledBy d st.s0 st.ss0) (h : ScaledBy d st.s st.ss) (q : Num) :
    Rel d { st.stepBack P with qpval := q } where
  s0 := h0
  og := h
  s i r hr := by
    have hr' : st.ss i * (st.stepBack P).alpha = fin r := hr
    obtain ⟨a, b, h1, h2, rfl⟩ := mul_fin_iff _ _ _ hr'
    show st.s i * (st.stepBack P).alpha = _
    rw [h i a h1, h2, fin_mul, mul_assoc]

theorem calculate_rel (O : SubOracles Num) (P : Prob Num n) (d : Fin n → ℝ) (hd : P.scaling = ofV d) (st st' : Step Num n)
    (h0 : ScaledBy d st.s0 st.ss0) (h : st.calculate O P = .ok st') : Rel d st' := by
  unfold Step.calculate at h
  split at h
  · cases h
  · rename_i st1 hc
    obtain ⟨_, f2, f3, _⟩ := computeStep_frame O P st st1 hc
    cases h
    refine stepBack_rel P d st1 (by rw [f2, f3]; exact h0) ?_ _
    unfold Step.computeStep at hc
    split at hc
    · cases hc; exact scaledBy_zero d
    · cases hc
      simp only [hd]
      exact scaledBy_sdot d _
    · simp only at hc
      split at hc
      · cases hc
      · cases hc
        simp only [hd]
        exact scaledBy_sdot d _

theorem reflectInit_rel (P : Prob Num n) (d : Fin n → ℝ) (cur : Step Num n) (ih : Rel d cur) :
    ScaledBy d (reflectInit P cur).s0 (reflectInit P cur).ss0 := by
  intro i r hr
  have hr' : pyMin cur.minbr (Fides.lit 1) * cur.ogSs i + cur.ss0 i = fin r := hr
  obtain ⟨a, b, h1, h2, rfl⟩ := add_fin_iff _ _ _ hr'
  obtain ⟨c, e, h3, h4, rfl⟩ := mul_fin_iff _ _ _ h1
  show pyMin cur.minbr (Fides.lit 1) * cur.ogS i + cur.s0 i = _
  rw [h3, ih.s0 i b h2, ih.og i e h4, fin_mul, fin_add, fin_inj]; ring

theorem truncateInit_rel (P : Prob Num n) (d : Fin n → ℝ) (cur : Step Num n) (ih : Rel d cur) :
    ScaledBy d (truncateInit P cur).s0 (truncateInit P cur).ss0 := by
  intro i r hr
  have hr' : (if cur.iminbr i = true then cur.ss0 i + P.theta * cur.br i * cur.ogSs i else cur.ss0 i) = fin r := hr
  show (if cur.iminbr i = true then cur.s0 i + P.theta * cur.br i * cur.ogS i else cur.s0 i) = _
  split
  · rename_i hi
    rw [if_pos hi] at hr'
    obtain ⟨a, b, h1, h2, rfl⟩ := add_fin_iff _ _ _ hr'
    obtain ⟨c, e, h3, h4, rfl⟩ := mul_fin_iff _ _ _ h2
    rw [h3, ih.s0 i a h1, ih.og i e h4, fin_mul, fin_add, fin_inj]; ring
  · rename_i hi
    rw [if_neg hi] at hr'
    exact ih.s0 i r hr'

theorem cand_rel {P : Prob Num n} (d : Fin n → ℝ) (hd : P.scaling = ofV d) (O : Oracles Num) (fuel : ℕ) (dim : SubSpaceDim)
    (hdim : dim ≠ .steihaug) (st : Step Num n) (h : Cand O fuel P dim st) : Rel d st := by
  induction h with
  | base st h =>
    cases dim with
    | two =>
      simp only [trStep, step2d] at h
      split at h
      · cases h
      · exact calculate_rel _ P d hd _ _ (scaledBy_zero d) h
    | full => exact calculate_rel _ P d hd _ _ (scaledBy_zero d) h
    | steihaug => exact absurd rfl hdim
    | other => cases h
  | grad st h => exact calculate_rel _ P d hd _ _ (scaledBy_zero d) h
  | refl cur st _ ha h ih => exact calculate_rel _ P d hd _ _ (reflectInit_rel P d cur ih) h
  | trunc cur st _ ha h ih => exact calculate_rel _ P d hd _ _ (truncateInit_rel P d cur ih) h
  | refined cur st _ h ih =>
    simp only [stepRefined] at h
    split at h
    · cases h
    · cases h
      refine stepBack_rel P d _ (scaledBy_zero d) ?_ _
      simp only [hd]
      exact scaledBy_sdot d _

/-- the scaled Hessian for real data -/
theorem shess_real (P : Prob Num n) (d e : Fin n → ℝ) (H : Fin n → Fin n → ℝ) (hd : P.scaling = ofV d) (hH : P.hess = ofM H)
    (he : P.gDscaling = ofV e) : P.shess = ofM fun i j => d i * H i j * d j + if i = j then e i else 0 := by
  funext i j
  simp only [Prob.shess, hd, hH, he, ofV_apply, ofM_apply, lit_def, Rat.cast_zero, fin_feq, decide_eq_true_eq, fin_mul]
  have h1 : (if d i = 0 then fin 0 else fin (d i * H i j)) = fin (d i * H i j) := by
    split
    · rename_i h; rw [h, zero_mul]
    · rfl
  rw [h1]
  have h2 : (if d j = 0 then fin 0 else fin (d i * H i j) * fin (d j)) = fin (d i * H i j * d j) := by
    split
    · rename_i h; rw [h, mul_zero]
    · rw [fin_mul]
  rw [h2]
  split
  · rw [fin_add]
  · rw [add_zero]

/-- the scaled quadratic model in terms of the unscaled step -/
theorem quad_scaled (d e g : Fin n → ℝ) (H : Fin n → Fin n → ℝ) (p : Fin n → ℝ) :
    quad (fun i j => d i * H i j * d j + if i = j then e i else 0) (fun i => d i * g i) p =
      quad H g (fun i => d i * p i) + (∑ i, e i * (p i * p i)) / 2 := by
  simp only [quad, rdot, rmv]
  have h1 : ∑ i, p i * ∑ j, (d i * H i j * d j + if i = j then e i else 0) * p j =
      ∑ i, d i * p i * ∑ j, H i j * (d j * p j) + ∑ i, e i * (p i * p i) := by
    rw [← Finset.sum_add_distrib]
    refine Finset.sum_congr rfl fun i _ => ?_
    simp only [add_mul, Finset.sum_add_distrib, mul_add, ite_mul, zero_mul, Finset.sum_ite_eq, Finset.mem_univ, if_true]
    congr 1
    · rw [Finset.mul_sum, Finset.mul_sum]
      exact Finset.sum_congr rfl fun j _ => by ring
    · ring
  rw [h1]
  have h2 : ∑ i, d i * g i * p i = ∑ i, g i * (d i * p i) := Finset.sum_congr rfl fun i _ => by ring
  rw [h2]; ring

end Fides
