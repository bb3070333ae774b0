import Verif.Lemmas.Radius
import Verif.Props.Loops

/-!
# C21 (total form), C49, C26: proposals stay in the trust region
-/

set_option linter.unusedSectionVars false

namespace Fides
open Num Spec
variable {n : ℕ}

theorem sqrt_ne_ninf (a : Num) : FloatOps.sqrt a ≠ ninf := by
  cases a with
  | fin r => rw [fin_sqrt_def]; split <;> rintro ⟨⟩
  | pinf => rintro ⟨⟩
  | ninf => rintro ⟨⟩
  | nan => rintro ⟨⟩

/-- a negative secular test means that the secular equation has a root further right (also when the test is taken at a pole) -/
theorem secular_root' (w vals : Fin n → ℝ) (U : Fin n → Fin n → ℝ) (hU : OrthoCols U) (j : Fin n) (hmin : ∀ k, vals j ≤ vals k)
    (delta li : ℝ) (hd : 0 < delta) (hli : -(vals j) ≤ li)
    (hlt : lt (secular (fin li) (ofV w) (ofV vals) (ofM U) (fin delta)) (fin 0) = true) :
    ∃ q, li ≤ q ∧ secular (fin q) (ofV w) (ofV vals) (ofM U) (fin delta) = fin 0 := by
  by_cases hw : ∀ i, w i = 0 ∨ 0 < vals i + li
  · refine secular_root w vals U hU j hmin delta li hd hli hw ?_
    rw [secular_fin _ _ _ _ _ j hmin hd.ne', if_neg (not_lt.mpr hli)] at hlt
    split at hlt
    · rename_i hp
      simp only [fin_lt, decide_eq_true_eq] at hlt
      have h1 : 1 / rnorm (rmv U (slamC li w vals)) < 1 / delta := by linarith
      have h2 : delta < rnorm (rmv U (slamC li w vals)) := (one_div_lt_one_div hp hd).mp h1
      have h3 := mul_self_lt_mul_self hd.le h2
      rwa [rnorm_sq, ortho_rdot hU] at h3
    · simp at hlt
  · push Not at hw
    obtain ⟨i, hwi, hvi⟩ := hw
    have hvi' : vals i + li = 0 := le_antisymm hvi (by have := hmin i; linarith)
    set e := |w i| / (2 * delta) with he
    have hepos : 0 < e := div_pos (abs_pos.mpr hwi) (by linarith)
    obtain ⟨q, hq, hq2⟩ := secular_root w vals U hU j hmin delta (li + e) hd (by linarith)
      (fun k => Or.inr (by have := hmin k; linarith)) (by
        have hterm : slamC (li + e) w vals i * slamC (li + e) w vals i = 4 * (delta * delta) := by
          have hv : vals i + (li + e) = e := by linarith
          have h0 : 0 < |w i| := abs_pos.mpr hwi
          rw [slamC, hv, if_neg hepos.ne', div_mul_div_comm, ← abs_mul_abs_self (w i), he]
          field_simp
          ring
        have hle : slamC (li + e) w vals i * slamC (li + e) w vals i ≤ slamSq w vals (li + e) :=
          Finset.single_le_sum (f := fun k => slamC (li + e) w vals k * slamC (li + e) w vals k) (fun k _ => mul_self_nonneg _) (Finset.mem_univ i)
        rw [hterm] at hle
        nlinarith)
    exact ⟨q, by linarith, hq2⟩

/-- **C21, total form.** If the eigenvectors are orthonormal and the root finder finds a root whenever there is one, every step returned by the
n-dimensional solver has length at most `delta + 2^-26`, whatever its label. -/
theorem C21_radius_total (O : SubOracles Num) (b : Mat Num n n) (g : Fin n → ℝ) (delta : ℝ) (hd : 0 ≤ delta)
    (hE : ∀ v U, O.eig b = .ok (v, U) → ∃ vals Ur, v = ofV vals ∧ U = ofM Ur ∧ OrthoCols Ur) (hF : FindsRoots O)
    (s : Vec Num n) (ty : SubType) (h : solveNd O b (ofV g) (fin delta) = .ok (s, ty)) :
    ∃ r : Fin n → ℝ, s = ofV r ∧ rnorm r ≤ delta + 1 / 67108864 := by
  rcases eq_or_lt_of_le hd with h0 | hd
  · subst h0
    rw [solveNd, if_pos (by simp)] at h
    cases h
    exact ⟨0, vzero_ofV, by rw [rnorm_eq_zero.mpr rfl]; norm_num⟩
  cases hev : O.eig b with
  | error e => rw [solveNd, if_neg (by simpa using hd.ne'), hev] at h; cases h
  | ok p =>
    obtain ⟨v, U'⟩ := p
    obtain ⟨vals, U, rfl, rfl, hU⟩ := hE _ _ hev
    rcases Nat.eq_zero_or_pos n with rfl | hn
    · rw [solveNd, if_neg (by simpa using hd.ne'), hev] at h
      simp [argminIdx] at h
    obtain ⟨j, hj, hmin⟩ := argminIdx_fin vals hn
    have hw : (fun i => -(dot (fun l => ofM U l i) (ofV g))) = ofV (fun i => -rdot (fun l => U l i) g) := by
      funext i
      exact congrArg Neg.neg (dot_ofV (fun l => U l i) g)
    have hcases := solveNd_cases O b (ofV g) delta hd.ne' _ _ hev j hj s ty h
    simp only [hw] at hcases
    set w : Fin n → ℝ := fun i => -rdot (fun l => U l i) g with hwdef
    rcases hcases with ⟨hty, _, hn, hs⟩ | ⟨hty, _, hr⟩ | ⟨hty, hs, hnp, hnone⟩
    · rw [slam_fin] at hs hn
      refine ⟨_, hs, ?_⟩
      rw [norm_ofV, fin_le, decide_eq_true_eq] at hn
      exact hn
    · obtain ⟨r, rfl⟩ : ∃ r, s = ofV r := by
        have := C21_radius O b (ofV g) delta s ty h (Or.inr hty)
        obtain ⟨r, _, hrad, _⟩ := rootFind_some _ _ _ _ _ _ _ hr
        generalize hnv : norm s = nv at this
        have hfin : ∀ i, ∃ r, s i = fin r := by
          intro i
          cases nv with
          | fin q =>
            unfold norm at hnv
            obtain ⟨q', hq'⟩ : ∃ q', dot s s = fin q' := by
              generalize dot s s = D at hnv
              cases D with
              | fin q' => exact ⟨q', rfl⟩
              | pinf => exact absurd hnv (by rintro ⟨⟩)
              | ninf => exact absurd hnv (by rintro ⟨⟩)
              | nan => exact absurd hnv (by rintro ⟨⟩)
            obtain ⟨p, _, hp, _⟩ := dot_fin s s q' hq' i
            exact ⟨p, hp⟩
          | pinf => simp at this
          | ninf => exact absurd hnv (sqrt_ne_ninf (dot s s))
          | nan => simp at this
        choose r hr using hfin
        exact ⟨r, funext hr⟩
      have := C21_radius O b (ofV g) delta _ ty h (Or.inr hty)
      rw [norm_ofV, fin_le, decide_eq_true_eq] at this
      exact ⟨r, rfl, this⟩
    · obtain ⟨li, hli, hlm⟩ : ∃ li : ℝ, (if lt (fin 0) (ofV vals j) = true then fin 0 else -(ofV vals j)) = fin li ∧ -(vals j) ≤ li := by
        simp only [ofV_apply, fin_lt, decide_eq_true_eq, fin_neg]
        by_cases hp : 0 < vals j
        · exact ⟨0, by rw [if_pos hp], by linarith⟩
        · exact ⟨-(vals j), by rw [if_neg hp], le_rfl⟩
      rw [hli] at hnone
      have hsec : lt (secular (fin li) (ofV w) (ofV vals) (ofM U) (fin delta)) (fin 0) = false := by
        by_contra hne
        rw [Bool.not_eq_false] at hne
        obtain ⟨q, hq1, hq2⟩ := secular_root' w vals U hU j hmin delta li hd hlm hne
        obtain ⟨q', e1, e2, e3⟩ := hF (fun l => secular l (ofV w) (ofV vals) (ofM U) (fin delta)) li
          (fun l => dsecular l (ofV w) (ofV vals) (ofM U) (fin delta)) ⟨q, hq1, hq2⟩
        have := hnone hne
        rw [rootFind] at this
        simp only [e1] at this
        rw [if_pos] at this
        · cases this
        · rw [secular_fin _ _ _ _ _ j hmin hd.ne', if_neg (by linarith)] at e3
          split at e3
          · rename_i hp
            rw [fin_inj] at e3
            have h1 : 1 / rnorm (rmv U (slamC q' w vals)) = 1 / delta := by linarith
            have h2 : rnorm (rmv U (slamC q' w vals)) = delta := by
              have := one_div_one_div (rnorm (rmv U (slamC q' w vals)))
              rw [← this, h1, one_div_one_div]
            rw [slam_fin, norm_ofV, h2, lit_def, fin_add]
            simp
          · cases e3
      have hneg : ¬ 0 < vals j := by
        intro hp
        have hli0 : li = 0 := by
          rw [if_pos (by simpa using hp), fin_inj] at hli
          exact hli.symm
        subst hli0
        have hp' : lt (fin 0) (ofV vals j) = true := by simpa using hp
        rw [hp', Bool.true_and, slam_fin, norm_ofV] at hnp
        simp only [fin_le, decide_eq_false_iff_not, not_le] at hnp
        have hpos : 0 < rnorm (rmv U (slamC 0 w vals)) := by linarith
        rw [secular_fin _ _ _ _ _ j hmin hd.ne', if_neg (by linarith), if_pos hpos] at hsec
        simp only [fin_lt, decide_eq_false_iff_not, not_lt] at hsec
        have : 1 / rnorm (rmv U (slamC 0 w vals)) < 1 / delta := one_div_lt_one_div_of_lt hd (by linarith)
        linarith
      have hli' : li = -(vals j) := by
        rw [if_neg (by simpa using hneg), ofV_apply, fin_neg, fin_inj] at hli
        exact hli.symm
      subst hty
      obtain ⟨r, h1, h2⟩ := C21_radius_hard O b g delta hd vals U hev hU s h (by
        intro k hk
        rw [hj] at hk; cases hk
        refine ⟨hneg, ?_⟩
        rw [hw, ← hli']; exact hsec)
      exact ⟨r, h1, by rw [h2]; norm_num⟩

end Fides
