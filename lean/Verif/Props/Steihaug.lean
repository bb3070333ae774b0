import Verif.Lemmas.CG

/-!
# C28: the Steihaug conjugate gradient solver
-/

set_option linter.unusedSectionVars false

namespace Fides
open Num Spec
variable {n : ℕ}

theorem steihaug_eps (g : Fin n → ℝ) : ∃ c : ℝ, 0 ≤ c ∧ c ≤ 1 / 2 ∧ (0 < rnorm g → 0 < c) ∧
    pyMin (Fides.lit (1 / 2)) (FloatOps.sqrt (norm (ofV g))) * norm (ofV g) = fin (c * rnorm g) := by
  rw [norm_ofV, fin_sqrt _ (rnorm_nonneg g)]
  simp only [pyMin, lit_def, fin_lt, decide_eq_true_eq]
  split
  · rename_i h
    refine ⟨Real.sqrt (rnorm g), Real.sqrt_nonneg _, ?_, fun h => Real.sqrt_pos.mpr h, by rw [fin_mul]⟩
    push_cast at h; exact h.le
  · exact ⟨1 / 2, by norm_num, le_rfl, fun _ => by norm_num, by rw [fin_mul]; push_cast; rfl⟩

/-- **C28, early return.** The branch of the Steihaug solver that returns before the loop and leaves its coefficients unset (which makes the
following step-back raise AttributeError) is never taken, whatever the data (finite or not): the only way the solver does not
produce a step is that its loop does not end. -/
theorem C28_no_early_return (P : Prob Num n) (fuel : ℕ) :
    (∃ st, stepSteihaug fuel P = .ok st) ∨ stepSteihaug fuel P = .error .diverges := by
  have hno : lt (norm P.sg) (pyMin (Fides.lit (1 / 2)) (FloatOps.sqrt (norm P.sg)) * norm P.sg) = false := by
    generalize hN : norm P.sg = N
    cases N with
    | nan => simp
    | pinf => simp
    | ninf =>
      exfalso
      have h2 := LawfulFloat.sum_nonneg (List.ofFn fun i => P.sg i * P.sg i) (by
        intro a ha
        rw [List.mem_ofFn] at ha
        obtain ⟨i, rfl⟩ := ha
        cases P.sg i with
        | fin r => left; simp [mul_self_nonneg]
        | _ => simp)
      have hN' : FloatOps.sqrt (FloatOps.sum (List.ofFn fun i => P.sg i * P.sg i)) = (ninf : Num) := hN
      generalize FloatOps.sum (List.ofFn fun i => P.sg i * P.sg i) = S at h2 hN'
      cases S with
      | fin r =>
        rw [fin_sqrt_def] at hN'
        split at hN' <;> cases hN'
      | pinf => cases hN'
      | ninf => cases hN'
      | nan => cases hN'
    | fin a =>
      by_cases ha : a < 0
      · exfalso
        have hN' : FloatOps.sqrt (FloatOps.sum (List.ofFn fun i => P.sg i * P.sg i)) = fin a := hN
        generalize FloatOps.sum (List.ofFn fun i => P.sg i * P.sg i) = S at hN'
        cases S with
        | fin r =>
          rw [fin_sqrt_def] at hN'
          split at hN'
          · cases hN'
          · rw [Num.fin.injEq] at hN'
            have := Real.sqrt_nonneg r
            linarith
        | pinf => cases hN'
        | ninf => cases hN'
        | nan => cases hN'
      · rw [not_lt] at ha
        rw [fin_sqrt _ ha]
        simp only [pyMin, lit_def, fin_lt, decide_eq_true_eq]
        split
        · rename_i h
          push_cast at h
          rw [fin_mul, fin_lt, decide_eq_false_iff_not, not_lt]
          nlinarith
        · rw [fin_mul, fin_lt, decide_eq_false_iff_not, not_lt]
          push_cast; linarith
  have hloop : ∀ m z r d, (∃ o, steihaugLoop P (pyMin (Fides.lit (1 / 2)) (FloatOps.sqrt (norm P.sg)) * norm P.sg) m z r d = .ok o) ∨
      steihaugLoop P (pyMin (Fides.lit (1 / 2)) (FloatOps.sqrt (norm P.sg)) * norm P.sg) m z r d = .error .diverges := by
    intro m
    induction m with
    | zero => intro z r d; exact Or.inr rfl
    | succ m ih =>
      intro z r d
      rw [steihaugLoop]
      simp only
      split
      · exact Or.inl ⟨_, rfl⟩
      · split
        · exact Or.inl ⟨_, rfl⟩
        · exact ih _ _ _
  simp only [stepSteihaug, hno, Bool.false_eq_true, if_false]
  rcases hloop fuel vzero P.sg (vneg P.sg) with ⟨o, ho⟩ | ho
  · left; rw [ho]; exact ⟨_, rfl⟩
  · right; rw [ho]

/-- **C28, termination.** In exact arithmetic the `while True` loop of the Steihaug solver ends within `n` passes and the solver
returns a step, for every finite problem with symmetric Hessian (definite or not), every gradient and every trust radius. -/
theorem C28_terminates (hn : 0 < n) (O : Oracles Num) (I : TRIn Num n) (d g dv : Fin n → ℝ) (H : Fin n → Fin n → ℝ) (delta : ℝ)
    (hd : I.scaling = ofV d) (hg : I.g = ofV g) (hdv : I.dv = ofV dv) (hH : I.hess = ofM H) (hS : Sym H) (hdel : I.delta = fin delta) :
    ∃ st, trStep O n I.prob .steihaug = .ok st := by
  have hsg : I.prob.sg = ofV fun i => d i * g i := by
    show sdot I.scaling I.g = _
    rw [hd, hg]; funext i; exact sdot_fin d _ i (g i) rfl
  have hgd : I.prob.gDscaling = ofV fun i => |g i| * dv i := by
    funext i
    show FloatOps.abs (I.g i) * I.dv i = _
    rw [hg, hdv]; simp
  have hsh := shess_real I.prob d _ H hd hH hgd
  have hSB : Sym (fun i j => d i * H i j * d j + if i = j then |g i| * dv i else 0) := by
    intro i j
    by_cases hij : i = j
    · subst hij; rfl
    · simp only [hij, Ne.symm hij, if_false, hS i j]; ring
  generalize hBd : (fun i j => d i * H i j * d j + if i = j then |g i| * dv i else 0) = B at hsh hSB
  generalize hgs : (fun i => d i * g i) = sg at hsg
  obtain ⟨c, hc0, hc1, hc2, hc3⟩ := steihaug_eps sg
  have hloop : ∃ o, steihaugLoop I.prob (fin (c * rnorm sg)) n vzero (ofV sg) (vneg (ofV sg)) = .ok o := by
    rw [vneg_ofV, vzero_ofV]
    by_cases hz : sg = 0
    · obtain ⟨m, rfl⟩ : ∃ m, n = m + 1 := ⟨n - 1, by omega⟩
      obtain ⟨t, ht, _⟩ := cg_exit_curv I.prob B delta (c * rnorm sg) hsh hdel m 0 sg (-sg) (by rw [hz, neg_zero, zero_rdot])
      exact ⟨_, ht⟩
    · exact cg_terminates I.prob B delta (c * rnorm sg) hsh hdel hSB (mul_pos (hc2 (rnorm_pos hz)) (rnorm_pos hz)) n 0 (by omega) _ 0 sg (-sg)
        (cgInv_start B sg hz)
  rcases C28_no_early_return I.prob n with h | h
  · exact h
  · exfalso
    simp only [stepSteihaug, hsg, hc3] at h
    obtain ⟨o, ho⟩ := hloop
    rw [ho] at h
    split at h <;> cases h

/-- non-vacuity: an indefinite problem in two variables -/
example : ∃ (I : TRIn Num 2) (d g dv : Fin 2 → ℝ) (H : Fin 2 → Fin 2 → ℝ), I.scaling = ofV d ∧ I.g = ofV g ∧ I.dv = ofV dv ∧
    I.hess = ofM H ∧ Sym H ∧ I.delta = fin 1 ∧ ¬ PSD H ∧ g ≠ 0 := by
  refine ⟨{ x := ofV 0, g := ofV ![1, 2], hess := ofM ![![1, 3], ![3, 1]], scaling := ofV 1, delta := fin 1, dv := ofV 0,
            theta := fin (19 / 20), lb := fun _ => ninf, ub := fun _ => pinf }, _, _, _, _, rfl, rfl, rfl, rfl, ?_, rfl, ?_, ?_⟩
  · intro i j; fin_cases i <;> fin_cases j <;> rfl
  · intro h
    have := h ![1, -1]
    simp [rdot, rmv, Fin.sum_univ_two] at this
  · intro h
    have := congrFun h 0
    simp at this

end Fides
