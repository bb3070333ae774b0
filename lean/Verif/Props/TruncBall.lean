import Verif.Lemmas.TruncDemo
import Verif.Lemmas.GradStep

/-!
# C26: a proposal outside the trust region
-/

namespace Fides
open Num Spec

/-- the model over the ball of radius `51/25 + 2^-26` -/
theorem td_low (p : Fin 2 → ℝ) (h : rnorm p ≤ 51 / 25 + 1 / 2 ^ 26) : -45 ≤ quad tdB ![8, -6] p := by
  have h2 : p 0 * p 0 + p 1 * p 1 ≤ 5 := by
    have := (rnorm_le_iff (by norm_num)).mp h
    simp only [rdot, Fin.sum_univ_two] at this
    norm_num at this ⊢
    linarith
  have e : quad tdB ![8, -6] p = 8 * p 0 - 6 * p 1 + (24 * (p 0 * p 1) + 7 * (p 1 * p 1)) / 2 := by
    simp only [quad, rdot, rmv, Fin.sum_univ_two, tdB]
    simp
    ring
  rw [e]
  nlinarith [sq_nonneg (4 * p 0 + 3 * p 1), sq_nonneg (3 * p 0 + 4 * p 1), sq_nonneg (4 * p 0 - 3 * p 1 + 9), sq_nonneg (4 * p 0 - 3 * p 1)]

/-- **C26 is false in general.**  With exact external routines, the 2D subspace and strategy `truncate`, `trust_region` returns a
proposal whose scaled length exceeds the trust radius 51/25 by more than the tolerance `2^-26`: after truncation the two columns
that span the search space are parallel, and the radius is imposed on the coefficients. -/
theorem C26_counterexample : ∃ (O : Oracles Num) (I : TRIn Num 2) (x d g dv : Fin 2 → ℝ) (H : Fin 2 → Fin 2 → ℝ) (delta theta : ℝ) (st : Step Num 2)
    (p : Fin 2 → ℝ), RealData I x d g dv H delta theta ∧ 0 < theta ∧ theta ≤ 1 ∧ InBox I.lb I.ub x ∧ 0 < delta ∧
      FiniteOracles O ∧ ExactEig O.sub ∧ FindsRoots O.sub ∧
      (∃ vals V, O.npEig (ofM fun i j => d i * H i j * d j + if i = j then |g i| * dv i else 0) = .ok (ofV vals, ofV fun i => |vals i|, ofM V) ∧
        IsEig (fun i j => d i * H i j * d j + if i = j then |g i| * dv i else 0) vals V) ∧
      (∀ fuel, trustRegion O fuel .two .truncate I = .ok st) ∧ vadd st.ss st.ss0 = ofV p ∧ delta + 1 / 2 ^ 26 < rnorm p := by
  obtain ⟨tr, htr, h1, h2, h3, h4, h5, h6, h7, h8, q, hq⟩ := td_base
  obtain ⟨ts, k, hk, hkk, ht, ha, hqt⟩ := td_trunc tr h1 h2 h3 h4 h5 h6 h7
  obtain ⟨gs, t, a, hg, _, _, _, _, _, _, _, hgq, _⟩ := gradStep_spec tdOracles td_data (by norm_num) (by norm_num) td_box
  have hcand : ∀ fuel, candidates tdOracles fuel tdIn.prob .two .truncate = .ok (tr, [gs, ts]) := by
    intro fuel
    have hl : truncateLoop tdOracles tdIn.prob fuel ts = .ok [] := by
      cases fuel with
      | zero => simp [truncateLoop, ha]
      | succ k => simp [truncateLoop, ha]
    have h8' : lt tr.alpha (Fides.lit 1) = true := by rw [h8]; norm_num
    simp only [candidates, trStep, htr, h8', Bool.true_and, hg, stepbackCandidates, stepbackTruncate, ht, hl]
    rfl
  have htrr : ∀ fuel, trustRegion tdOracles fuel .two .truncate tdIn = .ok (argminGo (fun st : Step Num 2 => st.qpval) tr [gs, ts]) := by
    intro fuel; rw [trustRegion, hcand]
  obtain ⟨pre, post, hsplit, hpre, hpost⟩ := C24_best tdOracles 0 .two .truncate tdIn tr [gs, ts] _ (hcand 0) (by
    intro st hst
    rcases List.mem_cons.mp hst with rfl | hst
    · rw [hq, fin_isNaN]
    · rcases List.mem_cons.mp hst with rfl | hst
      · rw [hgq, fin_isNaN]
      · rw [List.mem_singleton.mp hst, hqt, fin_isNaN]) (htrr 0)
  generalize argminGo (fun st : Step Num 2 => st.qpval) tr [gs, ts] = best at *
  have hmem : best ∈ [tr, gs, ts] := by rw [hsplit]; simp
  obtain ⟨qb, hqb⟩ : ∃ qb, best.qpval = fin qb := by
    simp only [List.mem_cons, List.not_mem_nil, or_false] at hmem
    rcases hmem with rfl | rfl | rfl
    · exact ⟨_, hq⟩
    · exact ⟨_, hgq⟩
    · exact ⟨_, hqt⟩
  have hbt : qb ≤ quad tdB ![8, -6] ![-16 * k, 24 / 25] := by
    have hts : ts ∈ pre ++ best :: post := by rw [← hsplit]; simp
    rcases List.mem_append.mp hts with h | h
    · have := hpre ts h
      rw [hqb, hqt, fin_lt, decide_eq_true_eq] at this; exact this.le
    · rcases List.mem_cons.mp h with h | h
      · rw [← h, hqt, fin_inj] at hqb; exact hqb.ge
      · have := hpost ts h
        rw [hqb, hqt, fin_le, decide_eq_true_eq] at this; exact this
  obtain ⟨p, hp, _, hpq⟩ := C25_step_partial tdOracles 0 .two (by decide) .truncate tdIn _ _ _ _ td_data.scaling td_data.g td_data.dv td_data.hess best (htrr 0) qb hqb
  have hqp : qb = quad tdB ![8, -6] p := by
    rw [hpq]
    simp only [quad, rdot, rmv, Fin.sum_univ_two, tdB]
    simp
    ring
  have hks : 9 / 25 / 4 < k * 1 ∧ k < 1 := by constructor <;> nlinarith
  refine ⟨tdOracles, tdIn, _, _, _, _, _, _, _, best, p, td_data, by norm_num, by norm_num, td_box, by norm_num, td_finite, td_exactEig, td_findsRoots,
    ?_, htrr, hp, ?_⟩
  · refine ⟨![-9, 16], fun i j => ![![4 / 5, 3 / 5], ![-3 / 5, 4 / 5]] i j, ?_, ?_, ?_⟩
    · simp only [tdOracles]
      congr 2
      · congr 1; funext i; fin_cases i <;> simp
      · congr 2
        · funext i; fin_cases i <;> simp
        · funext i j; fin_cases i <;> fin_cases j <;> simp
    · intro i j
      fin_cases i <;> fin_cases j <;> simp [rdot, Fin.sum_univ_two] <;> norm_num
    · intro j
      funext i
      fin_cases i <;> fin_cases j <;> simp [rdot, rmv, Fin.sum_univ_two] <;> norm_num
  · by_contra hcon
    have hlow := td_low p (not_lt.mp hcon)
    rw [← hqp] at hlow
    have e : quad tdB ![8, -6] ![-16 * k, 24 / 25] = -(128 * k) - 144 / 25 + (24 * (-16 * k * (24 / 25)) + 7 * (24 / 25 * (24 / 25))) / 2 := by
      simp only [quad, rdot, rmv, Fin.sum_univ_two, tdB]
      simp
      ring
    rw [e] at hbt
    have hk2 : 3 / 20 < k := by nlinarith
    nlinarith

end Fides
