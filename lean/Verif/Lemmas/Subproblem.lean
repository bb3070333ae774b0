import Verif.Spec.TrustRegion
import Verif.Lemmas.LinAlg
import Verif.Lemmas.NumLawful
import Verif.Model.Subproblem
import Mathlib.LinearAlgebra.Matrix.NonsingularInverse
import Mathlib.Tactic.FieldSimp
import Mathlib.Tactic.LinearCombination

/-! Helper lemmas about `subproblem.py` over exact arithmetic. -/

namespace Fides
open Num Spec
variable {n : ℕ}

theorem quad_def (B : Fin n → Fin n → ℝ) (g s : Fin n → ℝ) : quad B g s = rdot g s + rdot s (rmv B s) / 2 := rfl

/-- the code's quadratic form is the specification's on finite data -/
theorem quadraticForm_ofV (B : Fin n → Fin n → ℝ) (g s : Fin n → ℝ) :
    quadraticForm (ofM B) (ofV g) (ofV s) = fin (quad B g s) := by
  simp only [quadraticForm, vecMul_ofM, dot_ofV, lit_def, fin_mul, fin_add, fin_inj, quad_def]
  have : rdot (fun j => rdot s (fun i => B i j)) s = rdot s (rmv B s) := by
    rw [rdot_transpose]
  rw [this]; push_cast; ring

theorem argminGo_pair {α : Type} (key : α → Num) (a b : α) (ka kb : ℝ) (ha : key a = fin ka) (hb : key b = fin kb) :
    argminGo key a [b] = if kb < ka then b else a := by
  simp [argminGo, ha, hb]

/-- the quadratic model along a line -/
theorem quad_line {B : Fin n → Fin n → ℝ} (hB : Sym B) (g s s0 : Fin n → ℝ) (t : ℝ) :
    quad B g (s0 + t • s) = quad B g s0 + t * rdot s (rmv B s0 + g) + t * t * (rdot (rmv B s) s / 2) := by
  have h1 : rdot s0 (rmv B s) = rdot s (rmv B s0) := by
    rw [Sym.rdot_rmv hB s0 s, rdot_comm]
  simp only [quad_def, rdot_add, add_rdot, rmv_add, rmv_smul, rdot_smul, smul_rdot, h1,
    rdot_comm g s, rdot_comm (rmv B s) s]
  ring

theorem rnorm_line (s s0 : Fin n → ℝ) (t : ℝ) :
    rdot (s0 + t • s) (s0 + t • s) = rdot s s * (t * t) + 2 * rdot s0 s * t + rdot s0 s0 := by
  simp only [rdot_add, add_rdot, rdot_smul, smul_rdot, rdot_comm s s0]
  ring

/-- a parabola on an interval that does not contain a minimum of it takes its least value at an end -/
theorem parabola_endpoint (a b l u t : ℝ) (h1 : l ≤ t) (h2 : t ≤ u)
    (h : a ≤ 0 ∨ (0 < a ∧ (-b / (2 * a) < l ∨ u < -b / (2 * a)))) :
    a * (l * l) + b * l ≤ a * (t * t) + b * t ∨ a * (u * u) + b * u ≤ a * (t * t) + b * t := by
  rcases h with h | ⟨ha, h | h⟩
  · by_contra hc
    push Not at hc
    obtain ⟨hl, hu⟩ := hc
    have e1 : (t - l) * (a * (t + l) + b) < 0 := by linarith
    have e3 : 0 > (t - u) * (a * (t + u) + b) := by linarith
    have p1 : a * (t + l) + b < 0 := by
      by_contra hh; push Not at hh
      have := mul_nonneg (sub_nonneg.mpr h1) hh
      linarith
    have p2 : 0 < a * (t + u) + b := by
      by_contra hh; push Not at hh
      have := mul_nonneg_of_nonpos_of_nonpos (sub_nonpos.mpr h2) hh
      linarith
    nlinarith [mul_nonneg (neg_nonneg.mpr h) (sub_nonneg.mpr (h1.trans h2))]
  · left
    rw [div_lt_iff₀ (by linarith)] at h
    nlinarith [mul_nonneg (sub_nonneg.mpr h1) (mul_nonneg ha.le (sub_nonneg.mpr h1)), mul_nonneg (sub_nonneg.mpr h1) (sub_nonneg.mpr h.le)]
  · right
    rw [lt_div_iff₀ (by linarith)] at h
    nlinarith [mul_nonneg (sub_nonneg.mpr h2) (mul_nonneg ha.le (sub_nonneg.mpr h2)), mul_nonneg (sub_nonneg.mpr h2) (sub_nonneg.mpr h.le)]

/-- sign as used by `copysign` -/
noncomputable def csgn (b : ℝ) : ℝ := if b < 0 then -1 else 1

theorem csgn_sq (b : ℝ) : csgn b * csgn b = 1 := by unfold csgn; split <;> norm_num

theorem aux_ne {b d : ℝ} (hd : 0 ≤ d) (h : b ≠ 0 ∨ 0 < d) : b + csgn b * d ≠ 0 := by
  unfold csgn
  split
  · rename_i hb; intro h'; linarith
  · rename_i hb
    push Not at hb
    intro h'
    rcases h with h | h
    · have : 0 < b := lt_of_le_of_ne hb (Ne.symm h); linarith
    · linarith

/-- the two numbers computed by `get_1d_trust_region_boundary_solution` are the roots of the boundary equation -/
theorem boundary_roots (a b c : ℝ) (ha : 0 < a) (hc : c ≤ 0) (h : b ≠ 0 ∨ c < 0) :
    let d := Real.sqrt (b * b - 4 * a * c)
    let aux := b + csgn b * d
    aux ≠ 0 ∧ ∀ t, a * (t * t) + b * t + c = a * ((t - (-aux / (2 * a))) * (t - (-2 * c / aux))) := by
  intro d aux
  have hdisc : 0 ≤ b * b - 4 * a * c := by nlinarith [mul_self_nonneg b, mul_nonneg ha.le (neg_nonneg.mpr hc)]
  have hd2 : d * d = b * b - 4 * a * c := Real.mul_self_sqrt hdisc
  have hd0 : 0 ≤ d := Real.sqrt_nonneg _
  have hne : aux ≠ 0 := by
    apply aux_ne hd0
    rcases h with h | h
    · exact Or.inl h
    · right
      apply Real.sqrt_pos.mpr
      nlinarith [mul_self_nonneg b, mul_pos ha (neg_pos.mpr h)]
  refine ⟨hne, fun t => ?_⟩
  have haux : aux * aux = 2 * b * aux - 4 * a * c := by
    have e : (aux - b) * (aux - b) = d * d := by
      have : aux - b = csgn b * d := by simp [aux]
      rw [this]
      have := csgn_sq b
      linear_combination (d * d) * this
    rw [hd2] at e
    linear_combination e
  have ha' := ha.ne'
  field_simp
  linear_combination (-t) * haux

theorem root_eval {a b c t1 t2 : ℝ} (h : ∀ t, a * (t * t) + b * t + c = a * ((t - t1) * (t - t2))) :
    (a * (t1 * t1) + b * t1 + c = 0) ∧ (a * (t2 * t2) + b * t2 + c = 0) := by
  constructor
  · rw [h]; ring
  · rw [h]; ring

/-- what `get_1d_trust_region_boundary_solution` returns, over the reals -/
theorem boundarySolution1d_fin {B : Fin n → Fin n → ℝ} (g s s0 : Fin n → ℝ) (delta : ℝ) (hs : s ≠ 0)
    (h0 : rdot s0 s0 ≤ delta * delta) (hex : rdot s0 s0 < delta * delta ∨ rdot s0 s ≠ 0) :
    ∃ t1 t2 t, boundarySolution1d (ofM B) (ofV g) (ofV s) (ofV s0) (fin delta) = fin t ∧
      (∀ t, rdot (s0 + t • s) (s0 + t • s) - delta * delta = rdot s s * ((t - t1) * (t - t2))) ∧
      (t = t1 ∨ t = t2) ∧
      quad B g (s0 + t • s) ≤ quad B g (s0 + t1 • s) ∧ quad B g (s0 + t • s) ≤ quad B g (s0 + t2 • s) := by
  have ha := rdot_self_pos hs
  have hex' : 2 * rdot s0 s ≠ 0 ∨ rdot s0 s0 - delta * delta < 0 := by
    rcases hex with h | h
    · right; linarith
    · left; simpa using h
  obtain ⟨hne, hr⟩ := boundary_roots (rdot s s) (2 * rdot s0 s) (rdot s0 s0 - delta * delta) ha (by linarith) hex'
  have hdisc : 0 ≤ 2 * rdot s0 s * (2 * rdot s0 s) - 4 * rdot s s * (rdot s0 s0 - delta * delta) := by
    nlinarith [mul_self_nonneg (2 * rdot s0 s), mul_nonneg ha.le (sub_nonneg.mpr h0)]
  set d := Real.sqrt (2 * rdot s0 s * (2 * rdot s0 s) - 4 * rdot s s * (rdot s0 s0 - delta * delta)) with hd
  set aux := 2 * rdot s0 s + csgn (2 * rdot s0 s) * d with haux
  have hcs : FloatOps.copysign (fin d) (fin (2 * rdot s0 s)) = fin (csgn (2 * rdot s0 s) * d) := by
    rw [fin_copysign, abs_of_nonneg (Real.sqrt_nonneg _)]
    unfold csgn
    split
    · rw [neg_one_mul]
    · rw [one_mul]
  let t1 := -aux / (2 * rdot s s)
  let t2 := -2 * (rdot s0 s0 - delta * delta) / aux
  have hval : boundarySolution1d (ofM B) (ofV g) (ofV s) (ofV s0) (fin delta) =
      argminGo (fun t => quadraticForm (ofM B) (ofV g) (vadd (ofV s0) (vsmul t (ofV s)))) (fin t1) [fin t2] := by
    simp only [boundarySolution1d, dot_ofV, lit_def, fin_mul, fin_sub]
    have c2 : ((2 : ℚ) : ℝ) = 2 := by norm_num
    have c4 : ((4 : ℚ) : ℝ) = 4 := by norm_num
    have cm2 : ((-2 : ℚ) : ℝ) = -2 := by norm_num
    rw [c2, c4, cm2, fin_sqrt _ hdisc, ← hd, hcs, fin_add, ← haux, fin_neg, fin_div _ _ (by positivity), fin_div _ _ hne]
  have key : ∀ t : ℝ, quadraticForm (ofM B) (ofV g) (vadd (ofV s0) (vsmul (fin t) (ofV s))) =
      fin (quad B g (s0 + t • s)) := by
    intro t; rw [vsmul_ofV, vadd_ofV, quadraticForm_ofV]
  have hpoly : ∀ t, rdot (s0 + t • s) (s0 + t • s) - delta * delta = rdot s s * ((t - t1) * (t - t2)) := by
    intro t
    rw [← hr t, rnorm_line]; ring
  rw [argminGo_pair (fun t => quadraticForm (ofM B) (ofV g) (vadd (ofV s0) (vsmul t (ofV s)))) _ _ _ _ (key t1) (key t2)] at hval
  by_cases hlt : quad B g (s0 + t2 • s) < quad B g (s0 + t1 • s)
  · refine ⟨t1, t2, t2, ?_, hpoly, Or.inr rfl, hlt.le, le_rfl⟩
    rw [hval, if_pos hlt]
  · refine ⟨t1, t2, t1, ?_, hpoly, Or.inl rfl, le_rfl, not_lt.mp hlt⟩
    rw [hval, if_neg hlt]

/-! ### the n-dimensional problem -/

/-- combination of the columns of `U` -/
theorem rmv_cols (U : Fin n → Fin n → ℝ) (c : Fin n → ℝ) : rmv U c = ∑ j, c j • (fun i => U i j) := by
  funext i
  simp only [rmv, rdot, Finset.sum_apply, Pi.smul_apply, smul_eq_mul]
  exact Finset.sum_congr rfl fun j _ => mul_comm _ _

theorem rdot_sum_right {ι : Type} (S : Finset ι) (u : Fin n → ℝ) (f : ι → Fin n → ℝ) :
    rdot u (∑ j ∈ S, f j) = ∑ j ∈ S, rdot u (f j) := by
  classical
  induction S using Finset.induction_on with
  | empty => simp [rdot_zero]
  | insert a S ha ih => rw [Finset.sum_insert ha, Finset.sum_insert ha, rdot_add, ih]

theorem rmv_sum {ι : Type} (S : Finset ι) (B : Fin n → Fin n → ℝ) (f : ι → Fin n → ℝ) :
    rmv B (∑ j ∈ S, f j) = ∑ j ∈ S, rmv B (f j) := by
  classical
  induction S using Finset.induction_on with
  | empty => simp [rmv_zero]
  | insert a S ha ih => rw [Finset.sum_insert ha, Finset.sum_insert ha, rmv_add, ih]

theorem ortho_coeff {U : Fin n → Fin n → ℝ} (h : OrthoCols U) (c : Fin n → ℝ) (j : Fin n) :
    rdot (fun i => U i j) (rmv U c) = c j := by
  rw [rmv_cols, rdot_sum_right]
  simp only [rdot_smul, h j]
  simp

/-- an isometry -/
theorem ortho_rdot {U : Fin n → Fin n → ℝ} (h : OrthoCols U) (c d : Fin n → ℝ) : rdot (rmv U c) (rmv U d) = rdot c d := by
  conv_lhs => rw [rmv_cols U d, rdot_sum_right]
  show _ = ∑ j, c j * d j
  refine Finset.sum_congr rfl fun j _ => ?_
  rw [rdot_smul, rdot_comm, ortho_coeff h, mul_comm]

/-- every vector is a combination of the columns -/
theorem ortho_complete {U : Fin n → Fin n → ℝ} (h : OrthoCols U) (v : Fin n → ℝ) :
    rmv U (fun j => rdot (fun i => U i j) v) = v := by
  have h1 : (Matrix.of U).transpose * Matrix.of U = 1 := by
    ext a b
    rw [Matrix.mul_apply, Matrix.one_apply]
    exact h a b
  have h2 : Matrix.of U * (Matrix.of U).transpose = 1 := mul_eq_one_comm.mp h1
  funext i
  have : ∀ k, ∑ j, U i j * U k j = if i = k then 1 else 0 := by
    intro k
    have := congrFun (congrFun h2 i) k
    rw [Matrix.mul_apply, Matrix.one_apply] at this
    exact this
  simp only [rmv, rdot, Finset.mul_sum]
  rw [Finset.sum_comm]
  have : ∀ k, ∑ j, U i j * (U k j * v k) = (if i = k then 1 else 0) * v k := by
    intro k
    rw [← this k, Finset.sum_mul]
    exact Finset.sum_congr rfl fun j _ => by ring
  simp [this]

theorem eig_apply {B : Fin n → Fin n → ℝ} {vals : Fin n → ℝ} {U : Fin n → Fin n → ℝ} (h : IsEig B vals U)
    (c : Fin n → ℝ) : rmv B (rmv U c) = rmv U (fun j => vals j * c j) := by
  rw [rmv_cols U c, rmv_sum, rmv_cols]
  refine Finset.sum_congr rfl fun j _ => ?_
  rw [rmv_smul, h.2 j, smul_smul, mul_comm]

/-- `B + lam I` is positive semidefinite when `-lam` is below the spectrum -/
theorem eig_psd {B : Fin n → Fin n → ℝ} {vals : Fin n → ℝ} {U : Fin n → Fin n → ℝ} (h : IsEig B vals U)
    {lam : ℝ} (hl : ∀ j, 0 ≤ vals j + lam) (p : Fin n → ℝ) : 0 ≤ rdot p (rmv B p) + lam * rdot p p := by
  obtain ⟨c, rfl⟩ : ∃ c, p = rmv U c := ⟨_, (ortho_complete h.1 p).symm⟩
  rw [eig_apply h, ortho_rdot h.1, ortho_rdot h.1]
  simp only [rdot, Finset.mul_sum, ← Finset.sum_add_distrib]
  refine Finset.sum_nonneg fun j _ => ?_
  have : c j * (vals j * c j) + lam * (c j * c j) = (vals j + lam) * (c j * c j) := by ring
  rw [this]
  exact mul_nonneg (hl j) (mul_self_nonneg _)

/-- sufficiency part of the Moré–Sorensen characterisation -/
theorem more_sorensen {B : Fin n → Fin n → ℝ} (hB : Sym B) (g s : Fin n → ℝ) (delta lam : ℝ) (h0 : 0 ≤ delta)
    (hstat : rmv B s + lam • s = -g) (hpsd : ∀ p : Fin n → ℝ, 0 ≤ rdot p (rmv B p) + lam * rdot p p)
    (hl : 0 ≤ lam) (hc : lam = 0 ∨ delta ≤ rnorm s) : MinOverBall B g delta s := by
  intro p hp
  have hg : g = -(rmv B s) - lam • s := by
    have : g = -(rmv B s + lam • s) := by rw [hstat, neg_neg]
    rw [this]; abel
  have hps := hpsd (p - s)
  have hsym : rdot s (rmv B p) = rdot p (rmv B s) := by rw [Sym.rdot_rmv hB s p, rdot_comm]
  simp only [rmv_sub, rdot_sub, sub_rdot, hsym, rdot_comm s p] at hps
  have h1 : rdot g s = -(rdot s (rmv B s)) - lam * rdot s s := by
    rw [hg, sub_rdot, neg_rdot, smul_rdot, rdot_comm]
  have h2 : rdot g p = -(rdot p (rmv B s)) - lam * rdot p s := by
    rw [hg, sub_rdot, neg_rdot, smul_rdot, rdot_comm (rmv B s) p, rdot_comm s p]
  simp only [quad_def, h1, h2]
  have hpp : lam * rdot p p ≤ lam * rdot s s := by
    rcases hc with rfl | hc
    · simp
    · apply mul_le_mul_of_nonneg_left _ hl
      calc rdot p p ≤ delta * delta := (rnorm_le_iff h0).mp hp
        _ ≤ rnorm s * rnorm s := mul_self_le_mul_self h0 hc
        _ = rdot s s := rnorm_sq s
  linarith

/-- coefficients computed by `slam` over the reals -/
noncomputable def slamC (lam : ℝ) (w vals : Fin n → ℝ) : Fin n → ℝ := fun i =>
  if vals i + lam = 0 then w i else w i / (vals i + lam)

theorem slam_fin (lam : ℝ) (w vals : Fin n → ℝ) (U : Fin n → Fin n → ℝ) :
    slam (fin lam) (ofV w) (ofV vals) (ofM U) = ofV (rmv U (slamC lam w vals)) := by
  rw [slam, ← mulVec_ofM]
  congr 1
  funext i
  simp only [ofV_apply, fin_add, lit_def, fin_feq, slamC, Rat.cast_zero, decide_eq_true_eq]
  by_cases h : vals i + lam = 0
  · simp [h]
  · simp [h]

theorem foldl_npMin2 (l : List ℝ) (a : ℝ) : (l.map fin).foldl npMin2 (fin a) = fin (l.foldl min a) := by
  induction l generalizing a with
  | nil => rfl
  | cons b l ih =>
    simp only [List.map_cons, List.foldl_cons]
    have : npMin2 (fin a) (fin b) = fin (min a b) := by
      simp only [npMin2, fin_isNaN, fin_lt, Bool.false_eq_true, if_false, decide_eq_true_eq]
      by_cases h : b < a
      · rw [if_pos h, min_eq_right h.le]
      · rw [if_neg h, min_eq_left (not_lt.mp h)]
    rw [this, ih]

theorem foldl_min_spec (l : List ℝ) (a : ℝ) : (l.foldl min a ≤ a ∧ ∀ x ∈ l, l.foldl min a ≤ x) ∧
    (l.foldl min a = a ∨ l.foldl min a ∈ l) := by
  induction l generalizing a with
  | nil => simp
  | cons b l ih =>
    obtain ⟨⟨h1, h2⟩, h3⟩ := ih (min a b)
    simp only [List.foldl_cons]
    refine ⟨⟨h1.trans (min_le_left _ _), ?_⟩, ?_⟩
    · intro x hx
      rcases List.mem_cons.mp hx with rfl | hx
      · exact h1.trans (min_le_right _ _)
      · exact h2 x hx
    · rcases h3 with h3 | h3
      · rcases min_choice a b with h | h
        · left; rw [h3, h]
        · right; rw [h3, h]; simp
      · right; simp [h3]

/-- `np.min` of a nonempty finite vector is a least entry -/
theorem vmin_fin (vals : Fin n → ℝ) (j : Fin n) : ∃ i, vmin (ofV vals) = fin (vals i) ∧ ∀ k, vals i ≤ vals k := by
  have hne : n ≠ 0 := by rintro rfl; exact j.elim0
  obtain ⟨m, rfl⟩ := Nat.exists_eq_succ_of_ne_zero hne
  have hl : List.ofFn (ofV vals) = (List.ofFn vals).map fin := by rw [List.map_ofFn]; rfl
  have e : vmin (ofV vals) = fin ((List.ofFn fun i : Fin m => vals i.succ).foldl min (vals 0)) := by
    rw [vmin, hl, List.ofFn_succ, List.map_cons, List.foldl_cons]
    have : npMin2 (FloatOps.inf : Num) (fin (vals 0)) = fin (vals 0) := by simp [npMin2]
    rw [this, foldl_npMin2]
  obtain ⟨⟨h1, h2⟩, h3⟩ := foldl_min_spec (List.ofFn fun i : Fin m => vals i.succ) (vals 0)
  have hk : ∀ k, (List.ofFn fun i : Fin m => vals i.succ).foldl min (vals 0) ≤ vals k := by
    intro k
    refine Fin.cases h1 (fun i => ?_) k
    exact h2 _ (by simp [List.mem_ofFn])
  rcases h3 with h3 | h3
  · exact ⟨0, by rw [e, h3], fun k => by rw [← h3]; exact hk k⟩
  · rw [List.mem_ofFn] at h3
    obtain ⟨i, hi⟩ := h3
    exact ⟨i.succ, by rw [e, ← hi], fun k => by have := hk k; rw [← hi] at this; exact this⟩

theorem argminGo_fin {α : Type} (key : α → Num) (kr : α → ℝ) (hk : ∀ a, key a = fin (kr a)) (l : List α) (b : α) :
    (argminGo key b l = b ∨ argminGo key b l ∈ l) ∧ kr (argminGo key b l) ≤ kr b ∧ ∀ a ∈ l, kr (argminGo key b l) ≤ kr a := by
  induction l generalizing b with
  | nil => simp [argminGo]
  | cons c l ih =>
    by_cases h : kr c < kr b
    · have e : argminGo key b (c :: l) = argminGo key c l := by simp [argminGo, hk, h]
      rw [e]
      obtain ⟨h1, h2, h3⟩ := ih c
      refine ⟨Or.inr ?_, h2.trans h.le, ?_⟩
      · rcases h1 with h1 | h1
        · rw [h1]; simp
        · simp [h1]
      · intro a ha
        rcases List.mem_cons.mp ha with rfl | ha
        · exact h2
        · exact h3 a ha
    · have e : argminGo key b (c :: l) = argminGo key b l := by simp [argminGo, hk, h]
      rw [e]
      obtain ⟨h1, h2, h3⟩ := ih b
      refine ⟨?_, h2, ?_⟩
      · rcases h1 with h1 | h1
        · exact Or.inl h1
        · right; simp [h1]
      · intro a ha
        rcases List.mem_cons.mp ha with rfl | ha
        · exact h2.trans (not_lt.mp h)
        · exact h3 a ha

theorem argminIdx_fin (vals : Fin n → ℝ) (hn : 0 < n) :
    ∃ j, argminIdx (ofV vals) = some j ∧ ∀ k, vals j ≤ vals k := by
  obtain ⟨m, rfl⟩ := Nat.exists_eq_succ_of_ne_zero hn.ne'
  simp only [argminIdx, List.finRange_succ]
  refine ⟨_, rfl, fun k => ?_⟩
  obtain ⟨_, h2, h3⟩ := argminGo_fin (ofV vals) vals (fun _ => rfl) ((List.finRange m).map Fin.succ) 0
  refine Fin.cases h2 (fun i => h3 _ ?_) k
  exact List.mem_map.mpr ⟨i, List.mem_finRange _, rfl⟩

theorem vmin_eq_of_min (vals : Fin n → ℝ) (j : Fin n) (hj : ∀ k, vals j ≤ vals k) : vmin (ofV vals) = fin (vals j) := by
  obtain ⟨i, h1, h2⟩ := vmin_fin vals j
  rw [h1, le_antisymm (h2 j) (hj i)]

/-- the secular function over the reals -/
theorem secular_fin (lam delta : ℝ) (w vals : Fin n → ℝ) (U : Fin n → Fin n → ℝ) (j : Fin n)
    (hj : ∀ k, vals j ≤ vals k) (hd : delta ≠ 0) :
    secular (fin lam) (ofV w) (ofV vals) (ofM U) (fin delta) =
      if lam < -(vals j) then pinf
      else if 0 < rnorm (rmv U (slamC lam w vals)) then fin (1 / rnorm (rmv U (slamC lam w vals)) - 1 / delta)
      else pinf := by
  rw [secular, vmin_eq_of_min vals j hj]
  simp only [fin_neg, fin_lt, decide_eq_true_eq, inf_def, slam_fin, norm_ofV, lit_def, Rat.cast_zero, Rat.cast_one]
  by_cases h : lam < -(vals j)
  · rw [if_pos h, if_pos h]
  · rw [if_neg h, if_neg h]
    by_cases h2 : 0 < rnorm (rmv U (slamC lam w vals))
    · rw [if_pos h2, if_pos h2, fin_div _ _ h2.ne', fin_div _ _ hd, fin_sub]
    · rw [if_neg h2, if_neg h2]

theorem sqrt_spacing1 : FloatOps.sqrt (spacing1 : Num) = fin (1 / 67108864) := by
  have : (spacing1 : Num) = fin ((1 / 67108864) * (1 / 67108864)) := by
    simp only [spacing1, lit_def, fin_inj]; norm_num
  rw [this, fin_sqrt _ (by norm_num), Real.sqrt_mul_self (by norm_num)]

theorem rmv_slamC_zero {B : Fin n → Fin n → ℝ} {vals : Fin n → ℝ} {U : Fin n → Fin n → ℝ} (h : IsEig B vals U)
    (g : Fin n → ℝ) (lam : ℝ) (hz : ∀ i, vals i + lam = 0 → rdot (fun l => U l i) g = 0) :
    rmv B (rmv U (slamC lam (fun i => -rdot (fun l => U l i) g) vals)) +
      lam • rmv U (slamC lam (fun i => -rdot (fun l => U l i) g) vals) = -g := by
  rw [eig_apply h, ← rmv_smul, ← rmv_add]
  have : (fun j => vals j * slamC lam (fun i => -rdot (fun l => U l i) g) vals j) +
      lam • slamC lam (fun i => -rdot (fun l => U l i) g) vals = fun i => rdot (fun l => U l i) (-g) := by
    funext j
    simp only [Pi.add_apply, Pi.smul_apply, smul_eq_mul, slamC, rdot_neg]
    by_cases hj : vals j + lam = 0
    · rw [if_pos hj, hz j hj]; ring
    · rw [if_neg hj]; field_simp; ring
  rw [this, ortho_complete h.1]

/-- what a successful root search returned -/
theorem rootFind_some (O : SubOracles Num) (w vals : Vec Num n) (U : Mat Num n n) (delta : ℝ) (li : Num) (s : Vec Num n)
    (h : rootFind O w vals U (fin delta) li = .ok (some s)) :
    ∃ r, s = slam r w vals U ∧ le (norm s) (fin (delta + 1 / 67108864)) = true ∧
      (O.newton (fun l => secular l w vals U (fin delta)) li (fun l => dsecular l w vals U (fin delta)) = .ok r ∨
        ∃ m xa xb, bracket (fun l => secular l w vals U (fin delta)) 100 li ((li + fin (1 / 67108864)) * fin 10) = (m, xa, xb)
          ∧ O.brentq (fun l => secular l w vals U (fin delta)) xa xb m = .ok r) := by
  have mono : ∀ x : Num, le x (fin (delta + 1 / 1000000000000)) = true → le x (fin (delta + 1 / 67108864)) = true := by
    intro x hx
    refine LawfulFloat.le_trans x _ _ hx ?_
    simp only [fin_le, decide_eq_true_eq]
    norm_num
  have brent : brentAttempt O w vals U (fin delta) li = Except.ok (some s) → ∃ r, s = slam r w vals U ∧
        le (norm s) (fin (delta + 1 / 67108864)) = true ∧ ∃ m xa xb,
          bracket (fun l => secular l w vals U (fin delta)) 100 li ((li + fin (1 / 67108864)) * fin 10) = (m, xa, xb) ∧
          O.brentq (fun l => secular l w vals U (fin delta)) xa xb m = .ok r := by
    intro hq
    have c10 : ((10 : ℚ) : ℝ) = 10 := by norm_num
    simp only [brentAttempt, sqrt_spacing1, fin_add, lit_def, c10] at hq
    split at hq
    · split at hq
      · rename_i r hr
        split at hq
        · rename_i hle
          cases hq
          exact ⟨r, rfl, hle, _, _, _, rfl, hr⟩
        · cases hq
      · cases hq
      · cases hq
    · cases hq
  unfold rootFind at h
  have c12 : ((1 / 1000000000000 : ℚ) : ℝ) = 1 / 1000000000000 := by norm_num
  simp only [fin_add, lit_def, c12] at h
  split at h
  · rename_i r hr
    split at h
    · rename_i hle
      cases h
      exact ⟨r, rfl, mono _ hle, Or.inl hr⟩
    · obtain ⟨r, h1, h2, h3⟩ := brent h
      exact ⟨r, h1, h2, Or.inr h3⟩
  · obtain ⟨r, h1, h2, h3⟩ := brent h
    exact ⟨r, h1, h2, Or.inr h3⟩
  · cases h

/-- the cases of `solve_nd_trust_region_subproblem` for a finite decomposition -/
theorem solveNd_cases (O : SubOracles Num) (b : Mat Num n n) (g : Vec Num n) (delta : ℝ) (hd : delta ≠ 0)
    (vals : Vec Num n) (U : Mat Num n n) (he : O.eig b = .ok (vals, U)) (j : Fin n) (hj : argminIdx vals = some j)
    (s : Vec Num n) (ty : SubType) (h : solveNd O b g (fin delta) = .ok (s, ty)) :
    let w : Vec Num n := fun i => -(dot (fun l => U l i) g)
    let li : Num := if lt (fin 0) (vals j) then fin 0 else -(vals j)
    (ty = .posdef ∧ lt (fin 0) (vals j) = true ∧ le (norm (slam (fin 0) w vals U)) (fin (delta + 1 / 67108864)) = true ∧
      s = slam (fin 0) w vals U) ∨
    (ty = .indef ∧ lt (secular li w vals U (fin delta)) (fin 0) = true ∧
      rootFind O w vals U (fin delta) li = .ok (some s)) ∨
    (ty = .hard ∧ s = hardCase w vals U j (fin delta) ∧
      (lt (fin 0) (vals j) && le (norm (slam (fin 0) w vals U)) (fin (delta + 1 / 67108864))) = false ∧
      (lt (secular li w vals U (fin delta)) (fin 0) = true → rootFind O w vals U (fin delta) li = .ok none)) := by
  intro w li
  rw [solveNd, if_neg (by simpa using hd), he] at h
  simp only [hj, sqrt_spacing1, fin_add, lit_def, Rat.cast_zero] at h
  split at h
  · rename_i hc
    cases h
    simp only [Bool.and_eq_true] at hc
    exact Or.inl ⟨rfl, hc.1, hc.2, rfl⟩
  · rename_i hc
    split at h
    · cases h
    · rename_i s' hf
      cases h
      right; left
      change (if lt (secular li w vals U (fin delta)) (fin 0) = true then _ else _) = _ at hf
      by_cases hs : lt (secular li w vals U (fin delta)) (fin 0) = true
      · rw [if_pos hs] at hf
        exact ⟨rfl, hs, hf⟩
      · rw [if_neg hs] at hf; cases hf
    · rename_i hf
      cases h
      right; right
      refine ⟨rfl, rfl, by simpa using hc, ?_⟩
      intro hs
      change (if lt (secular li w vals U (fin delta)) (fin 0) = true then _ else _) = _ at hf
      rw [if_pos hs] at hf
      exact hf

end Fides
