import Verif.Lemmas.GradStep
import Verif.Lemmas.CG
import Verif.Props.Steihaug
import Verif.Lemmas.Feasible

/-! Helper lemmas: on finite data every considered step is finite, or entirely NaN. -/

set_option linter.unusedSectionVars false

namespace Fides
open Num Spec
variable {n : ℕ}

theorem sum_nan_mem (l : List Num) (h : nan ∈ l) : FloatOps.sum l = nan := by
  induction l with
  | nil => simp at h
  | cons a l ih =>
    rw [sum_cons]
    rcases List.mem_cons.mp h with h | h
    · rw [← h]; simp
    · rw [ih h]; simp

/-- not infinite -/
def NoInf (a : Num) : Prop := a = nan ∨ ∃ r, a = fin r

theorem boundary_noinf (hn : 0 < n) (B : Fin n → Fin n → ℝ) (g s s0 : Fin n → ℝ) (delta : ℝ) :
    NoInf (boundarySolution1d (ofM B) (ofV g) (ofV s) (ofV s0) (fin delta)) := by
  by_cases hs : s = 0
  · left
    simp only [boundarySolution1d, dot_ofV, lit_def, fin_mul, fin_sub, hs, rdot_zero, mul_zero, zero_mul, sub_self]
    rw [fin_sqrt _ le_rfl, fin_copysign]
    simp only [lt_self_iff_false, if_false, Real.sqrt_zero, abs_zero, fin_add, add_zero, fin_neg, neg_zero]
    rw [show (fin 0 / fin 0 : Num) = nan by rw [fin_div_def, if_pos rfl, infSign_zero]]
    simp only [argminGo]
    have : ∀ i, vadd (ofV s0) (vsmul nan (ofV 0)) i = nan := by
      intro i; simp [vadd, vsmul]
    have hq : quadraticForm (ofM B) (ofV g) (vadd (ofV s0) (vsmul nan (ofV 0))) = nan := by
      generalize hx : quadraticForm (ofM B) (ofV g) (vadd (ofV s0) (vsmul nan (ofV 0))) = x
      have hd : dot (ofV g) (vadd (ofV s0) (vsmul nan (ofV 0))) = nan := by
        have : FloatOps.sum (List.ofFn fun i => ofV g i * vadd (ofV s0) (vsmul nan (ofV 0)) i) = nan := by
          apply sum_nan_mem
          rw [List.mem_ofFn]
          exact ⟨⟨0, hn⟩, by rw [this]; simp⟩
        exact this
      rw [← hx, quadraticForm, hd]; simp
    rw [if_pos]
    show isNaN (quadraticForm (ofM B) (ofV g) (vadd (ofV s0) (vsmul nan (ofV 0)))) = true
    rw [hq]; rfl
  simp only [boundarySolution1d, dot_ofV, lit_def, fin_mul, fin_sub]
  rw [fin_sqrt_def]
  have arg : ∀ (q : Num → Num) (a b : Num), NoInf a → NoInf b → NoInf (argminGo q a [b]) := by
    intro q a b ha hb
    have := argminGo_mem q a [b]
    simp only [List.mem_cons, List.not_mem_nil, or_false] at this
    rcases this with h | h <;> rw [h] <;> assumption
  split
  · -- negative discriminant
    have e : ∀ b : ℝ, FloatOps.copysign (nan : Num) (fin b) = nan := fun b => by
      show (if _ then _ else _) = _
      split <;> rfl
    rw [e]
    refine arg _ _ _ ?_ ?_ <;> simp [NoInf]
  · rename_i hd
    rw [not_lt] at hd
    rw [fin_copysign]
    set b := ((2 : ℚ) : ℝ) * rdot s0 s with hb
    set c := rdot s0 s0 - delta * delta with hc
    set a := rdot s s with ha
    set D := b * b - ((4 : ℚ) : ℝ) * a * c with hD
    have hsplit : (if b < 0 then fin (-|Real.sqrt D|) else fin |Real.sqrt D|) = fin (csgn b * Real.sqrt D) := by
      rw [abs_of_nonneg (Real.sqrt_nonneg D)]
      unfold csgn
      split <;> simp
    rw [hsplit, fin_add]
    set aux := b + csgn b * Real.sqrt D with haux
    refine arg _ _ _ ?_ ?_
    · rw [fin_neg, fin_div_def]
      split
      · rename_i h0
        have ha0 : a = 0 := by
          have : ((2 : ℚ) : ℝ) ≠ 0 := by norm_num
          rcases mul_eq_zero.mp h0 with h | h
          · exact absurd h this
          · exact h
        have hs0 : s = 0 := rdot_self_eq_zero.mp ha0
        have hb0 : b = 0 := by rw [hb, hs0, rdot_zero, mul_zero]
        have : aux = 0 := by rw [haux, hD, hb0, ha0]; simp
        rw [this]; simp [NoInf]
      · exact Or.inr ⟨_, rfl⟩
    · rw [fin_div_def]
      split
      · rename_i h0
        -- aux = 0: b = 0 and D = 0
        have hb0 : b = 0 := by
          by_contra hne
          exact aux_ne (Real.sqrt_nonneg D) (Or.inl hne) h0
        have hD0 : Real.sqrt D = 0 := by
          by_contra hne
          exact aux_ne (Real.sqrt_nonneg D) (Or.inr (lt_of_le_of_ne (Real.sqrt_nonneg D) (Ne.symm hne))) h0
        have hD1 : D = 0 := (Real.sqrt_eq_zero hd).mp hD0
        by_cases hc0 : c = 0
        · rw [hc0]; simp [NoInf]
        · exfalso
          have ha0 : a = 0 := by
            rw [hD, hb0] at hD1
            have : a * c = 0 := by push_cast at hD1; linarith
            rcases mul_eq_zero.mp this with h | h
            · exact h
            · exact absurd h hc0
          exact hs (rdot_self_eq_zero.mp ha0)
      · exact Or.inr ⟨_, rfl⟩

theorem NoInf.mul_one {a : Num} (h : NoInf a) : NoInf (a * Fides.lit 1) := by
  rcases h with rfl | ⟨r, rfl⟩
  · left; simp
  · right; exact ⟨_, by rw [lit_def, fin_mul]⟩

theorem solve1d_noinf (hn : 0 < n) (B : Fin n → Fin n → ℝ) (g s s0 : Fin n → ℝ) (delta : ℝ) :
    NoInf (solve1d (ofM B) (ofV g) (ofV s) (fin delta) (ofV s0)) := by
  rw [solve1d]
  split
  · right; exact ⟨_, by rw [lit_def, fin_mul]⟩
  split
  · right; exact ⟨_, rfl⟩
  apply NoInf.mul_one
  split
  · rename_i h
    right
    simp only [Bool.and_eq_true, mulVec_ofM, dot_ofV, lit_def, fin_mul, fin_lt, decide_eq_true_eq] at h
    simp only [mulVec_ofM, dot_ofV, vadd_ofV, lit_def, fin_mul, fin_neg]
    refine ⟨_, fin_div _ _ ?_⟩
    have := h.1
    push_cast at this ⊢
    linarith
  · exact boundary_noinf hn B g s s0 delta

theorem pyMax_fin (a b : ℝ) : pyMax (fin a) (fin b) = fin (max a b) := by
  simp only [pyMax, fin_lt, decide_eq_true_eq]
  split
  · rename_i h; rw [max_eq_right h.le]
  · rename_i h; rw [max_eq_left (not_lt.mp h)]

theorem hardCase_finite (w vals : Fin n → ℝ) (U : Fin n → Fin n → ℝ) (j : Fin n) (delta : ℝ) :
    ∃ r, hardCase (ofV w) (ofV vals) (ofM U) j (fin delta) = ofV r := by
  have hw : (fun i => if feq (ofV vals i - ofV vals j) (Fides.lit 0 : Num) = true then (Fides.lit 0 : Num) else ofV w i) =
      ofV (fun i => if vals i = vals j then 0 else w i) := by
    funext i
    simp only [ofV_apply, fin_sub, lit_def, Rat.cast_zero, fin_feq, decide_eq_true_eq, sub_eq_zero]
    by_cases h : vals i = vals j <;> simp [h]
  simp only [hardCase, hw]
  simp only [ofV_apply, fin_neg, slam_fin, norm_ofV, fin_mul, fin_sub, lit_def, Rat.cast_zero, pyMax_fin]
  rw [fin_sqrt _ (le_max_right _ _)]
  exact ⟨_, rfl⟩

theorem solveNd_finite (O : Oracles Num) (hO : FiniteOracles O) (B : Fin n → Fin n → ℝ) (g : Fin n → ℝ) (delta : ℝ) (s : Vec Num n) (ty : SubType)
    (h : solveNd O.sub (ofM B) (ofV g) (fin delta) = .ok (s, ty)) : ∃ r, s = ofV r := by
  by_cases hd : delta = 0
  · rw [solveNd, if_pos (by simpa using hd)] at h
    cases h; exact ⟨_, vzero_ofV⟩
  cases he : O.sub.eig (ofM B) with
  | error e => rw [solveNd, if_neg (by simpa using hd), he] at h; cases h
  | ok vu =>
    obtain ⟨v, U⟩ := vu
    obtain ⟨⟨vals, rfl⟩, Ur, rfl⟩ := hO.eig B v U he
    rcases Nat.eq_zero_or_pos n with rfl | hn
    · exact ⟨fun i => i.elim0, funext fun i => i.elim0⟩
    obtain ⟨j, hj, _⟩ := argminIdx_fin vals hn
    have hw : (fun i => -(dot (fun l => ofM Ur l i) (ofV g))) = ofV (fun i => -rdot (fun l => Ur l i) g) := by
      funext i
      exact congrArg Neg.neg (dot_ofV (fun l => Ur l i) g)
    rcases solveNd_cases O.sub (ofM B) (ofV g) delta hd (ofV vals) (ofM Ur) he j hj s ty h with ⟨_, _, _, h⟩ | ⟨_, _, h⟩ | ⟨_, h, _⟩
    · rw [h, hw, slam_fin]; exact ⟨_, rfl⟩
    · obtain ⟨r, hr, _, hrr⟩ := rootFind_some O.sub _ _ _ _ _ _ h
      have : ∃ q, r = fin q := by
        rcases hrr with hrr | ⟨m, xa, xb, _, hrr⟩
        · exact hO.newton _ _ _ _ hrr
        · exact hO.brentq _ _ _ _ _ (by first | exact hrr | exact hrr.1 | exact hrr.2)
      obtain ⟨q, rfl⟩ := this
      rw [hr, hw, slam_fin]; exact ⟨_, rfl⟩
    · rw [h, hw]; exact hardCase_finite _ _ _ _ _

theorem sum_finite (l : List Num) (h : ∀ a ∈ l, ∃ r, a = fin r) : ∃ r, FloatOps.sum l = fin r := by
  induction l with
  | nil => exact ⟨0, by rw [sum_nil]⟩
  | cons a l ih =>
    obtain ⟨r, hr⟩ := h a (by simp)
    obtain ⟨q, hq⟩ := ih fun b hb => h b (by simp [hb])
    rw [sum_cons, hr, hq]; exact ⟨_, rfl⟩

def FinCols (cols : List (Vec Num n)) : Prop := ∀ c ∈ cols, ∃ r, c = ofV r

theorem subDot_finite (cols : List (Vec Num n)) (sc : List Num) (hc : FinCols cols) (hs : ∀ t ∈ sc, ∃ r, t = fin r) :
    ∃ r, subDot cols sc = ofV r := by
  have : ∀ i, ∃ r, subDot cols sc i = fin r := by
    intro i
    apply sum_finite
    intro a ha
    rw [List.mem_iff_getElem] at ha
    obtain ⟨k, hk, rfl⟩ := ha
    rw [List.getElem_zipWith]
    obtain ⟨r, hr⟩ := hc _ (List.getElem_mem (by simp at hk; exact hk.1))
    obtain ⟨q, hq⟩ := hs _ (List.getElem_mem (by simp at hk; exact hk.2))
    rw [hr, hq]; exact ⟨_, rfl⟩
  choose r hr using this
  exact ⟨r, funext hr⟩

theorem chess_finite (B : Fin n → Fin n → ℝ) (cols : List (Vec Num n)) (hc : FinCols cols) : ∃ M, chess (ofM B) cols = ofM M := by
  have : ∀ a b, ∃ r, chess (ofM B) cols a b = fin r := by
    intro a b
    obtain ⟨r, hr⟩ := hc _ (cols.get_mem a)
    obtain ⟨q, hq⟩ := hc _ (cols.get_mem b)
    rw [chess, hr, hq, mulVec_ofM, dot_ofV]; exact ⟨_, rfl⟩
  choose M hM using this
  exact ⟨M, funext fun a => funext fun b => hM a b⟩

theorem cg_finite (g : Fin n → ℝ) (cols : List (Vec Num n)) (hc : FinCols cols) : ∃ r, cg (ofV g) cols = ofV r := by
  have : ∀ a, ∃ r, cg (ofV g) cols a = fin r := by
    intro a
    obtain ⟨r, hr⟩ := hc _ (cols.get_mem a)
    rw [cg, hr, dot_ofV]; exact ⟨_, rfl⟩
  choose M hM using this
  exact ⟨M, funext hM⟩

theorem sdot_finite (d v : Fin n → ℝ) : sdot (ofV d) (ofV v) = ofV (fun i => d i * v i) := funext fun i => sdot_fin d _ i _ rfl

theorem sdot_nan (d : Fin n → ℝ) (v : Vec Num n) (hv : ∀ i, v i = nan) (i : Fin n) : sdot (ofV d) v i = nan ∨ sdot (ofV d) v i = fin 0 := by
  simp only [sdot, hv]
  split
  · right; simp
  · left; simp

theorem feq_true_eq {a b : Num} (h : feq a b = true) : a = b := by
  cases a <;> cases b <;> simp_all [feq]
  exact le_antisymm h.1 h.2

/-- finite data of a problem -/
structure RealProb (P : Prob Num n) (xr d sgr : Fin n → ℝ) (B : Fin n → Fin n → ℝ) (deltar th : ℝ) : Prop where
  x : P.x = ofV xr
  scaling : P.scaling = ofV d
  sg : P.sg = ofV sgr
  shess : P.shess = ofM B
  delta : P.delta = fin deltar
  theta : P.theta = fin th
  th0 : 0 < th
  th1 : th ≤ 1
  box : InBox P.lb P.ub xr

/-- finite, or entirely NaN and not shortened -/
structure FinStep (st : Step Num n) : Prop where
  cols : FinCols st.subspace
  s0 : ∃ r, st.s0 = ofV r
  ss0 : ∃ r, st.ss0 = ofV r
  og : ((∃ r, st.ogS = ofV r) ∧ ∃ r, st.ogSs = ofV r) ∨ (st.alpha = fin 1 ∧ (∀ i, st.ogSs i = nan) ∧ ∀ i, st.ogS i = nan ∨ st.ogS i = fin 0)
  alpha : ∃ a : ℝ, st.alpha = fin a ∧ 0 ≤ a ∧ a ≤ 1
  cut : feq st.alpha (Fides.lit 1) = false → ∃ r : ℝ, 0 ≤ r ∧ st.minbr = fin r ∧ ∃ i, st.br i = fin r
  imin : ∀ i, st.iminbr i = true ↔ feq (st.br i) st.minbr = true
  s : st.s = fun i => st.ogS i * st.alpha
  ss : st.ss = fun i => st.ogSs i * st.alpha

section
variable {P : Prob Num n} {x d sg : Fin n → ℝ} {B : Fin n → Fin n → ℝ} {delta theta : ℝ} (hP : RealProb P x d sg B delta theta)
include hP

theorem finish_finStep (st : Step Num n) (q : Num) (hc : FinCols st.subspace) (s0 : Fin n → ℝ) (h0 : st.s0 = ofV s0)
    (hss0 : ∃ r, st.ss0 = ofV r) (hx : st.x = vadd P.x st.s0) (hbox : ∀ i, NanOrIn (P.lb i) (P.ub i) (st.x i))
    (hs : ((∃ r, st.s = ofV r) ∧ ∃ r, st.ss = ofV r) ∨ ((∀ i, st.ss i = nan) ∧ ∀ i, st.s i = nan ∨ st.s i = fin 0)) :
    FinStep { st.stepBack P with qpval := q } := by
  have hxf : st.x = ofV (x + s0) := by rw [hx, h0, hP.x, vadd_ofV]
  have hb : InBox P.lb P.ub (x + s0) := by
    intro i
    rcases hbox i with h | ⟨r, h, hr⟩
    · rw [hxf] at h; cases h
    · rw [hxf, ofV_apply, fin_inj] at h; rw [h]; exact hr
  rcases hs with ⟨⟨r, hr⟩, r', hr'⟩ | ⟨h1, h2⟩
  · obtain ⟨a, ha, ha0, ha1, _⟩ := C23_factor P st _ _ theta hxf hr hP.theta hP.th0 hb
    refine ⟨hc, ⟨_, h0⟩, hss0, Or.inl ⟨⟨r, hr⟩, r', hr'⟩, ⟨a, ha, ha0, ha1⟩, ?_, fun i => Iff.rfl, rfl, rfl⟩
    intro hne
    rcases stepBack_alpha_cases P st theta hP.theta hP.th0 hbox with ⟨_, h⟩ | ⟨_, h, _⟩ | ⟨r, hr0, hm, _, hi, _⟩
    · rw [ha] at h; cases h
    · have hne' : feq (st.stepBack P).alpha (Fides.lit 1) = false := hne
      rw [h] at hne'; simp at hne'
    · exact ⟨r, hr0, hm, hi⟩
  · have hbr : ∀ i, (st.stepBack P).br i = pinf := by
      intro i
      rw [stepBack_br]
      rcases h2 i with h | h <;> rw [h] <;> simp [brOf]
    have hal : (st.stepBack P).alpha = fin 1 := by
      rcases stepBack_alpha_cases P st theta hP.theta hP.th0 hbox with ⟨h, _⟩ | ⟨_, h, _⟩ | ⟨r, hr0, hm, _, ⟨i, hi⟩, _⟩
      · exfalso
        have := vmin_spec (st.stepBack P).br (fun i => by rw [hbr]; rfl)
        rw [stepBack_minbr] at h
        rw [h] at this; simp at this
      · exact h
      · rw [hbr] at hi; cases hi
    refine ⟨hc, ⟨_, h0⟩, hss0, Or.inr ⟨hal, h1, h2⟩, ⟨1, hal, by norm_num, le_rfl⟩, ?_, fun i => Iff.rfl, rfl, rfl⟩
    intro hne
    have hne' : feq (st.stepBack P).alpha (Fides.lit 1) = false := hne
    rw [hal] at hne'; simp at hne'

theorem calculate_finStep (hn : 0 < n) (O : Oracles Num) (hO : FiniteOracles O) (st st' : Step Num n) (hc : FinCols st.subspace) (h0 : ∃ r, st.s0 = ofV r)
    (hss0 : ∃ r, st.ss0 = ofV r) (hx : st.x = vadd P.x st.s0) (hbox : ∀ i, NanOrIn (P.lb i) (P.ub i) (st.x i))
    (h : st.calculate O.sub P = .ok st') : FinStep st' := by
  obtain ⟨s0, h0⟩ := h0
  unfold Step.calculate at h
  split at h
  · cases h
  · rename_i st1 hcs
    cases h
    obtain ⟨f1, f2, f3, f4⟩ := computeStep_frame O.sub P st st1 hcs
    refine finish_finStep hP st1 _ (by rw [f4]; exact hc) s0 (by rw [f2, h0]) (by rw [f3]; exact hss0) (by rw [f1, f2, hx])
      (by rw [f1]; exact hbox) ?_
    obtain ⟨ss0, hss0⟩ := hss0
    unfold Step.computeStep at hcs
    split at hcs
    · cases hcs
      left; exact ⟨⟨_, vzero_ofV⟩, _, vzero_ofV⟩
    · rename_i c hsub
      cases hcs
      obtain ⟨u, rfl⟩ := hc c (by rw [hsub]; simp)
      rcases solve1d_noinf hn B sg u ss0 delta with ht | ⟨t, ht⟩
      · right
        have hnan : ∀ i, subDot [ofV u] [solve1d P.shess P.sg (ofV u) P.delta st.ss0] i = nan := by
          intro i
          rw [hP.shess, hP.sg, hP.delta, hss0, ht]
          simp [subDot, sum_cons]
        exact ⟨hnan, fun i => by rw [hP.scaling]; exact sdot_nan d _ hnan i⟩
      · left
        have hfin : subDot [ofV u] [solve1d P.shess P.sg (ofV u) P.delta st.ss0] = ofV (t • u) := by
          rw [hP.shess, hP.sg, hP.delta, hss0, ht, subDot_one]
        exact ⟨⟨_, by show sdot P.scaling _ = _; rw [hfin, hP.scaling, sdot_finite]⟩, _, hfin⟩
    · simp only at hcs
      split at hcs
      · cases hcs
      · rename_i sc ty hnd
        cases hcs
        obtain ⟨M, hM⟩ := chess_finite B st.subspace hc
        obtain ⟨gg, hgg⟩ := cg_finite sg st.subspace hc
        have hrad : ∃ rad, FloatOps.sqrt (pyMax (P.delta * P.delta - norm st.ss0 * norm st.ss0) (Fides.lit 0)) = fin rad := by
          rw [hP.delta, hss0, norm_ofV, fin_mul, fin_mul, fin_sub, lit_def, pyMax_fin, fin_sqrt _ (by push_cast; exact le_max_right _ _)]
          exact ⟨_, rfl⟩
        obtain ⟨rad, hrad⟩ := hrad
        rw [hP.shess, hP.sg, hM, hgg, hrad] at hnd
        obtain ⟨r, rfl⟩ := solveNd_finite O hO M gg rad sc ty hnd
        obtain ⟨q, hq⟩ := subDot_finite st.subspace (List.ofFn (ofV r)) hc (by
          intro t ht; rw [List.mem_ofFn] at ht; obtain ⟨i, rfl⟩ := ht; exact ⟨_, rfl⟩)
        left
        exact ⟨⟨_, by show sdot P.scaling _ = _; rw [hq, hP.scaling, sdot_finite]⟩, _, hq⟩

theorem finCols_normalize (cols : List (Vec Num n)) (h : FinCols cols) : FinCols (cols.map normalize) := by
  intro c hc
  obtain ⟨c', hc', rfl⟩ := List.mem_map.mp hc
  obtain ⟨r, rfl⟩ := h c' hc'
  exact ⟨_, normalize_ofV r⟩

theorem finCols_reduce (im : Fin n → Bool) (cols : List (Vec Num n)) (h : FinCols cols) : FinCols (reduceSubspace im cols) := by
  refine finCols_normalize hP _ ?_
  intro c hc
  obtain ⟨c', hc', rfl⟩ := List.mem_map.mp (List.mem_of_mem_filter hc)
  obtain ⟨r, rfl⟩ := h c' hc'
  refine ⟨fun i => if im i = true then 0 else r i, funext fun i => ?_⟩
  simp only [ofV_apply]
  split <;> simp

theorem finCols_orth (a b : Fin n → ℝ) : FinCols (subspace2dOrth (ofV a) (ofV b)) := by
  rw [subspace2dOrth]
  simp only [normalize_ofV, dot_ofV]
  have : (fun i => ofV ((rnorm a)⁻¹ • a) i * fin (rdot ((rnorm a)⁻¹ • a) b)) = ofV (rdot ((rnorm a)⁻¹ • a) b • ((rnorm a)⁻¹ • a)) := by
    funext i; simp [mul_comm]
  rw [this, vsub_ofV]
  split
  · intro c hc
    simp only [List.mem_cons, List.not_mem_nil, or_false] at hc
    rcases hc with rfl | rfl
    · exact ⟨_, rfl⟩
    · exact ⟨_, normalize_ofV _⟩
  · intro c hc
    simp only [List.mem_cons, List.not_mem_nil, or_false] at hc
    rw [hc]; exact ⟨_, rfl⟩

theorem subspace2d_finCols (hn : 1 < n) (O : Oracles Num) (hO : FiniteOracles O) (cols : List (Vec Num n)) (pd nw : Option Bool)
    (h : subspace2d O P = .ok (cols, pd, nw)) : FinCols cols := by
  rw [subspace2d, hP.shess, hP.sg] at h
  split at h
  · cases h
  · rename_i newt0 hl
    obtain ⟨nr, rfl⟩ := hO.lstsq _ _ _ hl
    split at h
    · cases h
    · rename_i re ab v he
      obtain ⟨V, rfl⟩ := hO.npEig _ _ _ _ he
      rw [if_neg (by omega)] at h
      split at h
      · simp only at h
        split at h
        · cases h
          intro c hc
          simp only [List.mem_cons, List.not_mem_nil, or_false] at hc
          rw [hc, vneg_ofV]; exact ⟨_, normalize_ofV _⟩
        · cases h
          rw [vneg_ofV]; exact finCols_orth hP _ _
      · split at h
        · cases h
        · rename_i j hj
          cases h
          have : ∃ r, sdot P.scaling (fun i => fsign (ofV sg i) + (if feq (ofV sg i) (Fides.lit 0) = true then Fides.lit 1 else Fides.lit 0)) = ofV r := by
            have : ∃ r : Fin n → ℝ, (fun i => fsign (ofV sg i) + (if feq (ofV sg i) (Fides.lit 0) = true then Fides.lit 1 else (Fides.lit 0 : Num))) = ofV r := by
              have : ∀ i, ∃ r : ℝ, fsign (ofV sg i) + (if feq (ofV sg i) (Fides.lit 0) = true then Fides.lit 1 else (Fides.lit 0 : Num)) = fin r := by
                intro i
                have h1 : ∃ r, fsign (ofV sg i) = fin r := by
                  unfold fsign
                  split
                  · exact ⟨_, rfl⟩
                  · split
                    · exact ⟨_, rfl⟩
                    · split <;> exact ⟨_, rfl⟩
                obtain ⟨r, hr⟩ := h1
                rw [hr]
                split <;> exact ⟨_, rfl⟩
              choose r hr using this
              exact ⟨r, funext hr⟩
            obtain ⟨r, hr⟩ := this
            rw [hr, hP.scaling, sdot_finite]; exact ⟨_, rfl⟩
          obtain ⟨r, hr⟩ := this
          rw [hr]
          exact finCols_orth hP (fun i => V i j) r

/-- the Steihaug solver on finite data -/
theorem steihaugLoop_finite (hn : 0 < n) (eps : ℝ) (he : 0 < eps) (m : ℕ) (z r dd : Fin n → ℝ) (hr : r ≠ 0 ∨ rdot dd (rmv B dd) ≤ 0) (o : CGOut Num n)
    (h : steihaugLoop P (fin eps) m (ofV z) (ofV r) (ofV dd) = .ok o) :
    FinCols o.subspace ∧ (∃ q, o.ss0 = ofV q) ∧ ((∃ q, o.ss = ofV q) ∨ ∀ i, o.ss i = nan) ∧
      ((∃ q, o.ss = ofV q) → ∀ t ∈ o.sc, ∃ q, t = fin q) := by
  induction m generalizing z r dd with
  | zero => simp [steihaugLoop] at h
  | succ m ih =>
    have hexit : ∀ t : Num, t = boundarySolution1d P.shess P.sg (ofV dd) (ofV z) P.delta * Fides.lit 1 →
        o = { subspace := [ofV dd], sc := [t], ss := subDot [ofV dd] [t], ss0 := ofV z } →
        FinCols o.subspace ∧ (∃ q, o.ss0 = ofV q) ∧ ((∃ q, o.ss = ofV q) ∨ ∀ i, o.ss i = nan) ∧
          ((∃ q, o.ss = ofV q) → ∀ t ∈ o.sc, ∃ q, t = fin q) := by
      rintro t ht rfl
      have ht' : NoInf t := by
        rw [ht, hP.shess, hP.sg, hP.delta]
        exact (boundary_noinf hn B sg dd z delta).mul_one
      refine ⟨by intro c hc; simp only [List.mem_cons, List.not_mem_nil, or_false] at hc; exact ⟨_, hc⟩, ⟨_, rfl⟩, ?_, ?_⟩
      · rcases ht' with rfl | ⟨q, rfl⟩
        · right; intro i; simp [subDot, sum_cons]
        · left; exact ⟨_, subDot_one _ _⟩
      · rintro ⟨q, hq⟩ t' ht''
        simp only [List.mem_cons, List.not_mem_nil, or_false] at ht''
        subst ht''
        rcases ht' with rfl | h
        · exfalso
          have := congrFun hq ⟨0, hn⟩
          simp [subDot, sum_cons] at this
        · exact h
    rcases le_or_gt (rdot dd (rmv B dd)) 0 with hc | hc
    · obtain ⟨t, h1, h2⟩ := cg_exit_curv P B delta eps hP.shess hP.delta m z r dd hc
      rw [h1] at h; cases h
      exact hexit t h2 rfl
    · have hr' : r ≠ 0 := by
        rcases hr with h | h
        · exact h
        · linarith
      rcases le_or_gt delta (rnorm (z + (rdot r r / rdot dd (rmv B dd)) • dd)) with hf | hf
      · obtain ⟨t, h1, h2⟩ := cg_exit_far P B delta eps hP.shess hP.delta m z r dd hc hf
        rw [h1] at h; cases h
        exact hexit t h2 rfl
      · rcases lt_or_ge (rnorm (r + (rdot r r / rdot dd (rmv B dd)) • rmv B dd)) eps with hs | hs
        · rw [cg_conv P B delta eps hP.shess hP.delta m z r dd hc hf hs] at h
          cases h
          refine ⟨?_, ⟨_, rfl⟩, Or.inl ⟨_, rfl⟩, ?_⟩
          · intro c hc; simp only [List.mem_cons, List.not_mem_nil, or_false] at hc; exact ⟨_, hc⟩
          · intro _ t ht; simp only [List.mem_cons, List.not_mem_nil, or_false] at ht; exact ⟨_, ht⟩
        · rw [cg_step P B delta eps hP.shess hP.delta m z r dd hr' hc hf hs] at h
          refine ih _ _ _ (Or.inl ?_) h
          intro h0
          rw [h0, rnorm_eq_zero.mpr rfl] at hs
          linarith

theorem stepSteihaug_finStep (hn : 0 < n) (fuel : ℕ) (st : Step Num n) (h : stepSteihaug fuel P = .ok st) : FinStep st := by
  obtain ⟨c, hc0, hc1, hc2, hc3⟩ := steihaug_eps sg
  simp only [stepSteihaug] at h
  split at h
  · cases h
  · split at h
    · cases h
    · rename_i o ho
      cases h
      rw [hP.sg, hc3, vzero_ofV, vneg_ofV] at ho
      have key : FinCols o.subspace ∧ (∃ q, o.ss0 = ofV q) ∧ ((∃ q, o.ss = ofV q) ∨ ∀ i, o.ss i = nan) ∧
          ((∃ q, o.ss = ofV q) → ∀ t ∈ o.sc, ∃ q, t = fin q) := by
        by_cases hz : sg = 0
        · -- the loop leaves in the first pass
          obtain ⟨m, rfl⟩ : ∃ m, fuel = m + 1 := by
            cases fuel with
            | zero => simp [steihaugLoop] at ho
            | succ m => exact ⟨m, rfl⟩
          have hcv : rdot (-sg) (rmv B (-sg)) ≤ 0 := by rw [hz, neg_zero, zero_rdot]
          have h1 : steihaugLoop P (fin 1) (m + 1) (ofV 0) (ofV sg) (ofV (-sg)) = .ok o := by
            obtain ⟨t, h1, h2⟩ := cg_exit_curv P B delta (c * rnorm sg) hP.shess hP.delta m 0 sg (-sg) hcv
            obtain ⟨t', h1', h2'⟩ := cg_exit_curv P B delta 1 hP.shess hP.delta m 0 sg (-sg) hcv
            rw [h1'] ; rw [h1] at ho; rw [← ho, h2, h2']
          exact steihaugLoop_finite hP hn 1 one_pos (m + 1) 0 sg (-sg) (Or.inr hcv) o h1
        · exact steihaugLoop_finite hP hn _ (mul_pos (hc2 (rnorm_pos hz)) (rnorm_pos hz)) fuel 0 sg (-sg) (Or.inl hz) o ho
      obtain ⟨k1, ⟨q, k2⟩, k3, _⟩ := key
      refine finish_finStep hP _ _ k1 0 (by show vzero = _; rw [vzero_ofV]) ⟨q, k2⟩ ?_ ?_ ?_
      · show P.x = vadd P.x vzero
        rw [hP.x]; simp
      · intro i; right; exact ⟨x i, by show P.x i = _; rw [hP.x]; rfl, hP.box i⟩
      · rcases k3 with ⟨p, k3⟩ | k3
        · left
          refine ⟨⟨fun i => d i * (p + q) i, ?_⟩, p, k3⟩
          show sdot P.scaling (vadd o.ss o.ss0) = _
          rw [k2, k3, vadd_ofV, hP.scaling, sdot_finite]
        · right
          refine ⟨k3, fun i => ?_⟩
          show sdot P.scaling (vadd o.ss o.ss0) i = _ ∨ sdot P.scaling (vadd o.ss o.ss0) i = _
          rw [hP.scaling]
          exact sdot_nan d _ (fun i => by show o.ss i + o.ss0 i = nan; rw [k3]; simp) i

/-- every considered step on finite data (more than one variable, finite external routines) is finite or entirely NaN -/
theorem cand_finStep (hn : 1 < n) (O : Oracles Num) (hO : FiniteOracles O) (fuel : ℕ) (dim : SubSpaceDim) (st : Step Num n)
    (h : Cand O fuel P dim st) : FinStep st := by
  have hn0 : 0 < n := by omega
  have hz : ∃ r, (vzero : Vec Num n) = ofV r := ⟨_, vzero_ofV⟩
  have hx0 : P.x = vadd P.x (vzero : Vec Num n) := by rw [hP.x]; simp
  have hb0 : ∀ i, NanOrIn (P.lb i) (P.ub i) (P.x i) := fun i => by right; exact ⟨x i, by rw [hP.x]; rfl, hP.box i⟩
  induction h with
  | base st h =>
    cases dim with
    | two =>
      simp only [trStep, step2d] at h
      split at h
      · cases h
      · rename_i cols pd nw hs
        exact calculate_finStep hP hn0 O hO _ _ (subspace2d_finCols hP hn O hO _ _ _ hs) hz hz hx0 hb0 h
    | full =>
      simp only [trStep, stepFull] at h
      refine calculate_finStep hP hn0 O hO _ _ ?_ hz hz hx0 hb0 h
      intro c hc
      obtain ⟨j, rfl⟩ := List.mem_ofFn.mp hc
      exact ⟨fun i => if i = j then 1 else 0, funext fun i => by rw [meye_ofM]; rfl⟩
    | steihaug => exact stepSteihaug_finStep hP hn0 fuel st h
    | other => simp [trStep] at h
  | grad st h =>
    refine calculate_finStep hP hn0 O hO _ _ ?_ hz hz hx0 hb0 h
    intro c hc
    have : c = normalize P.sg := by simpa [Step.init] using hc
    rw [this, hP.sg, normalize_ofV]; exact ⟨_, rfl⟩
  | refl cur st hcur ha h ih =>
    have hf := cand_feas hP.x hP.theta hP.th0 hP.th1 hP.box O fuel dim cur hcur
    obtain ⟨r, hr0, hm, _⟩ := ih.cut ha
    obtain ⟨s0, hs0⟩ := ih.s0
    obtain ⟨ss0, hss0⟩ := ih.ss0
    have hog : (∃ r, cur.ogS = ofV r) ∧ ∃ r, cur.ogSs = ofV r := by
      rcases ih.og with h | ⟨h, _⟩
      · exact h
      · rw [h] at ha; simp at ha
    obtain ⟨⟨og, hog⟩, ogs, hogs⟩ := hog
    have hp : ∃ p, pyMin cur.minbr (Fides.lit 1) = fin p := by
      rw [hm, pyMin]; split <;> exact ⟨_, rfl⟩
    obtain ⟨p, hp⟩ := hp
    refine calculate_finStep hP hn0 O hO _ _ ?_ ?_ ?_ rfl ?_ h
    · intro c hc
      have : c = normalize (fun i => if cur.iminbr i = true then cur.ogSs i * Fides.lit (-1) else cur.ogSs i) := by
        simpa [reflectInit, Step.init] using hc
      have hv : (fun i => if cur.iminbr i = true then cur.ogSs i * Fides.lit (-1) else cur.ogSs i) =
          ofV (fun i => if cur.iminbr i = true then ogs i * ((-1 : ℚ) : ℝ) else ogs i) := by
        funext i
        simp only [hogs, ofV_apply, lit_def, fin_mul]
        split <;> rfl
      rw [this, hv, normalize_ofV]; exact ⟨_, rfl⟩
    · show ∃ r, vadd (vsmul (pyMin cur.minbr (Fides.lit 1)) cur.ogS) cur.s0 = ofV r
      rw [hp, hog, hs0, vsmul_ofV, vadd_ofV]; exact ⟨_, rfl⟩
    · show ∃ r, vadd (vsmul (pyMin cur.minbr (Fides.lit 1)) cur.ogSs) cur.ss0 = ofV r
      rw [hp, hogs, hss0, vsmul_ofV, vadd_ofV]; exact ⟨_, rfl⟩
    · intro i; exact hf.refl i
  | trunc cur st hcur ha h ih =>
    have hf := cand_feas hP.x hP.theta hP.th0 hP.th1 hP.box O fuel dim cur hcur
    obtain ⟨r, hr0, hm, _⟩ := ih.cut ha
    obtain ⟨s0, hs0⟩ := ih.s0
    obtain ⟨ss0, hss0⟩ := ih.ss0
    have hog : (∃ r, cur.ogS = ofV r) ∧ ∃ r, cur.ogSs = ofV r := by
      rcases ih.og with h | ⟨h, _⟩
      · exact h
      · rw [h] at ha; simp at ha
    obtain ⟨⟨og, hog⟩, ogs, hogs⟩ := hog
    have hbr : ∀ i, cur.iminbr i = true → cur.br i = fin r := fun i hi => by
      rw [feq_true_eq ((ih.imin i).mp hi), hm]
    refine calculate_finStep hP hn0 O hO _ _ (finCols_reduce hP _ _ ih.cols) ?_ ?_ rfl ?_ h
    · refine ⟨fun i => if cur.iminbr i = true then s0 i + theta * r * og i else s0 i, funext fun i => ?_⟩
      show (if cur.iminbr i = true then cur.s0 i + P.theta * cur.br i * cur.ogS i else cur.s0 i) = _
      simp only [ofV_apply]
      by_cases hi : cur.iminbr i = true
      · rw [if_pos hi, if_pos hi, hbr i hi, hs0, hog, hP.theta]; rfl
      · rw [if_neg hi, if_neg hi, hs0]; rfl
    · refine ⟨fun i => if cur.iminbr i = true then ss0 i + theta * r * ogs i else ss0 i, funext fun i => ?_⟩
      show (if cur.iminbr i = true then cur.ss0 i + P.theta * cur.br i * cur.ogSs i else cur.ss0 i) = _
      simp only [ofV_apply]
      by_cases hi : cur.iminbr i = true
      · rw [if_pos hi, if_pos hi, hbr i hi, hss0, hogs, hP.theta]; rfl
      · rw [if_neg hi, if_neg hi, hss0]; rfl
    · intro i
      show NanOrIn _ _ (P.x i + (if cur.iminbr i = true then cur.s0 i + P.theta * cur.br i * cur.ogS i else cur.s0 i))
      by_cases hi : cur.iminbr i = true
      · rw [if_pos hi]; exact hf.trunc ha i hi
      · rw [if_neg hi]
        have := hf.base i
        rw [hf.x] at this; exact this
  | refined cur st hcur h ih =>
    simp only [stepRefined] at h
    split at h
    · cases h
    · rename_i sc hsc
      cases h
      obtain ⟨l, rfl⟩ := hO.refine P cur sc hsc
      obtain ⟨q, hq⟩ := subDot_finite cur.subspace (l.map fin) ih.cols (by
        intro t ht; obtain ⟨r, _, rfl⟩ := List.mem_map.mp ht; exact ⟨r, rfl⟩)
      refine finish_finStep hP _ _ ih.cols 0 (by show vzero = _; rw [vzero_ofV]) hz hx0 hb0 (Or.inl ⟨⟨fun i => d i * q i, ?_⟩, q, hq⟩)
      · show sdot P.scaling (subDot cur.subspace (l.map fin)) = _
        rw [hq, hP.scaling, sdot_finite]

end

end Fides
