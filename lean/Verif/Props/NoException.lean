import Verif.Props.RunUpdate
import Verif.Props.SteihaugTotal
import Verif.Props.BoundedReach
import Verif.Spec.Routines
import Verif.Spec.Objective
import Verif.Props.Inside
import Verif.Props.BoundedNewton

/-!
# C68: well-behaved problems are minimized without an exception
-/

namespace Fides
open Num Spec
variable {n : ℕ}

/-! ## the subproblem solver -/

/-- the secular function has no NaN -/
theorem secular_num (w vals : Fin n → ℝ) (U : Fin n → Fin n → ℝ) (delta l : ℝ) (hd : delta ≠ 0) :
    (∃ r, secular (fin l) (ofV w) (ofV vals) (ofM U) (fin delta) = fin r) ∨ secular (fin l) (ofV w) (ofV vals) (ofM U) (fin delta) = pinf := by
  unfold secular
  split
  · exact Or.inr rfl
  · simp only [slam_fin, norm_ofV]
    split
    · rename_i h
      simp only [lit_def, Rat.cast_zero, fin_lt, decide_eq_true_eq] at h
      left
      rw [lit_def, fin_div _ _ h.ne', fin_div _ _ hd, fin_sub]
      exact ⟨_, rfl⟩
    · exact Or.inr rfl

/-- the bracketing loop keeps the sign at the left end, and stops with the other sign at the right end -/
theorem bracket_signs (sec : Num → Num) (hs : ∀ l : ℝ, (∃ r, sec (fin l) = fin r) ∨ sec (fin l) = pinf) (m : ℕ) (xa xb : ℝ) (ha : lt (sec (fin xa)) (fin 0) = true) :
    lt (sec (bracket sec m (fin xa) (fin xb)).2.1) (fin 0) = true ∧
      (0 < (bracket sec m (fin xa) (fin xb)).1 → le (fin 0) (sec (bracket sec m (fin xa) (fin xb)).2.2) = true) := by
  induction m generalizing xa xb with
  | zero => exact ⟨ha, fun h => absurd h (lt_irrefl 0)⟩
  | succ m ih =>
    unfold bracket
    split
    · rename_i h
      have h' : lt (sec (fin xb)) (fin 0) = true := by simpa using h
      have := ih xb (xb * 10) h'
      have e : (fin xb * Fides.lit 10 : Num) = fin (xb * 10) := by rw [lit_def, fin_mul]; norm_num
      rw [e]; exact this
    · rename_i h
      refine ⟨ha, fun _ => ?_⟩
      rcases hs xb with ⟨r, hr⟩ | hr
      · rw [hr] at h ⊢
        simp only [lit_def, Rat.cast_zero, fin_lt, decide_eq_true_eq, not_lt] at h
        simpa using h
      · show le (fin 0) (sec (fin xb)) = true
        rw [hr]; rfl

/-- the n-dimensional solver returns -/
theorem solveNd_ok (O : Oracles Num) (hF : FiniteOracles O) (hE : DocumentedErrors O) (hn : 0 < n) (B : Fin n → Fin n → ℝ) (hB : Sym B) (g : Fin n → ℝ) (delta : ℝ) :
    ∃ r, solveNd O.sub (ofM B) (ofV g) (fin delta) = .ok r := by
  unfold solveNd
  split
  · exact ⟨_, rfl⟩
  rename_i hd
  have hd : delta ≠ 0 := by simpa using hd
  obtain ⟨⟨v, U⟩, he⟩ := hE.eig B hB
  obtain ⟨⟨vals, rfl⟩, Ur, rfl⟩ := hF.eig B v U he
  obtain ⟨j, hj, -⟩ := argminIdx_fin vals hn
  simp only [he, hj]
  split
  · exact ⟨_, rfl⟩
  have hw : (fun i => -(dot (fun l => ofM Ur l i) (ofV g))) = ofV (fun i => -rdot (fun l => Ur l i) g) := by
    funext i
    exact congrArg Neg.neg (dot_ofV (fun l => Ur l i) g)
  rw [hw]
  set w : Fin n → ℝ := fun i => -rdot (fun l => Ur l i) g with hwd
  obtain ⟨li, hli⟩ : ∃ li : ℝ, (if lt (Fides.lit 0) (ofV vals j) = true then Fides.lit 0 else -(ofV vals j)) = fin li := by
    split
    · exact ⟨0, by simp⟩
    · exact ⟨-vals j, by simp⟩
  rw [hli]
  suffices h : lt (secular (fin li) (ofV w) (ofV vals) (ofM Ur) (fin delta)) (Fides.lit 0) = true → ∃ o, rootFind O.sub (ofV w) (ofV vals) (ofM Ur) (fin delta) (fin li) = .ok o by
    by_cases hsec : lt (secular (fin li) (ofV w) (ofV vals) (ofM Ur) (fin delta)) (Fides.lit 0) = true
    · obtain ⟨o, ho⟩ := h hsec
      simp only [hsec, if_true, ho]
      cases o <;> exact ⟨_, rfl⟩
    · simp only [hsec, if_false]
      exact ⟨_, rfl⟩
  intro hsec
  have hb : ∃ o, brentAttempt O.sub (ofV w) (ofV vals) (ofM Ur) (fin delta) (fin li) = .ok o := by
    unfold brentAttempt
    simp only
    have e : ∃ xb : ℝ, (fin li + FloatOps.sqrt (spacing1 : Num)) * Fides.lit 10 = fin xb := by
      rw [show (spacing1 : Num) = fin (1 / 4503599627370496) by norm_num [spacing1], fin_sqrt _ (by norm_num), fin_add, lit_def, fin_mul]
      exact ⟨_, rfl⟩
    obtain ⟨xb, hxb⟩ := e
    rw [hxb]
    have hs := bracket_signs (fun l => secular l (ofV w) (ofV vals) (ofM Ur) (fin delta)) (fun l => secular_num w vals Ur delta l hd) 100 li xb (by simpa using hsec)
    split
    · rename_i hq
      cases hbq : O.sub.brentq _ _ _ _ with
      | ok r => simp only; split <;> exact ⟨_, rfl⟩
      | error e =>
        have := hE.brentq (fun l => secular l (ofV w) (ofV vals) (ofM Ur) (fin delta)) _ _ _ _ hs.1 (hs.2 hq) hq hbq
        subst this
        exact ⟨_, rfl⟩
    · exact ⟨_, rfl⟩
  unfold rootFind
  simp only
  cases hnw : O.sub.newton _ _ _ with
  | ok r =>
    simp only
    split
    · exact ⟨_, rfl⟩
    · exact hb
  | error e =>
    have := hE.newton _ _ _ _ hnw
    subst this
    exact hb

/-! ## proposals -/

section
variable {P : Prob Num n} {x d sg : Fin n → ℝ} {B : Fin n → Fin n → ℝ} {delta theta : ℝ} (hP : RealProb P x d sg B delta theta) (hS : Sym B)
include hP hS

/-- the computation of a step from finite data returns -/
theorem calculate_returns (O : Oracles Num) (hF : FiniteOracles O) (hE : DocumentedErrors O) (st : Step Num n) (hc : FinCols st.subspace) (h0 : ∃ r, st.ss0 = ofV r) :
    ∃ st', st.calculate O.sub P = .ok st' := by
  by_cases hl : st.subspace.length ≤ 1
  · exact calculate_small O.sub P st hl
  unfold Step.calculate
  suffices h : ∃ st1, st.computeStep O.sub P = .ok st1 by
    obtain ⟨st1, h⟩ := h
    rw [h]; exact ⟨_, rfl⟩
  obtain ⟨q, h0⟩ := h0
  unfold Step.computeStep
  split
  · exact ⟨_, rfl⟩
  · exact ⟨_, rfl⟩
  · simp only
    obtain ⟨M, hM⟩ := chess_finite B st.subspace hc
    have hMs : Sym M := by
      intro a b
      obtain ⟨u, hu⟩ := hc _ (st.subspace.get_mem a)
      obtain ⟨w, hw⟩ := hc _ (st.subspace.get_mem b)
      have e1 := congrFun (congrFun hM a) b
      have e2 := congrFun (congrFun hM b) a
      rw [chess, hu, hw, mulVec_ofM, dot_ofV] at e1 e2
      rw [ofM_apply, fin_inj] at e1 e2
      rw [← e1, ← e2]
      rw [Sym.rdot_rmv hS, rdot_comm]
    obtain ⟨gg, hgg⟩ := cg_finite sg st.subspace hc
    have hrad : ∃ rad, FloatOps.sqrt (pyMax (P.delta * P.delta - norm st.ss0 * norm st.ss0) (Fides.lit 0)) = fin rad := by
      rw [hP.delta, h0, norm_ofV, fin_mul, fin_mul, fin_sub, lit_def, pyMax_fin, fin_sqrt _ (by push_cast; exact le_max_right _ _)]
      exact ⟨_, rfl⟩
    obtain ⟨rad, hrad⟩ := hrad
    rw [hP.shess, hP.sg, hM, hgg, hrad]
    obtain ⟨r, hr⟩ := solveNd_ok O hF hE (by omega) M hMs gg rad
    rw [hr]; exact ⟨_, rfl⟩

theorem stepTruncated_returns (hn : 1 < n) (O : Oracles Num) (hF : FiniteOracles O) (hE : DocumentedErrors O) (fuel : ℕ) (dim : SubSpaceDim) (cur : Step Num n)
    (hcur : Cand O fuel P dim cur) (ha : feq cur.alpha (Fides.lit 1) = false) : ∃ st, stepTruncated O P cur = .ok st := by
  have ih := cand_finStep hP hn O hF fuel dim cur hcur
  obtain ⟨r, hr0, hm, _⟩ := ih.cut ha
  obtain ⟨ss0, hss0⟩ := ih.ss0
  have hog : (∃ r, cur.ogS = ofV r) ∧ ∃ r, cur.ogSs = ofV r := by
    rcases ih.og with h | ⟨h, _⟩
    · exact h
    · rw [h] at ha; simp at ha
  obtain ⟨-, ogs, hogs⟩ := hog
  have hbr : ∀ i, cur.iminbr i = true → cur.br i = fin r := fun i hi => by
    rw [feq_true_eq ((ih.imin i).mp hi), hm]
  refine calculate_returns hP hS O hF hE _ (finCols_reduce hP _ _ ih.cols) ?_
  refine ⟨fun i => if cur.iminbr i = true then ss0 i + theta * r * ogs i else ss0 i, funext fun i => ?_⟩
  show (if cur.iminbr i = true then cur.ss0 i + P.theta * cur.br i * cur.ogSs i else cur.ss0 i) = _
  simp only [ofV_apply]
  by_cases hi : cur.iminbr i = true
  · rw [if_pos hi, if_pos hi, hbr i hi, hss0, hogs, hP.theta]; rfl
  · rw [if_neg hi, if_neg hi, hss0]; rfl

/-- truncation returns -/
theorem truncate_returns (hn : 1 < n) (O : Oracles Num) (hF : FiniteOracles O) (hE : DocumentedErrors O) (dim : SubSpaceDim) (tr : Step Num n)
    (hc : Cand O n P dim tr) (ha : feq tr.alpha (Fides.lit 1) = false) : ∃ l, stepbackTruncate O P n tr = .ok l := by
  unfold stepbackTruncate
  obtain ⟨st, hst⟩ := stepTruncated_returns hP hS hn O hF hE n dim tr hc ha
  rw [hst]
  simp only
  have hcst : Cand O n P dim st := .trunc tr st hc ha hst
  have hsub := stepTruncated_subspace O P tr st hst
  rcases truncateLoop_total hP hn O hF n dim n st hcst (fun i h => calculate_dead O.sub P _ st hst i (by rw [hsub] at h; exact h)) (by
      classical
      unfold liveRows
      exact (Finset.card_le_univ _).trans (by simp)) with ⟨l, hl, -⟩ | ⟨e, c, he, hcc, hca, hce⟩
  · rw [hl]; exact ⟨_, rfl⟩
  · obtain ⟨st', hst'⟩ := stepTruncated_returns hP hS hn O hF hE n dim c hcc hca
    rw [hst'] at hce
    cases hce

/-- the two-dimensional step returns -/
theorem step2d_returns (hn : 0 < n) (O : Oracles Num) (hF : FiniteOracles O) (hE : DocumentedErrors O) : ∃ st, step2d O P = .ok st := by
  have hs : ∃ r, subspace2d O P = .ok r := by
    unfold subspace2d
    obtain ⟨newt, h1⟩ := hE.lstsq B sg hS
    obtain ⟨⟨re, ab, v⟩, h2⟩ := hE.npEig B hS
    obtain ⟨j, hj⟩ : ∃ j, argminIdx re = some j := by
      unfold argminIdx
      split
      · rename_i h; have := congrArg List.length h; simp at this; omega
      · exact ⟨_, rfl⟩
    rw [hP.shess, hP.sg, h1, h2]
    simp only [hj]
    split
    · exact ⟨_, rfl⟩
    split
    · split <;> exact ⟨_, rfl⟩
    · exact ⟨_, rfl⟩
  obtain ⟨⟨cols, pd, nw⟩, hs⟩ := hs
  unfold step2d
  rw [hs]
  simp only
  by_cases h1 : 1 < n
  · exact calculate_returns hP hS O hF hE _ (subspace2d_finCols hP h1 O hF cols pd nw hs) ⟨_, vzero_ofV⟩
  · refine calculate_small O.sub P _ ?_
    have hn1 : n = 1 := by omega
    unfold subspace2d at hs
    split at hs
    · cases hs
    split at hs
    · cases hs
    rw [if_pos hn1] at hs
    cases hs
    simp [Step.init]

/-- the full-space step returns -/
theorem stepFull_returns (O : Oracles Num) (hF : FiniteOracles O) (hE : DocumentedErrors O) : ∃ st, stepFull O P = .ok st := by
  refine calculate_returns hP hS O hF hE _ ?_ ⟨_, vzero_ofV⟩
  intro c hc
  obtain ⟨j, rfl⟩ := List.mem_ofFn.mp hc
  exact ⟨fun i => if i = j then 1 else 0, funext fun i => by rw [meye_ofM]; rfl⟩

end

/-- **C68.** A proposal is computed from finite data without an exception: for every solver and step-back strategy, at every point of the box with finite derivatives and
a symmetric Hessian, if the external routines return finite results and raise exceptions only as documented. -/
theorem C68_trust_region {I : TRIn Num n} {x d g dv : Fin n → ℝ} {H : Fin n → Fin n → ℝ} {delta theta : ℝ} (hI : RealData I x d g dv H delta theta) (h0 : 0 < theta)
    (h1 : theta ≤ 1) (hbox : InBox I.lb I.ub x) (hn : 0 < n) (O : Oracles Num) (hF : FiniteOracles O) (hE : DocumentedErrors O)
    (dim : SubSpaceDim) (hdim : dim ≠ .other) (strat : StepBackStrategy) : ∃ st, trustRegion O n dim strat I = .ok st := by
  by_cases hsd : dim = .steihaug
  · subst hsd; exact C66_total hI h0 h1 hbox hn O strat
  have hP := RealData.prob hI h0 h1 hbox
  have hS := sym_scaled (fun i => d i) (fun i => |g i| * dv i) hI.sym
  have hb : ∃ tr, trStep O n I.prob dim = .ok tr := by
    cases dim with
    | two => exact step2d_returns hP hS hn O hF hE
    | full => exact stepFull_returns hP hS O hF hE
    | steihaug => exact absurd rfl hsd
    | other => exact absurd rfl hdim
  obtain ⟨tr, htr⟩ := hb
  suffices h : ∃ r, candidates O n I.prob dim strat = .ok r by
    obtain ⟨⟨a, l⟩, h⟩ := h
    unfold trustRegion
    rw [h]; exact ⟨_, rfl⟩
  unfold candidates
  rw [htr]
  simp only
  split
  swap; · exact ⟨_, rfl⟩
  rename_i hcond
  simp only [lit_def, Rat.cast_one, Bool.and_eq_true, decide_eq_true_eq] at hcond
  obtain ⟨gs, hg⟩ := stepGradient_small O I.prob
  rw [hg]
  obtain ⟨a, ha⟩ := stepbackReflect_small O I.prob tr
  obtain ⟨b, hb⟩ := truncate_returns hP hS hcond.2 O hF hE dim tr (.base tr htr) (cut_ne hcond.1)
  suffices h : ∃ r, stepbackCandidates O n I.prob strat tr = .ok r by
    obtain ⟨r, h⟩ := h
    rw [h]; exact ⟨_, rfl⟩
  cases strat with
  | singleReflect =>
    obtain ⟨st, h⟩ := stepReflected_small O I.prob tr
    simp only [stepbackCandidates, h]; exact ⟨_, rfl⟩
  | reflect => exact ⟨a, ha⟩
  | truncate => exact ⟨b, hb⟩
  | mixed => simp only [stepbackCandidates, ha, hb]; exact ⟨_, rfl⟩
  | refine =>
    simp only [stepbackCandidates]
    split
    · obtain ⟨r, hr⟩ := hE.refine I.prob tr
      simp only [stepRefined, hr]; exact ⟨_, rfl⟩
    · exact ⟨_, rfl⟩
  | other => exact ⟨_, rfl⟩

/-! ## runs -/

variable {E : Env Num n} {x0 : Vec Num n} {startId : String} {hess0 : Hess0 Num} {st0 : St Num n}

theorem shrunk_isReal (a : ℝ) (v : Vec Num n) : ∃ d : ℝ, nanMin2 (fin a) (norm v / lit 4) = fin d := by
  rcases norm_cases v with ⟨r, hr, h⟩ | h | h
  · rw [h, lit_def, fin_div _ _ (by norm_num)]
    unfold nanMin2
    rw [fin_isNaN, fin_isNaN, fin_lt]
    simp only [Bool.false_eq_true, if_false, decide_eq_true_eq]
    split <;> exact ⟨_, rfl⟩
  · rw [h, lit_def, pinf_div_fin]
    refine ⟨a, ?_⟩
    norm_num [nanMin2]
  · rw [h, nan_div]
    exact ⟨a, by simp [nanMin2]⟩

/-- the trust radius stays a number -/
theorem head_delta_real (hp : RealParams E) (k : ℕ) (st : St Num n) (cur : Funout Num n) (h : LoopHead E x0 startId hess0 st0 k st cur) : ∃ D : ℝ, st.delta = fin D := by
  induction k generalizing st cur with
  | zero =>
    obtain ⟨D, hD⟩ := hp.deltaInit
    exact ⟨D, by rw [start_delta E x0 startId hess0 st0 st cur h, hD]⟩
  | succ k ih =>
    obtain ⟨prev, cur0, step, new, hhp, hpass⟩ := loopHead_pass E x0 startId hess0 st0 k st cur h
    obtain ⟨d, hd⟩ := ih prev cur0 hhp
    have hr := C16_rule E prev st cur0 cur new step hpass
    simp only at hr
    obtain ⟨g1, hg1⟩ := hp.gamma1
    obtain ⟨g2, hg2⟩ := hp.gamma2
    rw [hr, hd, hg1, hg2]
    split
    · exact ⟨g2 * d, fin_mul _ _⟩
    · split
      · rw [fin_mul]; exact shrunk_isReal _ _
      · exact ⟨d, rfl⟩

/-- what the driver makes of a call of the objective: `w` says that the objective returns a Hessian -/
def GoodCalls (E : Env Num n) (w : Bool) : Prop :=
  ∀ k (v : Vec Num n), NanOrInBox E.lb E.ub v → ∃ (raw : RawOut Num) (fv : Num) (gr : Vec Num n) (he : Option (Mat Num n n)) (rest : List (PyVal Num)),
    E.obj k v = .tuple (.scalar fv :: rest) ∧ funEval E.nargout E.resfun (E.obj k v) = .ok raw ∧ checkdims n raw = .ok () ∧
    (w = true → raw.hess ≠ .none ∧ he ≠ none) ∧
    (∀ xId, raw.typed v xId = some { x := v, xId := xId, fval := fv, grad := gr, hess := he, res := none }) ∧
    (isFinite fv = true → (∀ i, v i ≠ nan) ∧ (∃ g, gr = ofV g) ∧ ∀ m, he = some m → ∃ B, m = ofM B ∧ Sym B)

theorem clean_eval (hC : CleanObjective E) : GoodCalls E true := by
  intro k v hv
  obtain ⟨fv, gr, he, h1, h2⟩ := hC.obj k v hv
  refine ⟨{ fval := .scalar fv, grad := .ofVec gr, hess := .ofMat he, res := .none, sres := .none }, fv, gr, some he, _, h1, ?_, ?_, ?_, ?_, fun hf => ?_⟩
  · rw [hC.nargout, hC.resfun, h1]; rfl
  · simp [checkdims, PyVal.ofVec, PyVal.ofMat]
  · simp [PyVal.ofMat]
  · intro xId
    have e1 := toMat_ofMat he
    simp only [RawOut.typed, toVec_ofVec]
    simp only [PyVal.ofMat] at e1 ⊢
    rw [e1]
    rfl
  · obtain ⟨a, b, c⟩ := h2 hf
    exact ⟨a, b, fun m hm => by cases hm; exact c⟩

theorem gradients_eval (hC : CleanGradients E) : GoodCalls E false := by
  intro k v hv
  obtain ⟨fv, gr, h1, h2⟩ := hC.obj k v hv
  refine ⟨{ fval := .scalar fv, grad := .ofVec gr, hess := .none, res := .none, sres := .none }, fv, gr, none, _, h1, ?_, ?_, ?_, ?_, fun hf => ?_⟩
  · rw [hC.nargout, hC.resfun, h1]; rfl
  · simp [checkdims, PyVal.ofVec]
  · intro h; cases h
  · intro xId
    simp only [RawOut.typed, toVec_ofVec]
    rfl
  · obtain ⟨a, b⟩ := h2 hf
    exact ⟨a, b, fun m hm => by cases hm⟩

theorem inBox_nanOr {lb ub : Vec Num n} {z : Fin n → ℝ} (h : InBox lb ub z) : NanOrInBox lb ub (ofV z) := fun i => Or.inr ⟨z i, rfl, h i⟩

theorem nanOr_real {lb ub v : Vec Num n} (h : NanOrInBox lb ub v) (hn : ∀ i, v i ≠ nan) : ∃ z, v = ofV z ∧ InBox lb ub z := by
  have : ∀ i, ∃ r, v i = fin r ∧ InBox1 (lb i) (ub i) r := fun i => (h i).resolve_left (hn i)
  choose z hz using this
  exact ⟨z, funext fun i => (hz i).1, fun i => (hz i).2⟩

/-! ### approximations that stay finite -/

/-- an iterative scheme that is safe and positive definite now -/
def SafeIter (a : IterApprox Num n) : Prop := (∃ phi : ℝ, 0 ≤ phi ∧ a.scheme = .broyden (fin phi) true) ∧ FinSPD a.hess

/-- the approximation stays finite and symmetric under any update with finite data; `w`: the objective returns Hessians -/
def SafeHapp (w : Bool) : Happ Num n → Prop
  | .iter a => SafeIter a
  | .hybridFixed _ _ h => w = true ∧ SafeIter h.inner ∧ ∃ B, h.hess = ofM B ∧ Sym B
  | .hybridFraction _ _ h => w = true ∧ SafeIter h.inner ∧ ∃ B, h.hess = ofM B ∧ Sym B
  | _ => False

theorem FinSPD.sym {m : Mat Num n n} (h : FinSPD m) : ∃ B, m = ofM B ∧ Sym B := by
  obtain ⟨B, hB, hS, -⟩ := h
  exact ⟨B, hB, hS⟩

theorem safe_mat {w : Bool} {h : Happ Num n} (hs : SafeHapp w h) : ∃ B, h.getMat = ofM B ∧ Sym B := by
  cases h with
  | iter a => exact FinSPD.sym hs.2
  | hybridFixed k sw h => exact hs.2.2
  | hybridFraction t sw h => exact hs.2.2
  | _ => exact hs.elim

theorem safe_iter_init {a : IterApprox Num n} (hs : ∃ phi : ℝ, 0 ≤ phi ∧ a.scheme = .broyden (fin phi) true) (m : Option (Mat Num n n)) (hm : ∀ b, m = some b → FinSPD b) :
    SafeIter (a.initMat m) := by
  refine ⟨hs, ?_⟩
  cases m with
  | none => exact ⟨idM, meye_ofM, Sym_idM, PD_idM⟩
  | some b => exact hm b rfl

theorem safe_init {w : Bool} {h : Happ Num n} (hs : SafeUpdate h) (hw : h.requiresHess = true → w = true) (m : Option (Mat Num n n)) (hm : ∀ b, m = some b → FinSPD b) :
    SafeHapp w (h.initMat m) := by
  have hh : ∃ B, m.getD meye = ofM B ∧ Sym B := by
    cases m with
    | none => exact ⟨idM, meye_ofM, Sym_idM⟩
    | some b => exact FinSPD.sym (hm b rfl)
  cases hs with
  | iter a phi h0 h1 => exact safe_iter_init ⟨phi, h0, h1⟩ m hm
  | fixed k sw h phi h0 h1 => exact ⟨hw rfl, safe_iter_init ⟨phi, h0, h1⟩ m hm, hh⟩
  | fraction t sw h phi h0 h1 => exact ⟨hw rfl, safe_iter_init ⟨phi, h0, h1⟩ m hm, hh⟩

theorem safe_iter_update {a : IterApprox Num n} (hs : SafeIter a) (s y : Fin n → ℝ) : SafeIter (a.update (ofV s) (ofV y)) := by
  obtain ⟨⟨phi, h0, h1⟩, h2⟩ := hs
  exact ⟨⟨phi, h0, by simp only [IterApprox.update, h1]⟩, C33_step a phi h0 h1 h2 s y⟩

theorem safe_update {w : Bool} {h : Happ Num n} (hs : SafeHapp w h) (st : St Num n) (step : Step Num n) (new old : Funout Num n) (s y : Fin n → ℝ)
    (e1 : vadd step.s step.s0 = ofV s) (e2 : vsub new.grad st.grad = ofV y) (hw : w = true → new.hess ≠ none) (hm : ∀ m, new.hess = some m → ∃ B, m = ofM B ∧ Sym B) :
    ∃ h', updateHapp st h step new old = .ok h' ∧ SafeHapp w h' := by
  have key : ∀ (hy : Hybrid Num n) (sw : Bool) (B : Fin n → Fin n → ℝ), SafeIter hy.inner → Sym B →
      SafeIter (hy.switchedUpdate sw (ofV s) (ofV y) (ofM B)).inner ∧ ∃ B', (hy.switchedUpdate sw (ofV s) (ofV y) (ofM B)).hess = ofM B' ∧ Sym B' := by
    intro hy sw B h1 hB
    have h2 := safe_iter_update h1 s y
    refine ⟨h2, ?_⟩
    cases sw
    · exact ⟨B, rfl, hB⟩
    · exact FinSPD.sym h2.2
  cases h with
  | iter a => exact ⟨_, rfl, by rw [e1, e2]; exact safe_iter_update hs s y⟩
  | hybridFixed k sw hy =>
    obtain ⟨h1, h2, h3⟩ := hs
    obtain ⟨m, hnew⟩ := Option.ne_none_iff_exists'.mp (hw h1)
    obtain ⟨B, rfl, hB⟩ := hm m hnew
    exact ⟨Happ.updateFixed k sw hy (ofV s) (ofV y) (ofM B) st.iterSinceTr, by simp only [updateHapp, hnew, e1, e2], h1, key hy sw B h2 hB⟩
  | hybridFraction t sw hy =>
    obtain ⟨h1, h2, h3⟩ := hs
    obtain ⟨m, hnew⟩ := Option.ne_none_iff_exists'.mp (hw h1)
    obtain ⟨B, rfl, hB⟩ := hm m hnew
    exact ⟨Happ.updateFraction t sw hy (ofV s) (ofV y) (ofM B) st.nIntermediate st.iteration, by simp only [updateHapp, hnew, e1, e2], h1, key hy sw B h2 hB⟩
  | _ => exact hs.elim

/-- no approximation and an objective with Hessians, or a safe approximation -/
def SafeState (w : Bool) : Option (Happ Num n) → Prop
  | none => w = true
  | some h => SafeHapp w h

/-- the start of a run from which the Hessian in use stays finite -/
def SafeStart (w : Bool) (happ : Option (Happ Num n)) (hess0 : Hess0 Num) : Prop :=
  match happ with
  | none => w = true
  | some h => SafeUpdate h ∧ (h.requiresHess = true → w = true) ∧ (hess0 = .val .none ∨ ∃ m : Mat Num n n, hess0 = .val (.ofMat m) ∧ FinSPD m)

theorem safe_initialHapp {w : Bool} {happ : Option (Happ Num n)} (hs : SafeStart w happ hess0) (raw : RawOut Num) (hraw : w = true → raw.hess ≠ .none) :
    ∃ happ', initialHapp happ hess0 raw = .ok happ' ∧ SafeState w happ' ∧ (happ' = none ↔ happ = none) := by
  cases happ with
  | none =>
    have h := hraw hs
    refine ⟨none, ?_, hs, by simp⟩
    unfold initialHapp
    simp only
  | some h =>
    obtain ⟨h1, h2, h3⟩ := hs
    have : ∃ v, hess0 = .val v ∧ ∃ m, initHapp h v = .ok (h.initMat m) ∧ ∀ b, m = some b → FinSPD b := by
      rcases h3 with h3 | ⟨m, h3, hm⟩
      · exact ⟨_, h3, none, rfl, fun b hb => by cases hb⟩
      · refine ⟨_, h3, some m, ?_, fun b hb => by cases hb; exact hm⟩
        have e1 := toMat_ofMat m
        simp only [PyVal.ofMat] at e1
        simp [initHapp, PyVal.ofMat, initShapeCheck, e1]
    obtain ⟨v, hv, m, hm, hb⟩ := this
    refine ⟨some (h.initMat m), ?_, safe_init h1 h2 m hb, by simp⟩
    unfold initialHapp
    simp only [hv, hm]

/-- the point, gradient and Hessian at the head of the loop are numbers, the approximation is safe -/
theorem clean_head {w : Bool} (hC : GoodCalls E w) (h0 : SafeStart w st0.happ hess0) (k : ℕ) (st : St Num n) (cur : Funout Num n) (h : LoopHead E x0 startId hess0 st0 k st cur) :
    (∃ (x g : Fin n → ℝ) (B : Fin n → Fin n → ℝ), st.x = ofV x ∧ InBox E.lb E.ub x ∧ st.grad = ofV g ∧ st.hess = ofM B ∧ Sym B) ∧ SafeState w st.happ := by
  have hcur : ∀ k st cur, LoopHead E x0 startId hess0 st0 k st cur → (∃ g, cur.grad = ofV g) ∧ (w = true → cur.hess ≠ none) ∧ ∀ m, cur.hess = some m → ∃ B, m = ofM B ∧ Sym B := by
    intro k st cur h
    have hi := headInv E x0 startId hess0 st0 k st cur h
    obtain ⟨z, hz, hzb⟩ := inBounds_real_of _ _ _ hi.bounds
    obtain ⟨m, raw, h1, h2⟩ := head_evaluated E x0 startId hess0 st0 k st cur h
    rw [hz] at h1 h2
    obtain ⟨raw', fv, gr, he, rest, -, h3, -, h6, h4, h5⟩ := hC m (ofV z) (inBox_nanOr hzb)
    rw [h1] at h3; cases h3
    rw [h4] at h2
    have hcur := Option.some.inj h2
    have hfv : cur.fval = fv := by rw [← hcur]
    have hgr : cur.grad = gr := by rw [← hcur]
    have hhe : cur.hess = he := by rw [← hcur]
    have hf := ((allFinite_iff _ _ _).mp hi.finite).1
    rw [hfv] at hf
    obtain ⟨-, hg, hB⟩ := h5 hf
    exact ⟨by rw [hgr]; exact hg, fun hw => by rw [hhe]; exact (h6 hw).2, by rw [hhe]; exact hB⟩
  have hsafe : SafeState w st.happ := by
    induction k generalizing st cur with
    | zero =>
      cases h with
      | start s _ _ hb hs =>
        obtain ⟨rfl, _⟩ := checkInBounds_ok _ _ _ _ hb
        obtain ⟨raw, happ, hraw, h2, _, h4, hcx, _, _, h8⟩ := setup_ok _ _ _ _ _ hs
        have h2' : initialHapp st0.happ hess0 raw = .ok happ := h2
        obtain ⟨z, hz, hzb⟩ := inBounds_real_of _ _ _ (headInv E x0 startId hess0 st0 0 _ _ (.start _ _ _ hb hs)).bounds
        obtain ⟨b, c, d, e, hf⟩ := setupState_frame (startState E x0 startId st0) cur happ
        rw [hcx] at hz
        rw [hz] at hraw
        obtain ⟨raw', fv, gr, he, rest, -, h3, -, h6, -⟩ := hC _ (ofV z) (inBox_nanOr hzb)
        rw [hraw] at h3; cases h3
        obtain ⟨happ', h7, h9, -⟩ := safe_initialHapp h0 raw (fun hw => (h6 hw).1)
        rw [h2'] at h7; cases h7
        have hh : st.happ = happ := by
          rw [h8]
          show (setupState (startState E x0 startId st0) cur happ).happ = _
          rw [hf]
        rw [hh]; exact h9
    | succ k ih =>
      obtain ⟨prev, cur0, step, new, hh, hp⟩ := loopHead_pass E x0 startId hess0 st0 k st cur h
      have ihm := ih prev cur0 hh
      have hf := pass_facts E _ _ _ _ _ _ hp
      rcases hf.cases with ⟨hacc, h1, _, _, h2, h3⟩ | ⟨_, _, _, _, _, h5, h6⟩
      · obtain ⟨x, s, gc, gn, hx, hs, hxn, hgc, hgn⟩ := accepted_finite E x0 startId hess0 st0 k prev st cur0 cur new step hh hp hacc
        obtain ⟨-, hw, hm⟩ := hcur (k + 1) st cur h
        rw [h1] at hw hm
        rcases pass_update E prev st cur0 cur new step hp hacc with ⟨g, g', e1, e2, e3, e4⟩ | ⟨e1, e2, -⟩
        · rw [e1] at ihm
          obtain ⟨h', e5, e6⟩ := safe_update ihm { st with grad := prev.grad } step new cur0 s (gn - gc) hs
            (by
              show vsub new.grad prev.grad = _
              rw [(headInv E x0 startId hess0 st0 k prev cur0 hh).grad, hgc, hgn, vsub_ofV]) hw hm
          rw [e2] at e5; cases e5
          rw [e3]; exact e6
        · rw [e1] at ihm
          rw [e2]; exact ihm
      · rw [h6]; exact ihm
  refine ⟨?_, hsafe⟩
  obtain ⟨x, hx, hbox⟩ := C01_current E x0 startId hess0 st0 k st cur h
  have hi := headInv E x0 startId hess0 st0 k st cur h
  obtain ⟨⟨g, hg⟩, hw, hm⟩ := hcur k st cur h
  have hB : ∃ B, st.hess = ofM B ∧ Sym B := by
    cases hap : st.happ with
    | none => exact hm _ (hi.hess hap)
    | some a =>
      rw [head_hess E x0 startId hess0 st0 k st cur h a hap]
      rw [hap] at hsafe
      exact safe_mat hsafe
  obtain ⟨B, hB, hS⟩ := hB
  exact ⟨x, g, B, hx, hbox, by rw [hi.grad, hg], hB, hS⟩

/-- the point proposed at the head of the loop has each entry NaN or in its bounds -/
theorem head_trial (hU : UsesTrustRegion E) (hp : RealParams E) (k : ℕ) (st : St Num n) (cur : Funout Num n) (hh : LoopHead E x0 startId hess0 st0 k st cur)
    (step : Step Num n) (hstep : E.tr st.proposals (trInput E (preIter { st with ticks := st.ticks + 1 })) = .ok step) :
    NanOrInBox E.lb E.ub (trialPoint { st with ticks := st.ticks + 1 } step) := by
  obtain ⟨tm, htm, t0, t1⟩ := hp.thetaMax
  obtain ⟨O, fuel, hO⟩ := hU
  rw [hO] at hstep
  obtain ⟨x, d, th, hx, hbox, hd, hth, ht0, ht1⟩ := trInput_real E x0 startId hess0 st0 tm htm t0 t1 k st cur hh (preIter { st with ticks := st.ticks + 1 }) rfl rfl
  have hc := trustRegion_cand _ _ _ _ _ _ hstep
  have hf := cand_feas (P := (trInput E (preIter { st with ticks := st.ticks + 1 })).prob) hx hth ht0 ht1 hbox _ _ _ step hc
  exact fun i => hf.trial i

theorem add_finite {a r : ℝ} {p q : Num} (h : fin a + p + q = fin r) : ∃ t, p + q = fin t := by
  cases p <;> cases q <;> simp_all

/-- the loop body succeeds -/
theorem clean_iterate {w : Bool} (hC : GoodCalls E w) (happ : SafeStart w st0.happ hess0) (hp : RealParams E) (O : ℕ → Oracles Num)
    (hO : ∀ k I, E.tr k I = trustRegion (O k) n E.opts.subspaceDim E.opts.stepbackStrat I) (hn : 0 < n)
    (htr : ∀ I, (∃ x d g dv H delta theta, RealData I x d g dv H delta theta ∧ 0 < theta ∧ theta ≤ 1 ∧ InBox I.lb I.ub x) → ∀ k, ∃ step, E.tr k I = .ok step)
    (hevs : ∀ m, ∃ r, E.evs m = .ok r) (hcond : ∀ m, ∃ r, E.cond m = .ok r) {k : ℕ} {st : St Num n} {cur : Funout Num n}
    (hh : LoopHead E x0 startId hess0 st0 k st cur) : ∃ r, iterate E { st with ticks := st.ticks + 1 } cur = .ok r := by
  obtain ⟨⟨x, g, B, hx, hxb, hg, hH, hS⟩, hsafe⟩ := clean_head hC happ k st cur hh
  obtain ⟨D, hD⟩ := head_delta_real hp k st cur hh
  obtain ⟨tm, htm, ht0, ht1⟩ := hp.thetaMax
  have hhead := headInv E _ startId hess0 st0 k st cur hh
  have hrow := historyRow_total E hevs hcond
  obtain ⟨d, dv, th, hI, hth1, hth2, -, -⟩ := box_data tm htm ht0 ht1
    (preIter { st with ticks := st.ticks + 1 }) x g B D hx hg hH hS hD hxb
  obtain ⟨step, hstep⟩ := htr (trInput E (preIter { st with ticks := st.ticks + 1 })) ⟨_, _, _, _, _, _, _, hI, ht0.trans_le hth1, hth2, hxb⟩ st.proposals
  have htrial := head_trial ⟨O, n, hO⟩ hp k st cur hh step hstep
  obtain ⟨raw, fv, gr, he, rest, -, h1, -, h6, h4, h5⟩ := hC st.evals.length _ htrial
  have hnew : trialOut E { st with ticks := st.ticks + 1 } step =
      .ok { x := trialPoint { st with ticks := st.ticks + 1 } step, xId := st.nextId, fval := fv, grad := gr, hess := he, res := none } :=
    trialOut_forward E { st with ticks := st.ticks + 1 } step raw _ h1 (h4 _)
  cases hit : iterate E { st with ticks := st.ticks + 1 } cur with
  | ok r => exact ⟨r, rfl⟩
  | error e =>
    exfalso
    obtain ⟨e, st'⟩ := e
    rcases iterate_error E _ st' cur e hit with ⟨h1, _⟩ | ⟨_, h | ⟨step', hs', h⟩⟩
    · have h2 := ((allFinite_iff _ _ _).mp hhead.finite).1
      have h1' : allFinite st.fval st.grad (some st.hess) = false := h1
      rw [hhead.fval, hg, hH] at h1'
      simp [allFinite, vfinite, mfinite, h2] at h1'
    · have h1 := h.1
      simp only at h1
      rw [hstep] at h1; cases h1
    · simp only at hs'
      rw [hstep] at hs'; cases hs'
      rcases h with ⟨h, _⟩ | ⟨new', hnew', _, _, h⟩
      · rw [hnew] at h; cases h
      · rw [hnew] at hnew'; cases hnew'
        rcases h with ⟨hf, h, _⟩ | ⟨_, ⟨ha, h⟩ | ⟨_, _, h⟩ | ⟨_, _, h⟩⟩
        · obtain ⟨-, ⟨g', rfl⟩, hB'⟩ := h5 hf
          have hf' : isFinite fv = true := hf
          cases he with
          | none => simp [allFinite, vfinite, hf'] at h
          | some m =>
            obtain ⟨B', rfl, -⟩ := hB' m rfl
            simp [allFinite, vfinite, mfinite, hf'] at h
        · have hfin : isFinite fv = true := by
            by_contra hne
            have hne' : isFinite fv = false := by simpa using hne
            unfold radiusStep updateTrRadius at ha
            simp only [hne', Bool.not_false, if_true] at ha
            cases ha
          obtain ⟨hnan, ⟨g', rfl⟩, hB'⟩ := h5 hfin
          obtain ⟨y, hy, hyb⟩ := nanOr_real htrial hnan
          obtain ⟨r, d, i, m, ef, c, mx, mxi, mf, mg, hpf⟩ := postCheck_frame E { st with ticks := st.ticks + 1 } step
            { x := trialPoint { st with ticks := st.ticks + 1 } step, xId := st.nextId, fval := fv, grad := ofV g', hess := he, res := none }
          have hap : (postCheck E { st with ticks := st.ticks + 1 } step
            { x := trialPoint { st with ticks := st.ticks + 1 } step, xId := st.nextId, fval := fv, grad := ofV g', hess := he, res := none }).happ = st.happ := by rw [hpf]; rfl
          have hgp : (postCheck E { st with ticks := st.ticks + 1 } step
            { x := trialPoint { st with ticks := st.ticks + 1 } step, xId := st.nextId, fval := fv, grad := ofV g', hess := he, res := none }).grad = st.grad := by rw [hpf]; rfl
          generalize hpc : postCheck E { st with ticks := st.ticks + 1 } step
            { x := trialPoint { st with ticks := st.ticks + 1 } step, xId := st.nextId, fval := fv, grad := ofV g', hess := he, res := none } = pc at h hap hgp
          unfold update at h
          cases hs : st.happ with
          | none =>
            rw [hs] at hap hsafe
            rw [hap] at h
            obtain ⟨m, rfl⟩ := Option.ne_none_iff_exists'.mp (h6 hsafe).2
            simp only [checkInBounds, hy, inBounds_real _ _ _ hyb, if_true] at h
            cases h
          | some a =>
            rw [hs] at hap hsafe
            rw [hap] at h
            obtain ⟨s, hs'⟩ : ∃ s, vadd step.s step.s0 = ofV s := by
              have h1 : ∀ i, ∃ r, vadd step.s step.s0 i = fin r := by
                intro i
                have h2 : (st.x i + step.s i) + step.s0 i = fin (y i) := congrFun hy i
                rw [hx] at h2
                exact add_finite h2
              choose s hs using h1
              exact ⟨s, funext hs⟩
            obtain ⟨h', e1, e2⟩ := safe_update hsafe pc step
              { x := trialPoint { st with ticks := st.ticks + 1 } step, xId := st.nextId, fval := fv, grad := ofV g', hess := he, res := none } cur s (g' - g) hs'
              (by rw [hgp, hg, vsub_ofV]) (fun hw => (h6 hw).2) hB'
            simp only at h
            rw [e1] at h
            simp only [checkInBounds, hy, inBounds_real _ _ _ hyb, if_true] at h
            cases h
        · exact hrow _ _ _ _ _ _ _ h
        · exact hrow _ _ _ _ _ _ _ h

/-- whole runs -/
theorem clean_minimize {w : Bool} (hn : 0 < n) (hC : GoodCalls E w) (happ : SafeStart w st0.happ hess0) (hp : RealParams E) (O : ℕ → Oracles Num)
    (hO : ∀ k I, E.tr k I = trustRegion (O k) n E.opts.subspaceDim E.opts.stepbackStrat I) (hdim : E.opts.subspaceDim ≠ .other)
    (hF : E.opts.subspaceDim ≠ .steihaug → ∀ k, FiniteOracles (O k) ∧ DocumentedErrors (O k))
    (hevs : ∀ m, ∃ r, E.evs m = .ok r) (hcond : ∀ m, ∃ r, E.cond m = .ok r) (r0 : Fin n → ℝ) (hx0 : InBox E.lb E.ub r0)
    (hstart : FiniteStart E st0.evals.length r0) (hfile : E.opts.history = true → ∀ g ∈ st0.file, g.1 ≠ startId) (loops : ℕ) (hloops : E.opts.maxiter ≤ loops) :
    ∃ st, minimize E loops (ofV r0) startId hess0 st0 = .ok st := by
  cases hm : minimize E loops (ofV r0) startId hess0 st0 with
  | ok st => exact ⟨st, rfl⟩
  | error e =>
    exfalso
    obtain ⟨e, st'⟩ := e
    obtain ⟨r, e1, e2, e3, -⟩ := nudge_spec E.lb E.ub r0 hx0
    have hx : (startState E (ofV r0) startId st0).x = ofV r := e1
    have hchk : checkInBounds E (startState E (ofV r0) startId st0).x (startState E (ofV r0) startId st0) = .ok (startState E (ofV r0) startId st0) := by
      rw [hx, checkInBounds, if_pos (inBounds_real _ _ _ e2)]
    have htr : ∀ I, (∃ x d g dv H delta theta, RealData I x d g dv H delta theta ∧ 0 < theta ∧ theta ≤ 1 ∧ InBox I.lb I.ub x) → ∀ k, ∃ step, E.tr k I = .ok step := by
      rintro I ⟨x, d, g, dv, H, delta, theta, hI, h0, h1, hb⟩ k
      rw [hO]
      by_cases hs : E.opts.subspaceDim = .steihaug
      · rw [hs]; exact C66_total hI h0 h1 hb hn (O k) _
      · obtain ⟨f1, f2⟩ := hF hs k
        exact C68_trust_region hI h0 h1 hb hn (O k) f1 f2 _ hdim _
    rcases minimize_error E _ startId hess0 st0 loops st' e hm with ⟨h, _⟩ | h | ⟨st1, hb, h⟩ | ⟨k, st1, cur1, st2, hh, hc, h⟩ | ⟨k, st1, cur, st2, hh, hc, h⟩
    · omega
    · rw [hchk] at h; cases h
    · rw [hchk] at hb
      cases hb
      obtain ⟨raw, fv, gr, he, rest, hob, h1, h2, h3, h4, h5⟩ := hC (startState E (ofV r0) startId st0).evals.length (ofV r) (inBox_nanOr e2)
      obtain ⟨v, rest', hv⟩ := hstart r e2 e3
      have hlen : (startState E (ofV r0) startId st0).evals.length = st0.evals.length := rfl
      rw [hlen, hv] at hob
      simp only [Ret.tuple.injEq, List.cons.injEq, PyVal.scalar.injEq] at hob
      obtain ⟨hob, -⟩ := hob
      subst hob
      obtain ⟨-, ⟨g, rfl⟩, hB⟩ := h5 rfl
      obtain ⟨happ', hi1, -⟩ := safe_initialHapp happ raw (fun hw => (h3 hw).1)
      rw [setup_forward E hess0 (startState E (ofV r0) startId st0) raw happ'
        { x := ofV r, xId := (startState E (ofV r0) startId st0).xId, fval := fin v, grad := ofV g, hess := he, res := none } (by rw [hx]; exact h1)
        hi1 h2 (by rw [hx]; exact h4 _)
        (by
          cases he with
          | none => simp [allFinite, vfinite]
          | some m =>
            obtain ⟨B, rfl, -⟩ := hB m rfl
            simp [allFinite, vfinite, mfinite])] at h
      cases h
    · obtain ⟨rfl, _⟩ := checkContinue_true E st1 st2 hc
      rcases h with ⟨-, -, hk⟩ | h
      · have hmax := checkContinue_max E st1 _ hc
        rw [(headInv E _ startId hess0 st0 k st1 cur1 hh).iteration] at hmax
        omega
      · obtain ⟨r, hr⟩ := clean_iterate hC happ hp O hO hn htr hevs hcond hh
        rw [hr] at h; cases h
    · have hi := headInv E _ startId hess0 st0 k st1 cur hh
      have hs2 : st2.file = st0.file ∧ st2.startId = startId := by
        rcases checkContinue_false E st1 st2 hc with ⟨-, rfl⟩ | ⟨-, -, rfl⟩ | ⟨-, -, -, rfl⟩ | ⟨-, -, -, rfl⟩ <;> exact ⟨hi.file, hi.startId_eq⟩
      unfold writeHistory at h
      split at h
      · rename_i hhist
        split at h
        · rename_i hany
          rw [hs2.1, hs2.2, List.any_eq_true] at hany
          obtain ⟨g, hg, hge⟩ := hany
          exact hfile hhist g hg (by simpa using hge)
        · cases h
      · cases h

/-- **C68.** `minimize` returns, it raises no exception: for a well-behaved objective, every solver and step-back strategy, numbers as options, a starting point in the box
with a finite value, external routines that behave as documented, and (if there is a history file) an identifier of the run that is not in use. -/
theorem C68_minimize (hn : 0 < n) (hC : CleanObjective E) (happ : st0.happ = none) (hp : RealParams E) (O : ℕ → Oracles Num)
    (hO : ∀ k I, E.tr k I = trustRegion (O k) n E.opts.subspaceDim E.opts.stepbackStrat I) (hdim : E.opts.subspaceDim ≠ .other)
    (hF : E.opts.subspaceDim ≠ .steihaug → ∀ k, FiniteOracles (O k) ∧ DocumentedErrors (O k))
    (hevs : ∀ m, ∃ r, E.evs m = .ok r) (hcond : ∀ m, ∃ r, E.cond m = .ok r) (r0 : Fin n → ℝ) (hx0 : InBox E.lb E.ub r0)
    (hstart : FiniteStart E st0.evals.length r0) (hfile : E.opts.history = true → ∀ g ∈ st0.file, g.1 ≠ startId) (loops : ℕ) (hloops : E.opts.maxiter ≤ loops) :
    ∃ st, minimize E loops (ofV r0) startId hess0 st0 = .ok st :=
  clean_minimize hn (clean_eval hC) (by rw [happ]; rfl) hp O hO hdim hF hevs hcond r0 hx0 hstart hfile loops hloops

/-- **C68** with Hessian approximation: an objective that returns values and gradients, and `BFGS()`, `DFP()` or `Broyden(phi)` with `phi ≥ 0` and the curvature condition
enforced; the initial Hessian is the identity or given and positive definite. -/
theorem C68_broyden (hn : 0 < n) (hC : CleanGradients E) (a : IterApprox Num n) (happ : st0.happ = some (.iter a)) (ha : SafeUpdate (.iter a))
    (h0 : hess0 = .val .none ∨ ∃ m : Mat Num n n, hess0 = .val (.ofMat m) ∧ FinSPD m) (hp : RealParams E) (O : ℕ → Oracles Num)
    (hO : ∀ k I, E.tr k I = trustRegion (O k) n E.opts.subspaceDim E.opts.stepbackStrat I) (hdim : E.opts.subspaceDim ≠ .other)
    (hF : E.opts.subspaceDim ≠ .steihaug → ∀ k, FiniteOracles (O k) ∧ DocumentedErrors (O k))
    (hevs : ∀ m, ∃ r, E.evs m = .ok r) (hcond : ∀ m, ∃ r, E.cond m = .ok r) (r0 : Fin n → ℝ) (hx0 : InBox E.lb E.ub r0)
    (hstart : FiniteStart E st0.evals.length r0) (hfile : E.opts.history = true → ∀ g ∈ st0.file, g.1 ≠ startId) (loops : ℕ) (hloops : E.opts.maxiter ≤ loops) :
    ∃ st, minimize E loops (ofV r0) startId hess0 st0 = .ok st :=
  clean_minimize hn (gradients_eval hC) (by rw [happ]; exact ⟨ha, by simp [Happ.requiresHess], h0⟩) hp O hO hdim hF hevs hcond r0 hx0 hstart hfile loops hloops

/-- **C68** with the hybrid approximations `HybridFixed` and `HybridFraction` of such schemes, and an objective that returns Hessians. -/
theorem C68_hybrid (hn : 0 < n) (hC : CleanObjective E) (h : Happ Num n) (happ : st0.happ = some h) (ha : SafeUpdate h)
    (h0 : hess0 = .val .none ∨ ∃ m : Mat Num n n, hess0 = .val (.ofMat m) ∧ FinSPD m) (hp : RealParams E) (O : ℕ → Oracles Num)
    (hO : ∀ k I, E.tr k I = trustRegion (O k) n E.opts.subspaceDim E.opts.stepbackStrat I) (hdim : E.opts.subspaceDim ≠ .other)
    (hF : E.opts.subspaceDim ≠ .steihaug → ∀ k, FiniteOracles (O k) ∧ DocumentedErrors (O k))
    (hevs : ∀ m, ∃ r, E.evs m = .ok r) (hcond : ∀ m, ∃ r, E.cond m = .ok r) (r0 : Fin n → ℝ) (hx0 : InBox E.lb E.ub r0)
    (hstart : FiniteStart E st0.evals.length r0) (hfile : E.opts.history = true → ∀ g ∈ st0.file, g.1 ≠ startId) (loops : ℕ) (hloops : E.opts.maxiter ≤ loops) :
    ∃ st, minimize E loops (ofV r0) startId hess0 st0 = .ok st :=
  clean_minimize hn (clean_eval hC) (by rw [happ]; exact ⟨ha, fun _ => rfl, h0⟩) hp O hO hdim hF hevs hcond r0 hx0 hstart hfile loops hloops

/-! ## A problem that meets the assumptions -/

theorem exactRoutines_documented : DocumentedErrors exactRoutines where
  eig B hB := by
    obtain ⟨v, U, h, -⟩ := exactRoutines_ok.eig B hB
    exact ⟨_, h⟩
  npEig B hB := by
    obtain ⟨v, U, h, -⟩ := exactRoutines_ok.npEig B hB
    exact ⟨_, h⟩
  lstsq B g hB := by
    obtain ⟨z, h, -⟩ := exactRoutines_ok.lstsq B g hB
    exact ⟨_, h⟩
  newton f x f' e h := by
    have h' : exactNewton f x f' = .error e := h
    unfold exactNewton at h'
    split at h'
    · split at h' <;> cases h'
      rfl
    · cases h'; rfl
  brentq f a b m e _ _ _ h := by cases h; rfl
  refine P st := ⟨_, rfl⟩

noncomputable section

/-- half the squared distance to the origin in the box `[1, 3]²`, any solver, any strategy -/
def cleanEnv (dim : SubSpaceDim) (strat : StepBackStrategy) : Env Num 2 :=
  { boxEnv with
    opts := { (resolveOpts [] : Opts Num) with subspaceDim := dim, stepbackStrat := strat }
    tr := fun _ I => trustRegion exactRoutines 2 dim strat I }

theorem cleanEnv_clean (dim : SubSpaceDim) (strat : StepBackStrategy) : CleanObjective (cleanEnv dim strat) where
  nargout := rfl
  resfun := rfl
  obj k v hv := by
    refine ⟨_, _, _, rfl, fun hf => ?_⟩
    have hn : ∀ i, v i ≠ nan := by
      intro i hi
      have : dot v v = nan := by
        refine sum_nan_mem _ ?_
        rw [List.mem_ofFn]
        exact ⟨i, by rw [hi]; rfl⟩
      rw [this] at hf
      simp at hf
    obtain ⟨z, hz, -⟩ := nanOr_real hv hn
    exact ⟨hn, ⟨z, hz⟩, idM, rfl, fun i j => by simp [idM, eq_comm]⟩

/-- every assumption of `C68_minimize` holds for this problem, for every solver and strategy, from every starting point in the box -/
example (dim : SubSpaceDim) (hd : dim ≠ .other) (strat : StepBackStrategy) (r0 : Fin 2 → ℝ) (h0 : InBox boxEnv.lb boxEnv.ub r0) :
    ∃ st, minimize (cleanEnv dim strat) 1000 (ofV r0) "0" (.val .none) (St.new (cleanEnv dim strat).opts none) = .ok st := by
  refine C68_minimize (by norm_num) (cleanEnv_clean dim strat) rfl ?_ (fun _ => exactRoutines) (fun _ _ => rfl) hd (fun _ _ => ⟨exactRoutines_finite, exactRoutines_documented⟩)
    (fun _ => ⟨_, rfl⟩) (fun _ => ⟨_, rfl⟩) r0 h0 ?_ ?_ 1000 ?_
  · constructor <;> simp only [cleanEnv, demo_opts]
    · exact ⟨_, rfl⟩
    · exact ⟨_, rfl⟩
    · exact ⟨_, rfl⟩
    · exact ⟨_, rfl, by norm_num, by norm_num⟩
  · intro z _ _
    refine ⟨1 / 2 * rdot z z, [.ofVec (ofV z), .ofMat (ofM (idM : Fin 2 → Fin 2 → ℝ))], ?_⟩
    show Ret.tuple [.scalar (lit (1 / 2) * dot (ofV z) (ofV z)), _, _] = _
    rw [dot_ofV]
    simp
  · intro _ g hg; cases hg
  · simp only [cleanEnv, demo_opts]; norm_num

/-- the same problem without Hessians -/
def gradEnv (dim : SubSpaceDim) (strat : StepBackStrategy) : Env Num 2 :=
  { cleanEnv dim strat with nargout := 2, obj := fun _ x => .tuple [.scalar (lit (1 / 2) * dot x x), .ofVec x] }

theorem gradEnv_clean (dim : SubSpaceDim) (strat : StepBackStrategy) : CleanGradients (gradEnv dim strat) where
  nargout := rfl
  resfun := rfl
  obj k v hv := by
    refine ⟨_, _, rfl, fun hf => ?_⟩
    obtain ⟨fv, gr, he, h1, h2⟩ := (cleanEnv_clean dim strat).obj k v hv
    simp only [cleanEnv, boxEnv, Ret.tuple.injEq, List.cons.injEq, PyVal.scalar.injEq] at h1
    obtain ⟨h3, -⟩ := h2 (by rw [← h1.1]; exact hf)
    obtain ⟨z, hz, -⟩ := nanOr_real hv h3
    exact ⟨h3, z, hz⟩

theorem cleanEnv_params (dim : SubSpaceDim) (strat : StepBackStrategy) : RealParams (cleanEnv dim strat) := by
  constructor <;> simp only [cleanEnv, demo_opts]
  · exact ⟨_, rfl⟩
  · exact ⟨_, rfl⟩
  · exact ⟨_, rfl⟩
  · exact ⟨_, rfl, by norm_num, by norm_num⟩

/-- the assumptions of `C68_broyden` hold with `BFGS()` (and the constructor accepts the configuration) -/
example (dim : SubSpaceDim) (hd : dim ≠ .other) (strat : StepBackStrategy) (r0 : Fin 2 → ℝ) (h0 : InBox boxEnv.lb boxEnv.ub r0) :
    nargoutOf (some (.iter (IterApprox.new .bfgs)) : Option (Happ Num 2)) = (gradEnv dim strat).nargout ∧
    ∃ st, minimize (gradEnv dim strat) 1000 (ofV r0) "0" (.val .none) (St.new (gradEnv dim strat).opts (some (.iter (IterApprox.new .bfgs)))) = .ok st := by
  refine ⟨rfl, C68_broyden (by norm_num) (gradEnv_clean dim strat) _ rfl (.iter _ 0 le_rfl (by simp [IterApprox.new, IterScheme.bfgs])) (.inl rfl) ?_ (fun _ => exactRoutines)
    (fun _ _ => rfl) hd (fun _ _ => ⟨exactRoutines_finite, exactRoutines_documented⟩) (fun _ => ⟨_, rfl⟩) (fun _ => ⟨_, rfl⟩) r0 h0 ?_ ?_ 1000 ?_⟩
  · exact ⟨(cleanEnv_params dim strat).gamma1, (cleanEnv_params dim strat).gamma2, (cleanEnv_params dim strat).deltaInit, (cleanEnv_params dim strat).thetaMax⟩
  · intro z _ _
    refine ⟨1 / 2 * rdot z z, [.ofVec (ofV z)], ?_⟩
    show Ret.tuple [.scalar (lit (1 / 2) * dot (ofV z) (ofV z)), _] = _
    rw [dot_ofV]
    simp
  · intro _ g hg; cases hg
  · simp only [gradEnv, cleanEnv, demo_opts]; norm_num

/-- the assumptions of `C68_hybrid` hold with `HybridFixed(BFGS(), 20)` -/
example (dim : SubSpaceDim) (hd : dim ≠ .other) (strat : StepBackStrategy) (r0 : Fin 2 → ℝ) (h0 : InBox boxEnv.lb boxEnv.ub r0) :
    nargoutOf (some (.hybridFixed 20 false (Hybrid.new .bfgs)) : Option (Happ Num 2)) = (cleanEnv dim strat).nargout ∧
    ∃ st, minimize (cleanEnv dim strat) 1000 (ofV r0) "0" (.val .none) (St.new (cleanEnv dim strat).opts (some (.hybridFixed 20 false (Hybrid.new .bfgs)))) = .ok st := by
  refine ⟨rfl, C68_hybrid (by norm_num) (cleanEnv_clean dim strat) _ rfl (.fixed 20 false _ 0 le_rfl (by simp [Hybrid.new, IterApprox.new, IterScheme.bfgs])) (.inl rfl)
    (cleanEnv_params dim strat) (fun _ => exactRoutines)
    (fun _ _ => rfl) hd (fun _ _ => ⟨exactRoutines_finite, exactRoutines_documented⟩) (fun _ => ⟨_, rfl⟩) (fun _ => ⟨_, rfl⟩) r0 h0 ?_ ?_ 1000 ?_⟩
  · intro z _ _
    refine ⟨1 / 2 * rdot z z, [.ofVec (ofV z), .ofMat (ofM (idM : Fin 2 → Fin 2 → ℝ))], ?_⟩
    show Ret.tuple [.scalar (lit (1 / 2) * dot (ofV z) (ofV z)), _, _] = _
    rw [dot_ofV]
    simp
  · intro _ g hg; cases hg
  · simp only [cleanEnv, demo_opts]; norm_num

end

end Fides
