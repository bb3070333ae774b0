import Verif.Props.Quasi

/-!
# C36-C41: structured and hybrid Hessian approximations, `get_diff`, initialisation
-/

namespace Fides
open Num Spec
variable {n : ℕ}

/-! ## C36 structured secant equations -/

/-- C36 (SSM): the new approximation is Gauss-Newton part plus structured part and maps `s` to `yb + C s`. -/
theorem C36_ssm (h : Structured Num n) (phi : ℝ) (A C : Fin n → Fin n → ℝ) (s y yb : Fin n → ℝ)
    (hphi : h.phi = fin phi) (hA : h.A = ofM A)
    (hb : rdot (yb + rmv C s) s ≠ 0) (hc : rdot (rmv (C + A) s) s ≠ 0)
    (he : h.enforceCurvCond = true → 0 < rdot (yb + rmv C s) s) :
    ∃ A', (h.updateSSM (ofV s) (ofV y) (ofM C) (ofV yb)).A = ofM A' ∧
      (h.updateSSM (ofV s) (ofV y) (ofM C) (ofV yb)).hess = ofM (C + A') ∧
      rmv (C + A') s = yb + rmv C s := by
  have key := broyden_fin (yb + rmv C s) s (C + A) phi h.enforceCurvCond hb hc he
  refine ⟨A + rbroyden (yb + rmv C s) s (C + A) phi, ?_, ?_, ?_⟩
  · simp only [Structured.updateSSM, Structured.storeHess, hA, hphi, madd_ofM, mulVec_ofM, vadd_ofV, key]
  · simp only [Structured.updateSSM, Structured.storeHess, hA, hphi, madd_ofM, mulVec_ofM, vadd_ofV, key]
  · rw [← add_assoc]
    exact rbroyden_secant _ _ _ _ hb hc

/-- C36 (TSSM): with `nr = ‖r‖ ≠ 0` the new approximation is `C + ‖r‖ A` and maps `s` to `C s + yb`. -/
theorem C36_tssm (h : Structured Num n) (phi nr : ℝ) (A C : Fin n → Fin n → ℝ) (s y yb : Fin n → ℝ)
    (hphi : h.phi = fin phi) (hA : h.A = ofM A) (hnr : nr ≠ 0)
    (hb : rdot (rmv C s + yb) s ≠ 0) (hc : rdot (rmv (C + nr • A) s) s ≠ 0)
    (he : h.enforceCurvCond = true → 0 < rdot (rmv C s + yb) s) :
    ∃ A', (h.updateTSSM (ofV s) (ofV y) (fin nr) (ofM C) (ofV yb)).A = ofM A' ∧
      (h.updateTSSM (ofV s) (ofV y) (fin nr) (ofM C) (ofV yb)).hess = ofM (C + nr • A') ∧
      rmv (C + nr • A') s = rmv C s + yb := by
  have key := broyden_fin (rmv C s + yb) s (C + nr • A) phi h.enforceCurvCond hb hc he
  refine ⟨A + fun i j => rbroyden (rmv C s + yb) s (C + nr • A) phi i j / nr, ?_, ?_, ?_⟩
  · simp only [Structured.updateTSSM, Structured.storeHess, hA, hphi, madd_ofM, msmul_ofM, mulVec_ofM, vadd_ofV, key,
      mdiv_ofM _ _ hnr]
  · simp only [Structured.updateTSSM, Structured.storeHess, hA, hphi, madd_ofM, msmul_ofM, mulVec_ofM, vadd_ofV, key,
      mdiv_ofM _ _ hnr]
  · have : C + nr • (A + fun i j => rbroyden (rmv C s + yb) s (C + nr • A) phi i j / nr) =
        (C + nr • A) + rbroyden (rmv C s + yb) s (C + nr • A) phi := by
      funext i j
      simp only [Pi.add_apply, Pi.smul_apply, smul_eq_mul]
      field_simp
      ring
    rw [this]
    exact rbroyden_secant _ _ _ _ hb hc

/-- real form of the GNSBFGS switching ratio -/
theorem gns_ratio (yb s : Fin n → ℝ) (hs : s ≠ 0) :
    dot (ofV yb) (ofV s) / dot (ofV s) (ofV s) = fin (rdot yb s / rdot s s) := by
  rw [dot_ofV, dot_ofV, fin_div _ _ (rdot_self_pos hs).ne']

/-- C36 (GNSBFGS): when the curvature ratio exceeds the tolerance the structured part satisfies `A s = yb` and the new
approximation is `C + A`; otherwise it is `C + ‖r‖ I` and the structured part is kept. -/
theorem C36_gnsbfgs (h : Structured Num n) (tol nr phi : ℝ) (A C : Fin n → Fin n → ℝ) (s y yb : Fin n → ℝ)
    (hphi : h.phi = fin phi) (hA : h.A = ofM A) (hs : s ≠ 0) :
    (tol < rdot yb s / rdot s s → rdot yb s ≠ 0 → rdot (rmv A s) s ≠ 0 →
      (h.enforceCurvCond = true → 0 < rdot yb s) →
      ∃ A', (h.updateGNSBFGS (fin tol) (ofV s) (ofV y) (fin nr) (ofM C) (ofV yb)).A = ofM A' ∧
        (h.updateGNSBFGS (fin tol) (ofV s) (ofV y) (fin nr) (ofM C) (ofV yb)).hess = ofM (C + A') ∧
        rmv A' s = yb) ∧
    (rdot yb s / rdot s s ≤ tol →
      (h.updateGNSBFGS (fin tol) (ofV s) (ofV y) (fin nr) (ofM C) (ofV yb)).A = ofM A ∧
      (h.updateGNSBFGS (fin tol) (ofV s) (ofV y) (fin nr) (ofM C) (ofV yb)).hess = ofM (C + nr • idM)) := by
  constructor
  · intro ht hb hc he
    have key := broyden_fin yb s A phi h.enforceCurvCond hb hc he
    refine ⟨A + rbroyden yb s A phi, ?_, ?_, rbroyden_secant _ _ _ _ hb hc⟩
    · simp only [Structured.updateGNSBFGS, gns_ratio yb s hs, fin_lt, ht, decide_true, if_true, Structured.storeHess,
        hA, hphi, key, madd_ofM]
    · simp only [Structured.updateGNSBFGS, gns_ratio yb s hs, fin_lt, ht, decide_true, if_true, Structured.storeHess,
        hA, hphi, key, madd_ofM]
  · intro ht
    have h1 : decide (tol < rdot yb s / rdot s s) = false := by simpa using ht
    constructor
    · simp only [Structured.updateGNSBFGS, gns_ratio yb s hs, fin_lt, h1, Structured.storeHess, hA,
        Bool.false_eq_true, if_false]
    · simp only [Structured.updateGNSBFGS, gns_ratio yb s hs, fin_lt, h1, Structured.storeHess, hA,
        Bool.false_eq_true, if_false, meye_ofM, msmul_ofM, madd_ofM]
      rfl

example : rdot (n := 2) (![1, 0] + rmv idM ![1, 1]) ![1, 1] ≠ 0 ∧ rdot (n := 2) (rmv (idM + idM) ![1, 1]) ![1, 1] ≠ 0 ∧
    (0 : ℝ) < rdot (n := 2) ![1, 0] ![1, 1] / rdot (n := 2) ![1, 1] ![1, 1] := by
  rw [add_rmv, idM_rmv]
  norm_num [rdot, Fin.sum_univ_two]

/-! ## C37 GNSBFGS positive definiteness -/

/-- one GNSBFGS update: step, gradient step, structured gradient step, residual norm, Gauss-Newton matrix -/
structure GnsUpd (n : ℕ) where
  s : Fin n → ℝ
  y : Fin n → ℝ
  yb : Fin n → ℝ
  nr : ℝ
  C : Fin n → Fin n → ℝ

/-- apply a sequence of GNSBFGS updates -/
noncomputable def runGns (tol : ℝ) (h : Structured Num n) : List (GnsUpd n) → Structured Num n
  | [] => h
  | u :: us => runGns tol (h.updateGNSBFGS (fin tol) (ofV u.s) (ofV u.y) (fin u.nr) (ofM u.C) (ofV u.yb)) us

theorem PD_smul_idM {c : ℝ} (hc : 0 < c) : PD (c • (idM : Fin n → Fin n → ℝ)) := fun v hv => by
  rw [smul_rmv, idM_rmv, rdot_smul]
  have := rdot_self_pos hv
  positivity

theorem gns_step (h : Structured Num n) (tol : ℝ) (phi : ℝ) (hphi : h.phi = fin phi) (hp : 0 ≤ phi) (htol : 0 ≤ tol)
    (hA : FinSPD h.A) (u : GnsUpd n) (hC : Sym u.C ∧ PSD u.C) (hnr : 0 < u.nr) :
    FinSPD (h.updateGNSBFGS (fin tol) (ofV u.s) (ofV u.y) (fin u.nr) (ofM u.C) (ofV u.yb)).A ∧
    FinSPD (h.updateGNSBFGS (fin tol) (ofV u.s) (ofV u.y) (fin u.nr) (ofM u.C) (ofV u.yb)).hess := by
  obtain ⟨A, hAe, hAs, hAp⟩ := hA
  have helse : (h.updateGNSBFGS (fin tol) (ofV u.s) (ofV u.y) (fin u.nr) (ofM u.C) (ofV u.yb)).A = ofM A ∧
      (h.updateGNSBFGS (fin tol) (ofV u.s) (ofV u.y) (fin u.nr) (ofM u.C) (ofV u.yb)).hess = ofM (u.C + u.nr • idM) →
      FinSPD (h.updateGNSBFGS (fin tol) (ofV u.s) (ofV u.y) (fin u.nr) (ofM u.C) (ofV u.yb)).A ∧
    FinSPD (h.updateGNSBFGS (fin tol) (ofV u.s) (ofV u.y) (fin u.nr) (ofM u.C) (ofV u.yb)).hess := by
    rintro ⟨e1, e2⟩
    refine ⟨⟨A, e1, hAs, hAp⟩, ⟨_, e2, Num.Sym.add hC.1 (Num.Sym.smul _ Sym_idM), Num.PSD.add_PD hC.2 (PD_smul_idM hnr)⟩⟩
  by_cases hs : u.s = 0
  · apply helse
    have : dot (ofV u.yb) (ofV u.s) / dot (ofV u.s) (ofV u.s) = Num.nan := by
      rw [hs, dot_ofV, dot_ofV, rdot_zero, rdot_zero, fin_div_def]; simp
    simp only [Structured.updateGNSBFGS, this, lt_nan, Structured.storeHess, hAe, Bool.false_eq_true, if_false,
      meye_ofM, msmul_ofM, madd_ofM]
    exact ⟨trivial, rfl⟩
  · rcases le_or_gt (rdot u.yb u.s / rdot u.s u.s) tol with ht | ht
    · exact helse ((C36_gnsbfgs h tol u.nr phi A u.C u.s u.y u.yb hphi hAe hs).2 ht)
    · have hb : 0 < rdot u.yb u.s := by
        have := lt_of_le_of_lt htol ht
        exact (div_pos_iff_of_pos_right (rdot_self_pos hs)).mp this
      have hc : rdot (rmv A u.s) u.s ≠ 0 := by rw [rdot_comm]; exact (hAp _ hs).ne'
      have key := broyden_fin u.yb u.s A phi h.enforceCurvCond hb.ne' hc (fun _ => hb)
      have hS := Num.Sym.add hAs (rbroyden_sym u.yb u.s A phi)
      have hP := rbroyden_PD u.yb u.s A phi hp hAs hAp hb
      refine ⟨⟨A + rbroyden u.yb u.s A phi, ?_, hS, hP⟩, ⟨u.C + (A + rbroyden u.yb u.s A phi), ?_, Num.Sym.add hC.1 hS,
        Num.PSD.add_PD hC.2 hP⟩⟩
      · simp only [Structured.updateGNSBFGS, gns_ratio u.yb u.s hs, fin_lt, ht, decide_true, if_true,
          Structured.storeHess, hAe, hphi, key, madd_ofM]
      · simp only [Structured.updateGNSBFGS, gns_ratio u.yb u.s hs, fin_lt, ht, decide_true, if_true,
          Structured.storeHess, hAe, hphi, key, madd_ofM]

/-- C37: with a non-negative tolerance, positive semidefinite Gauss-Newton parts and nonzero residuals the
approximation of a freshly initialised GNSBFGS object is finite, symmetric positive definite after every nonempty
sequence of updates with arbitrary finite data, whether or not `enforce_curv_cond` is set. -/
theorem C37_gnsbfgs_pd (enforce : Bool) (tol : ℝ) (htol : 0 ≤ tol) (hess0 : Option (Mat Num n n))
    (us : List (GnsUpd n)) (hne : us ≠ []) (hus : ∀ u ∈ us, Sym u.C ∧ PSD u.C ∧ 0 < u.nr) :
    FinSPD (runGns tol ((Structured.new (lit 0) enforce).initMat hess0) us).hess := by
  have hA0 : FinSPD ((Structured.new (lit 0) enforce : Structured Num n).initMat hess0).A := by
    refine ⟨(1 / 4503599627370496 : ℝ) • idM, ?_, Num.Sym.smul _ Sym_idM, PD_smul_idM (by norm_num)⟩
    funext i j
    simp only [Structured.initMat, meye_ofM, spacing1, lit_def, ofM_apply, fin_mul, fin_inj, Pi.smul_apply,
      smul_eq_mul, idM]
    push_cast
    ring
  have hphi0 : ((Structured.new (lit 0) enforce : Structured Num n).initMat hess0).phi = fin 0 := by
    simp [Structured.initMat, Structured.new]
  generalize (Structured.new (lit 0) enforce : Structured Num n).initMat hess0 = h at hA0 hphi0
  induction us generalizing h with
  | nil => exact absurd rfl hne
  | cons u us ih =>
    have hu := hus u (by simp)
    have hst := gns_step h tol 0 hphi0 le_rfl htol hA0 u ⟨hu.1, hu.2.1⟩ hu.2.2
    cases us with
    | nil => exact hst.2
    | cons u' us' =>
      refine ih (by simp) (fun v hv => hus v (by simp [hv])) _ hst.1 ?_
      simp only [Structured.updateGNSBFGS]
      split <;> exact hphi0

example : ∃ us : List (GnsUpd 2), us ≠ [] ∧ ∀ u ∈ us, Sym u.C ∧ PSD u.C ∧ 0 < u.nr :=
  ⟨[⟨![1, 0], ![1, 1], ![2, 0], 1, idM⟩], by simp, by
    intro u hu; simp only [List.mem_singleton] at hu; subst hu; exact ⟨Sym_idM, Num.PD.psd PD_idM, one_pos⟩⟩

/-! ## C38 hybrid switching -/

section hybrid
variable {F : Type} [FloatOps F]

/-- arguments of `HybridFixed.update` -/
structure FixedUpd (F : Type) (n : ℕ) where
  s : Vec F n
  y : Vec F n
  hess : Mat F n n
  iterSinceTr : ℕ

/-- arguments of `HybridFraction.update` -/
structure FracUpd (F : Type) (n : ℕ) where
  s : Vec F n
  y : Vec F n
  hess : Mat F n n
  nonupdates : ℕ
  iterations : ℕ

/-- a sequence of `HybridFixed.update` calls -/
def runFixed : Happ F n → List (FixedUpd F n) → Happ F n
  | .hybridFixed k sw h, u :: us => runFixed (Happ.updateFixed k sw h u.s u.y u.hess u.iterSinceTr) us
  | h, _ => h

/-- a sequence of `HybridFraction.update` calls -/
def runFrac : Happ F n → List (FracUpd F n) → Happ F n
  | .hybridFraction t sw h, u :: us => runFrac (Happ.updateFraction t sw h u.s u.y u.hess u.nonupdates u.iterations) us
  | h, _ => h

/-- the switching condition of `HybridFraction`: more than 25 iterations and a large enough fraction of them without
radius update -/
def fracCond (t : F) (u : FracUpd F n) : Bool :=
  decide (25 < u.iterations) && lt t (lit ((u.nonupdates : ℚ) / (u.iterations : ℚ)))

theorem runFixed_spec (k : Int) (sw : Bool) (h : Hybrid F n) (us : List (FixedUpd F n)) (u : FixedUpd F n) :
    (runFixed (.hybridFixed k sw h) (us ++ [u])).getMat =
      if sw || us.any (fun v => decide (k ≤ (v.iterSinceTr : Int))) then
        (runIter h.inner ((us ++ [u]).map fun v => (v.s, v.y))).getMat
      else u.hess := by
  induction us generalizing sw h with
  | nil => simp [runFixed, Happ.updateFixed, Happ.getMat, Hybrid.switchedUpdate, runIter]
  | cons v us ih =>
    rw [List.cons_append, runFixed, Happ.updateFixed, ih]
    simp only [Hybrid.switchedUpdate, List.map_cons, runIter, List.any_cons]
    cases sw with
    | true => simp
    | false => simp

theorem runFrac_spec (t : F) (sw : Bool) (h : Hybrid F n) (us : List (FracUpd F n)) (u : FracUpd F n) :
    (runFrac (.hybridFraction t sw h) (us ++ [u])).getMat =
      if sw || us.any (fracCond t) then (runIter h.inner ((us ++ [u]).map fun v => (v.s, v.y))).getMat
      else u.hess := by
  induction us generalizing sw h with
  | nil => simp [runFrac, Happ.updateFraction, Happ.getMat, Hybrid.switchedUpdate, runIter]
  | cons v us ih =>
    rw [List.cons_append, runFrac, Happ.updateFraction, ih]
    simp only [Hybrid.switchedUpdate, List.map_cons, runIter, List.any_cons]
    cases sw with
    | true => simp
    | false =>
      by_cases h25 : 25 < v.iterations <;> simp [h25, fracCond]

/-- C38 (HybridFixed): after any nonempty history of updates of a new object, the matrix is the user's latest Hessian as
long as no *earlier* update saw `switch_iteration` iterations without radius change; from then on, forever, it is the
matrix of the iterative scheme, which has received every `(s, y)` pair from the beginning. -/
theorem C38_fixed (k : Int) (h : Hybrid F n) (us : List (FixedUpd F n)) (u : FixedUpd F n) :
    ((∃ v ∈ us, k ≤ (v.iterSinceTr : Int)) →
      (runFixed (.hybridFixed k false h) (us ++ [u])).getMat
        = (runIter h.inner ((us ++ [u]).map fun v => (v.s, v.y))).getMat) ∧
    ((∀ v ∈ us, (v.iterSinceTr : Int) < k) → (runFixed (.hybridFixed k false h) (us ++ [u])).getMat = u.hess) := by
  constructor
  · rintro ⟨v, hv, hk⟩
    rw [runFixed_spec, if_pos]
    simp only [Bool.false_or, List.any_eq_true, decide_eq_true_eq]
    exact ⟨v, hv, hk⟩
  · intro hall
    rw [runFixed_spec, if_neg]
    simp only [Bool.false_or, List.any_eq_true, decide_eq_true_eq, not_exists, not_and, not_le]
    exact hall

/-- C38 (HybridFraction). -/
theorem C38_fraction (t : F) (h : Hybrid F n) (us : List (FracUpd F n)) (u : FracUpd F n) :
    ((∃ v ∈ us, fracCond t v = true) →
      (runFrac (.hybridFraction t false h) (us ++ [u])).getMat
        = (runIter h.inner ((us ++ [u]).map fun v => (v.s, v.y))).getMat) ∧
    ((∀ v ∈ us, fracCond t v = false) → (runFrac (.hybridFraction t false h) (us ++ [u])).getMat = u.hess) := by
  constructor
  · rintro ⟨v, hv, hk⟩
    rw [runFrac_spec, if_pos]
    simp only [Bool.false_or, List.any_eq_true]
    exact ⟨v, hv, hk⟩
  · intro hall
    rw [runFrac_spec, if_neg]
    simp only [Bool.false_or, List.any_eq_true, not_exists, not_and, Bool.not_eq_true]
    exact hall

/-- C38: switching is irreversible, for any later updates. -/
theorem C38_irreversible (k : Int) (t : F) (h : Hybrid F n) (us : List (FixedUpd F n)) (vs : List (FracUpd F n)) :
    (∃ h', runFixed (.hybridFixed k true h) us = .hybridFixed k true h') ∧
    (∃ h', runFrac (.hybridFraction t true h) vs = .hybridFraction t true h') := by
  constructor
  · induction us generalizing h with
    | nil => exact ⟨h, rfl⟩
    | cons u us ih => exact ih _
  · induction vs generalizing h with
    | nil => exact ⟨h, rfl⟩
    | cons u us ih => exact ih _

example (h : Hybrid F n) (s y : Vec F n) (m : Mat F n n) :
    (runFixed (.hybridFixed 2 false h) ([⟨s, y, m, 1⟩] ++ [⟨s, y, m, 2⟩])).getMat = m :=
  (C38_fixed 2 h _ _).2 (by simp)

/-! ## C39 FX -/

end hybrid

/-- C39: FX takes the Gauss-Newton matrix exactly when the relative residual reduction reaches the tolerance;
otherwise the iterative update of its last matrix (so also when the previous residuals are all zero).  (The class
documentation states the comparison the other way round.) -/
theorem C39_fx {m : ℕ} (h : Hybrid Num n) (tol : ℝ) (delta gamma : Vec Num n) (r rprev : Fin m → ℝ) (C : Mat Num n n) :
    (rprev ≠ 0 → tol ≤ (rdot rprev rprev - rdot r r) / rdot rprev rprev →
      (Happ.fx (fin tol) (h.updateFX (fin tol) delta gamma (ofV r) (ofV rprev) C)).getMat = C) ∧
    (rprev ≠ 0 → (rdot rprev rprev - rdot r r) / rdot rprev rprev < tol →
      (Happ.fx (fin tol) (h.updateFX (fin tol) delta gamma (ofV r) (ofV rprev) C)).getMat
        = (h.inner.update delta gamma).getMat) ∧
    (rprev = 0 → (Happ.fx (fin tol) (h.updateFX (fin tol) delta gamma (ofV r) (ofV rprev) C)).getMat
        = (h.inner.update delta gamma).getMat) := by
  refine ⟨fun h0 ht => ?_, fun h0 ht => ?_, fun h0 => ?_⟩
  · have hp := rdot_self_pos h0
    simp [Hybrid.updateFX, Happ.getMat, hp.ne', ht, IterApprox.setMat, IterApprox.getMat]
  · have hp := rdot_self_pos h0
    simp [Hybrid.updateFX, Happ.getMat, hp.ne', not_le.mpr ht]
  · subst h0
    have hr := rdot_self_nonneg r
    simp only [Hybrid.updateFX, dot_ofV, rdot_zero, fin_sub, fin_div_def, if_true, zero_sub, Happ.getMat]
    rcases eq_or_lt_of_le hr with h1 | h1
    · simp [← h1]
    · rw [infSign_neg (by linarith)]; simp

example : (![1, 0] : Fin 2 → ℝ) ≠ 0 ∧ (1 / 5 : ℝ) ≤ (rdot (n := 2) ![1, 0] ![1, 0] - rdot (n := 2) ![0, 1/2] ![0, 1/2]) /
    rdot (n := 2) ![1, 0] ![1, 0] := by
  refine ⟨fun h => by have := congrFun h 0; norm_num at this, ?_⟩
  norm_num [rdot, Fin.sum_univ_two]

/-! ## C40 `get_diff` -/

/-- `get_mat` after = `get_mat` before + `get_diff` after, entry by entry -/
def DiffOK {F : Type} [FloatOps F] (before after : Happ F n) : Prop := after.getMat = madd before.getMat after.getDiff

/-- C40 for `Broyden`/`BFGS`/`DFP`, `SR1`, `BG`: in any arithmetic. -/
theorem C40_iterative {F : Type} [FloatOps F] (h : IterApprox F n) (s y : Vec F n)
    (hsch : (∃ p e, h.scheme = .broyden p e) ∨ h.scheme = .sr1 ∨ h.scheme = .bg) :
    DiffOK (.iter h) (.iter (h.update s y)) := by
  rcases hsch with ⟨p, e, h1⟩ | h1 | h1 <;>
  simp only [DiffOK, Happ.getMat, Happ.getDiff, IterApprox.update, h1, IterApprox.getMat, IterApprox.getDiff]

theorem madd_msub_cancel (a b : Fin n → Fin n → ℝ) : madd (ofM a) (msub (ofM b) (ofM a)) = ofM b := by
  rw [msub_ofM, madd_ofM, add_sub_cancel]

/-- C40 for `HybridFixed` and `HybridFraction`, whatever inner scheme they use (finite matrices, exact arithmetic). -/
theorem C40_switch (h : Hybrid Num n) (sw : Bool) (k : Int) (t : Num) (s y : Vec Num n) (hess : Mat Num n n)
    (i j l : ℕ) (hfin : Finite h.hess) (hfin' : Finite (h.switchedUpdate sw s y hess).hess) :
    DiffOK (.hybridFixed k sw h) (Happ.updateFixed k sw h s y hess i) ∧
    DiffOK (.hybridFraction t sw h) (Happ.updateFraction t sw h s y hess j l) := by
  obtain ⟨a, ha⟩ := hfin
  obtain ⟨b, hb⟩ := hfin'
  have hb' : (if sw = true then (h.inner.update s y).getMat else hess) = ofM b := hb
  constructor <;>
  · simp only [DiffOK, Happ.updateFixed, Happ.updateFraction, Happ.getMat, Happ.getDiff, Hybrid.switchedUpdate]
    rw [hb', ha, madd_msub_cancel]

/-- C40 for `FX` with an inner scheme other than `BB`. -/
theorem C40_fx {m : ℕ} (h : Hybrid Num n) (tol : Num) (d g : Vec Num n) (r rp : Vec Num m) (hess : Mat Num n n)
    (hsch : (∃ p e, h.inner.scheme = .broyden p e) ∨ h.inner.scheme = .sr1 ∨ h.inner.scheme = .bg)
    (hfin : Finite h.inner.getMat) (hfin' : Finite hess) :
    DiffOK (.fx tol h) (.fx tol (h.updateFX tol d g r rp hess)) := by
  obtain ⟨a, ha⟩ := hfin
  obtain ⟨b, hb⟩ := hfin'
  simp only [Hybrid.updateFX]
  split
  · simp only [DiffOK, Happ.getMat, Happ.getDiff]
    rw [show (h.inner.setMat hess).getMat = hess from rfl, ha, hb, madd_msub_cancel]
  · exact C40_iterative h.inner d g hsch

/-- C40 for the structured schemes (finite matrices before and after). -/
theorem C40_structured (h : Structured Num n) (tol nr : Num) (s y yb : Vec Num n) (hess : Mat Num n n)
    (hfin : Finite h.hess) :
    (Finite (h.updateSSM s y hess yb).hess → DiffOK (.ssm h) (.ssm (h.updateSSM s y hess yb))) ∧
    (Finite (h.updateTSSM s y nr hess yb).hess → DiffOK (.tssm h) (.tssm (h.updateTSSM s y nr hess yb))) ∧
    (Finite (h.updateGNSBFGS tol s y nr hess yb).hess →
      DiffOK (.gnsbfgs tol h) (.gnsbfgs tol (h.updateGNSBFGS tol s y nr hess yb))) := by
  obtain ⟨a, ha⟩ := hfin
  refine ⟨?_, ?_, ?_⟩
  · rintro ⟨b, hb⟩
    have hd : (h.updateSSM s y hess yb).diff = msub (h.updateSSM s y hess yb).hess h.hess := rfl
    simp only [DiffOK, Happ.getMat, Happ.getDiff, hd]
    rw [hb, ha, madd_msub_cancel]
  · rintro ⟨b, hb⟩
    have hd : (h.updateTSSM s y nr hess yb).diff = msub (h.updateTSSM s y nr hess yb).hess h.hess := rfl
    simp only [DiffOK, Happ.getMat, Happ.getDiff, hd]
    rw [hb, ha, madd_msub_cancel]
  · rintro ⟨b, hb⟩
    have hd : (h.updateGNSBFGS tol s y nr hess yb).diff = msub (h.updateGNSBFGS tol s y nr hess yb).hess h.hess := by
      simp only [Structured.updateGNSBFGS]
      split <;> rfl
    simp only [DiffOK, Happ.getMat, Happ.getDiff, hd]
    rw [hb, ha, madd_msub_cancel]

/-- C40 is false for `BB`: it reports a nonzero difference although the matrix did not change. -/
theorem C40_bb_counterexample : ¬ DiffOK (.iter { scheme := .bb, hess := meye, diff := mzero } : Happ Num 1)
    (.iter (({ scheme := .bb, hess := meye, diff := mzero } : IterApprox Num 1).update (ofV ![1]) (ofV ![2]))) := by
  intro h
  have h00 := congrFun (congrFun h 0) 0
  revert h00
  have hb : rdot (n := 1) ![2] ![1] = 2 := by norm_num [rdot]
  simp only [Happ.getMat, Happ.getDiff, IterApprox.update, IterApprox.getMat, IterApprox.getDiff, dot_ofV, meye_ofM,
    mulVec_ofM, vsub_ofV, outer_ofV, hb, lit_def, fin_le]
  norm_num
  rw [mdiv_ofM _ _ (by norm_num), madd_ofM]
  simp only [ofM_apply, fin_inj]
  norm_num [rdot, rmv]

/-! ## C41 initialisation -/

/-- C41: after `_init_mat` every scheme starts from the identity when no matrix is given and from the given matrix
otherwise, whatever the object held before. -/
theorem C41_init {F : Type} [FloatOps F] (h : Happ F n) (m : Mat F n n) :
    (h.initMat none).getMat = meye ∧ (h.initMat (some m)).getMat = m := by
  cases h <;> exact ⟨rfl, rfl⟩

/-- C41: the structured part of the structured schemes starts at the machine spacing times the identity, with all differences zero, whatever
the object held before and whatever start matrix is given. -/
theorem C41_structured (h : Structured Num n) (o : Option (Mat Num n n)) :
    (h.initMat o).A = ofM (fun i j => if i = j then 1 / 2 ^ 52 else 0) ∧ (h.initMat o).sdiff = ofM 0 ∧ (h.initMat o).diff = ofM 0 := by
  refine ⟨?_, ?_, ?_⟩
  · funext i j
    simp only [Structured.initMat, meye, spacing1, lit_def, ofM_apply]
    split <;> norm_num
  · funext i j; simp [Structured.initMat, mzero, ofM_apply]
  · funext i j; simp [Structured.initMat, mzero, ofM_apply]

/-- C41: an array is refused with ValueError exactly when its first dimension differs from the number of
variables; `None` is accepted. -/
theorem C41_shape {F : Type} (dim k : ℕ) (sh : List ℕ) (data : List F) :
    (initShapeCheck dim (.arr (k :: sh) data) = .error .valueError ↔ k ≠ dim) ∧
    (initShapeCheck dim (.arr (k :: sh) data) = .ok () ↔ k = dim) ∧
    initShapeCheck dim (.none : PyVal F) = .ok () := by
  refine ⟨?_, ?_, rfl⟩ <;> · by_cases hk : k = dim <;> simp [initShapeCheck, hk]

/-- C41: `set_mat` accepts a matrix iff it has exactly the current shape, else ValueError. -/
theorem C41_setMat (cur new : List ℕ) :
    (setMatCheck cur new = .ok () ↔ new = cur) ∧ (setMatCheck cur new = .error .valueError ↔ new ≠ cur) := by
  by_cases h : new = cur <;> simp [setMatCheck, h]

end Fides
