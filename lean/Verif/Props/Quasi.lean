import Verif.Lemmas.Hessian

/-!
# C31-C35: iterative Hessian approximations

A run of updates is a list of pairs `(s, y)` folded with the model's `update`.
-/

namespace Fides
open Num Spec
variable {n : ℕ}

/-- apply a sequence of `(s, y)` updates to an iterative approximation object -/
def runIter {F : Type} [FloatOps F] (h : IterApprox F n) : List (Vec F n × Vec F n) → IterApprox F n
  | [] => h
  | (s, y) :: rest => runIter (h.update s y) rest

/-! ## C31 secant equation of the Broyden class -/

/-- C31: after `update(s, y)` of `Broyden(phi)` (so BFGS, DFP) the new matrix maps `s` to `y`, for every `phi`, whenever the
two denominators are nonzero and the curvature test lets the update through. -/
theorem C31_secant (h : IterApprox Num n) (phi : ℝ) (enforce : Bool) (B : Fin n → Fin n → ℝ) (s y : Fin n → ℝ)
    (hsch : h.scheme = .broyden (fin phi) enforce) (hB : h.getMat = ofM B)
    (hb : rdot y s ≠ 0) (hc : rdot (rmv B s) s ≠ 0) (he : enforce = true → 0 < rdot y s) :
    ∃ B', (h.update (ofV s) (ofV y)).getMat = ofM B' ∧ rmv B' s = y := by
  refine ⟨B + rbroyden y s B phi, ?_, rbroyden_secant y s B phi hb hc⟩
  simp only [IterApprox.getMat] at hB ⊢
  simp only [IterApprox.update, hsch, IterApprox.computeUpdate, hB, broyden_fin y s B phi enforce hb hc he, madd_ofM]

/-- C31 for a positive definite approximation and positive curvature: no further hypothesis. -/
theorem C31_secant_pd (h : IterApprox Num n) (phi : ℝ) (enforce : Bool) (B : Fin n → Fin n → ℝ) (s y : Fin n → ℝ)
    (hsch : h.scheme = .broyden (fin phi) enforce) (hB : h.getMat = ofM B) (hpd : PD B) (hb : 0 < rdot y s) :
    ∃ B', (h.update (ofV s) (ofV y)).getMat = ofM B' ∧ rmv B' s = y := by
  refine C31_secant h phi enforce B s y hsch hB hb.ne' ?_ (fun _ => hb)
  have hs : s ≠ 0 := by rintro rfl; rw [rdot_zero] at hb; exact lt_irrefl _ hb
  rw [rdot_comm]; exact (hpd s hs).ne'

/-- C31: with `enforce_curv_cond` a pair of non-positive curvature leaves the matrix as it is. -/
theorem C31_skip (h : IterApprox Num n) (phi : Num) (B : Fin n → Fin n → ℝ) (s y : Fin n → ℝ)
    (hsch : h.scheme = .broyden phi true) (hB : h.getMat = ofM B) (hb : rdot y s ≤ 0) :
    (h.update (ofV s) (ofV y)).getMat = ofM B := by
  simp only [IterApprox.getMat] at hB ⊢
  simp only [IterApprox.update, hsch, IterApprox.computeUpdate, hB, broyden_skip y s _ _ hb, madd_ofM, add_zero]

example : PD (idM : Fin 2 → Fin 2 → ℝ) ∧ 0 < rdot (n := 2) ![2, 1] ![1, 0] ∧ rdot (n := 2) ![-2, 1] ![1, 0] ≤ 0 := by
  refine ⟨PD_idM, ?_, ?_⟩ <;> norm_num [rdot, Fin.sum_univ_two]

/-! ## C32 symmetry -/

section sym
variable {F : Type} [FloatOps F]

/-- symmetric as an array (NaN and infinite entries included) -/
def SymA (a : Mat F n n) : Prop := ∀ i j, a i j = a j i

theorem symA_madd {a b : Mat F n n} (ha : SymA a) (hb : SymA b) : SymA (madd a b) := fun i j => by
  simp only [madd]; rw [ha i j, hb i j]
theorem symA_msub {a b : Mat F n n} (ha : SymA a) (hb : SymA b) : SymA (msub a b) := fun i j => by
  simp only [msub]; rw [ha i j, hb i j]
theorem symA_msmul (c : F) {a : Mat F n n} (ha : SymA a) : SymA (msmul c a) := fun i j => by
  simp only [msmul]; rw [ha i j]
theorem symA_mdiv {a : Mat F n n} (c : F) (ha : SymA a) : SymA (mdiv a c) := fun i j => by
  simp only [mdiv]; rw [ha i j]
theorem symA_mzero : SymA (mzero : Mat F n n) := fun _ _ => rfl
theorem symA_meye : SymA (meye : Mat F n n) := fun i j => by simp only [meye, eq_comm]
theorem symA_outer (hcomm : ∀ a b : F, a * b = b * a) (v : Vec F n) : SymA (outer v v) := fun _ _ => hcomm _ _

theorem symA_broyden (hcomm : ∀ a b : F, a * b = b * a) (y s : Vec F n) (mat : Mat F n n) (phi : F) (e : Bool) :
    SymA (broydenClassUpdate y s mat phi e) := by
  unfold broydenClassUpdate
  dsimp only
  split
  · exact symA_mzero
  · split
    · exact symA_madd (symA_msub (symA_mdiv _ (symA_outer hcomm _)) (symA_mdiv _ (symA_outer hcomm _)))
        (symA_msmul _ (symA_outer hcomm _))
    · exact symA_msub (symA_mdiv _ (symA_outer hcomm _)) (symA_mdiv _ (symA_outer hcomm _))

/-- C32: any sequence of Broyden-class or SR1 updates keeps a symmetric matrix symmetric, in any arithmetic with
commutative multiplication and whatever values (NaN, inf) occur. -/
theorem C32_iterative (hcomm : ∀ a b : F, a * b = b * a) (h : IterApprox F n) (us : List (Vec F n × Vec F n))
    (hsch : h.scheme = .sr1 ∨ ∃ phi e, h.scheme = .broyden phi e) (hsym : SymA h.getMat) :
    SymA (runIter h us).getMat := by
  induction us generalizing h with
  | nil => exact hsym
  | cons u us ih =>
    obtain ⟨s, y⟩ := u
    refine ih (h.update s y) ?_ ?_
    · rcases hsch with h1 | ⟨phi, e, h1⟩
      · left; simp [IterApprox.update, h1]
      · right; exact ⟨phi, e, by simp [IterApprox.update, h1]⟩
    · rcases hsch with h1 | ⟨phi, e, h1⟩
      · simp only [IterApprox.getMat, IterApprox.update, h1, IterApprox.computeUpdate]
        refine symA_madd hsym ?_
        split
        · exact symA_mdiv _ (symA_outer hcomm _)
        · exact symA_mzero
      · simp only [IterApprox.getMat, IterApprox.update, h1, IterApprox.computeUpdate]
        exact symA_madd hsym (symA_broyden hcomm _ _ _ _ _)

/-- C32 for the structured schemes: with a symmetric Gauss-Newton part the structured matrix and the approximation are
symmetric after every update (SSM, TSSM, GNSBFGS), so along every history. -/
theorem C32_structured (hcomm : ∀ a b : F, a * b = b * a) (h : Structured F n) (s y yb : Vec F n) (nr tol : F)
    (hess : Mat F n n) (hA : SymA h.A) (hC : SymA hess) :
    (SymA (h.updateSSM s y hess yb).A ∧ SymA (h.updateSSM s y hess yb).hess) ∧
    (SymA (h.updateTSSM s y nr hess yb).A ∧ SymA (h.updateTSSM s y nr hess yb).hess) ∧
    (SymA (h.updateGNSBFGS tol s y nr hess yb).A ∧ SymA (h.updateGNSBFGS tol s y nr hess yb).hess) := by
  have hb := fun (y s : Vec F n) m p e => symA_broyden (F := F) (n := n) hcomm y s m p e
  refine ⟨⟨?_, ?_⟩, ⟨?_, ?_⟩, ?_⟩
  · exact symA_madd hA (hb _ _ _ _ _)
  · exact symA_madd hC (symA_madd hA (hb _ _ _ _ _))
  · exact symA_madd hA (symA_mdiv _ (hb _ _ _ _ _))
  · exact symA_madd hC (symA_msmul _ (symA_madd hA (symA_mdiv _ (hb _ _ _ _ _))))
  · unfold Structured.updateGNSBFGS
    dsimp only
    split
    · exact ⟨symA_madd hA (hb _ _ _ _ _), symA_madd hC (symA_madd hA (hb _ _ _ _ _))⟩
    · exact ⟨hA, symA_madd hC (symA_msmul _ symA_meye)⟩

/-- the structured matrix starts symmetric -/
theorem C32_structured_init (h : Structured F n) (hess0 : Option (Mat F n n)) : SymA (h.initMat hess0).A := by
  intro i j
  simp only [Structured.initMat]
  rw [symA_meye i j]

end sym

theorem Num.mul_comm' (a b : Num) : a * b = b * a := by
  cases a <;> cases b <;> simp [fin_mul_pinf, pinf_mul_fin, fin_mul_ninf, ninf_mul_fin, mul_comm]

example (h : IterApprox Num 2) (hs : h.scheme = .sr1) : SymA (runIter (h.initMat none) [(ofV ![1, 0], ofV ![2, 1])]).getMat :=
  C32_iterative Num.mul_comm' _ _ (Or.inl (by simpa [IterApprox.initMat] using hs)) symA_meye

/-- C32: Broyden's good update does not preserve symmetry. -/
theorem C32_bg_not_symmetric : ¬ SymA ((({ scheme := .bg, hess := meye, diff := mzero } : IterApprox Num 2).update
    (ofV ![1, 0]) (ofV ![1, 1])).getMat) := by
  intro h
  have h01 := h 0 1
  revert h01
  simp only [IterApprox.update, IterApprox.computeUpdate, IterApprox.getMat, meye_ofM, mulVec_ofM, vsub_ofV, dot_ofV,
    outer_ofV]
  rw [mdiv_ofM _ _ (by norm_num [rdot, Fin.sum_univ_two]), madd_ofM]
  simp only [ofM_apply, fin_inj]
  norm_num [rdot, rmv, Fin.sum_univ_two]

/-! ## C33 positive definiteness -/

/-- C33, one step: symmetric positive definiteness (with finite entries) survives any update. -/
theorem C33_step (h : IterApprox Num n) (phi : ℝ) (hphi : 0 ≤ phi) (hsch : h.scheme = .broyden (fin phi) true)
    (hspd : FinSPD h.getMat) (s y : Fin n → ℝ) : FinSPD (h.update (ofV s) (ofV y)).getMat := by
  obtain ⟨B, hB, hsym, hpd⟩ := hspd
  rcases le_or_gt (rdot y s) 0 with hb | hb
  · exact ⟨B, C31_skip h _ B s y hsch hB hb, hsym, hpd⟩
  · have hs : s ≠ 0 := by rintro rfl; rw [rdot_zero] at hb; exact lt_irrefl _ hb
    have hc : rdot (rmv B s) s ≠ 0 := by rw [rdot_comm]; exact (hpd s hs).ne'
    refine ⟨B + rbroyden y s B phi, ?_, Num.Sym.add hsym (rbroyden_sym y s B phi), rbroyden_PD y s B phi hphi hsym hpd hb⟩
    simp only [IterApprox.getMat] at hB ⊢
    simp only [IterApprox.update, hsch, IterApprox.computeUpdate, hB, broyden_fin y s B phi true hb.ne' hc (fun _ => hb),
      madd_ofM]

/-- C33: starting from the identity or any symmetric positive definite `hess0`, the approximation of a
Broyden-class scheme with `enforce_curv_cond` and `phi >= 0` is finite, symmetric and positive definite after every
sequence of updates with arbitrary finite `(s, y)`. -/
theorem C33_positive_definite (phi : ℝ) (hphi : 0 ≤ phi) (h : IterApprox Num n)
    (hsch : h.scheme = .broyden (fin phi) true) (hess0 : Option (Mat Num n n))
    (h0 : ∀ m, hess0 = some m → FinSPD m) (us : List ((Fin n → ℝ) × (Fin n → ℝ))) :
    FinSPD (runIter (h.initMat hess0) (us.map fun u => (ofV u.1, ofV u.2))).getMat := by
  have hinit : FinSPD (h.initMat hess0).getMat := by
    cases hess0 with
    | none => exact ⟨idM, meye_ofM, Sym_idM, PD_idM⟩
    | some m => exact h0 m rfl
  have hsch' : (h.initMat hess0).scheme = .broyden (fin phi) true := hsch
  generalize h.initMat hess0 = g at hinit hsch'
  induction us generalizing g with
  | nil => exact hinit
  | cons u us ih =>
    exact ih (g.update (ofV u.1) (ofV u.2)) (C33_step g phi hphi hsch' hinit u.1 u.2)
      (by simp [IterApprox.update, hsch'])

/-- C33 covers the shipped classes `BFGS()` and `DFP()`. -/
theorem C33_bfgs_dfp (hess0 : Option (Mat Num n n)) (h0 : ∀ m, hess0 = some m → FinSPD m)
    (us : List ((Fin n → ℝ) × (Fin n → ℝ))) :
    FinSPD (runIter ((IterApprox.new (IterScheme.bfgs)).initMat hess0) (us.map fun u => (ofV u.1, ofV u.2))).getMat ∧
    FinSPD (runIter ((IterApprox.new (IterScheme.dfp)).initMat hess0) (us.map fun u => (ofV u.1, ofV u.2))).getMat := by
  constructor
  · exact C33_positive_definite 0 le_rfl _ (by simp [IterApprox.new, IterScheme.bfgs]) hess0 h0 us
  · exact C33_positive_definite 1 zero_le_one _ (by simp [IterApprox.new, IterScheme.dfp]) hess0 h0 us

example : FinSPD (runIter ((IterApprox.new (F := Num) (n := 2) IterScheme.bfgs).initMat none)
    ([(![1, 0], ![2, 1]), (![0, 0], ![1, 1]), (![0, 1], ![0, -1])].map fun u => (ofV u.1, ofV u.2))).getMat :=
  (C33_bfgs_dfp none (by simp) _).1

/-- C33 needs the curvature test: without `enforce_curv_cond` one pair with negative curvature destroys
definiteness. -/
theorem C33_needs_curvature_condition : ∃ B', ((({ scheme := .bfgs false, hess := meye, diff := mzero } :
    IterApprox Num 1).update (ofV ![1]) (ofV ![-1])).getMat) = ofM B' ∧ ¬ PD B' := by
  obtain ⟨B', h1, h2⟩ := C31_secant (n := 1) { scheme := .bfgs false, hess := meye, diff := mzero } 0 false idM
    ![1] ![-1] (by simp [IterScheme.bfgs]) meye_ofM
    (by norm_num [rdot]) (by rw [idM_rmv]; norm_num [rdot]) (by simp)
  refine ⟨B', h1, fun hpd => ?_⟩
  have := hpd ![1] (by simp)
  rw [h2] at this
  norm_num [rdot] at this

/-! ## C34 SR1 -/

theorem sr1_update (h : IterApprox Num n) (B : Fin n → Fin n → ℝ) (s y : Fin n → ℝ)
    (hsch : h.scheme = .sr1) (hB : h.hess = ofM B) :
    (h.update (ofV s) (ofV y)).hess =
      if Real.sqrt (1 / 4503599627370496) * rnorm s * rnorm (y - rmv B s) ≤ |rdot (y - rmv B s) s| then
        madd (ofM B) (mdiv (ofM fun i j => (y - rmv B s) i * (y - rmv B s) j) (fin (rdot (y - rmv B s) s)))
      else ofM B := by
  have hsp : FloatOps.sqrt (spacing1 : Num) = fin (Real.sqrt (1 / 4503599627370496)) := by
    rw [spacing1, lit_def, fin_sqrt _ (by norm_num)]
    norm_num
  simp only [IterApprox.update, hsch, IterApprox.computeUpdate, hB, mulVec_ofM, vsub_ofV, dot_ofV, norm_ofV, hsp,
    fin_mul, fin_abs, fin_le, outer_ofV, decide_eq_true_eq]
  split <;> simp

/-- C34 (the part that holds): if `s` is nonzero and the secant equation does not hold already, the updated matrix is
finite and either unchanged or maps `s` to `y`.  Missing for the full claim: the excluded points, where the code
produces NaN, see `C34_counterexample`. -/
theorem C34_sr1_partial (h : IterApprox Num n) (B : Fin n → Fin n → ℝ) (s y : Fin n → ℝ) (hsch : h.scheme = .sr1)
    (hB : h.getMat = ofM B) (hs : s ≠ 0) (hz : rmv B s ≠ y) :
    ∃ B', (h.update (ofV s) (ofV y)).getMat = ofM B' ∧ (B' = B ∨ rmv B' s = y) := by
  simp only [IterApprox.getMat] at hB ⊢
  rw [sr1_update h B s y hsch hB]
  split
  · rename_i hd
    have hz' : y - rmv B s ≠ 0 := fun h => hz (sub_eq_zero.mp h).symm
    have hpos : 0 < Real.sqrt (1 / 4503599627370496) * rnorm s * rnorm (y - rmv B s) := by
      have := rnorm_pos hs
      have := rnorm_pos hz'
      have : 0 < Real.sqrt (1 / 4503599627370496 : ℝ) := Real.sqrt_pos.mpr (by norm_num)
      positivity
    have hne : rdot (y - rmv B s) s ≠ 0 := abs_pos.mp (lt_of_lt_of_le hpos hd)
    refine ⟨B + fun i j => (y - rmv B s) i * (y - rmv B s) j / rdot (y - rmv B s) s, ?_, Or.inr ?_⟩
    · rw [mdiv_ofM _ _ hne, madd_ofM]
    · rw [add_rmv, div_rmv (fun i j => (y - rmv B s) i * (y - rmv B s) j), outer_rmv]
      funext i
      simp only [Pi.add_apply, Pi.smul_apply, smul_eq_mul]
      field_simp
      simp
  · exact ⟨B, rfl, Or.inl rfl⟩

/-- C34 is false at the excluded points: if the secant equation already holds (or `s = 0`), the test `0 >= 0` passes and
the update adds `0/0`; every entry becomes NaN. -/
theorem C34_counterexample (h : IterApprox Num n) (B : Fin n → Fin n → ℝ) (s y : Fin n → ℝ) (hsch : h.scheme = .sr1)
    (hB : h.getMat = ofM B) (hz : rmv B s = y) : ∀ i j, (h.update (ofV s) (ofV y)).getMat i j = Num.nan := by
  intro i j
  simp only [IterApprox.getMat] at hB ⊢
  have h0 : y - rmv B s = 0 := by rw [hz, sub_self]
  rw [sr1_update h B s y hsch hB, h0]
  have : rnorm (0 : Fin n → ℝ) = 0 := rnorm_eq_zero.mpr rfl
  simp [this, zero_rdot, madd, mdiv, fin_div_def]

/-- C34: a degenerate denominator (`|z·s| < 2^-26 ‖s‖‖z‖`, `z = y - B s`) leaves the matrix unchanged. -/
theorem C34_degenerate (h : IterApprox Num n) (B : Fin n → Fin n → ℝ) (s y : Fin n → ℝ) (hsch : h.scheme = .sr1)
    (hB : h.getMat = ofM B) (hd : |rdot (y - rmv B s) s| < Real.sqrt (1 / 4503599627370496) * rnorm s * rnorm (y - rmv B s)) :
    (h.update (ofV s) (ofV y)).getMat = ofM B := by
  simp only [IterApprox.getMat] at hB ⊢
  rw [sr1_update h B s y hsch hB, if_neg (not_le.mpr hd)]

example : rmv (idM : Fin 2 → Fin 2 → ℝ) ![1, 0] ≠ ![2, 0] ∧ rmv (idM : Fin 2 → Fin 2 → ℝ) ![1, 0] = ![1, 0] := by
  rw [idM_rmv]
  refine ⟨fun h => ?_, rfl⟩
  have := congrFun h 0
  norm_num at this

/-! ## C35 Broyden good/bad -/

/-- C35: for `s ≠ 0` the BG update maps `s` to `y`, and no matrix that does so is closer to the old one in
Frobenius norm. -/
theorem C35_bg (h : IterApprox Num n) (B : Fin n → Fin n → ℝ) (s y : Fin n → ℝ) (hsch : h.scheme = .bg)
    (hB : h.getMat = ofM B) (hs : s ≠ 0) :
    ∃ B', (h.update (ofV s) (ofV y)).getMat = ofM B' ∧ rmv B' s = y ∧
      ∀ B'' : Fin n → Fin n → ℝ, rmv B'' s = y → frobSq (B' - B) ≤ frobSq (B'' - B) := by
  have hss := rdot_self_pos hs
  simp only [IterApprox.getMat] at hB ⊢
  refine ⟨B + fun i j => (y - rmv B s) i * s j / rdot s s, ?_, ?_, ?_⟩
  · simp only [IterApprox.update, hsch, IterApprox.computeUpdate, hB, mulVec_ofM, vsub_ofV, dot_ofV, outer_ofV,
      mdiv_ofM _ _ hss.ne', madd_ofM]
  · rw [add_rmv, div_rmv (fun i j => (y - rmv B s) i * s j), outer_rmv]
    funext i
    simp only [Pi.add_apply, Pi.smul_apply, smul_eq_mul]
    field_simp
    simp
  · intro B'' hB''
    have hz : rmv (B'' - B) s = y - rmv B s := by rw [sub_rmv, hB'']
    rw [add_sub_cancel_left]
    unfold frobSq
    refine Finset.sum_le_sum fun i _ => ?_
    have hzi : rdot ((B'' - B) i) s = (y - rmv B s) i := congrFun hz i
    have hcs := cauchy_schwarz_sq ((B'' - B) i) s
    rw [hzi] at hcs
    have e1 : ∑ j, ((y - rmv B s) i * s j / rdot s s) ^ 2 = (y - rmv B s) i * (y - rmv B s) i / rdot s s := by
      have : ∀ j, ((y - rmv B s) i * s j / rdot s s) ^ 2 =
          ((y - rmv B s) i * (y - rmv B s) i / (rdot s s * rdot s s)) * (s j * s j) := fun j => by ring
      rw [Finset.sum_congr rfl fun j _ => this j, ← Finset.mul_sum]
      change _ * rdot s s = _
      field_simp
    have e2 : ∑ j, ((B'' - B) i j) ^ 2 = rdot ((B'' - B) i) ((B'' - B) i) :=
      Finset.sum_congr rfl fun _ _ => sq _
    rw [e1, e2, div_le_iff₀ hss]
    exact hcs

/-- C35 is false for BB: `update` never changes the matrix, in any arithmetic and for any history. -/
theorem C35_bb_never_updates {F : Type} [FloatOps F] (h : IterApprox F n) (hsch : h.scheme = .bb)
    (us : List (Vec F n × Vec F n)) : (runIter h us).getMat = h.getMat := by
  induction us generalizing h with
  | nil => rfl
  | cons u us ih =>
    have h1 : (h.update u.1 u.2).hess = h.hess ∧ (h.update u.1 u.2).scheme = .bb := by
      simp only [IterApprox.update, hsch]
      split <;> simp
    exact (ih (h.update u.1 u.2) h1.2).trans h1.1

/-- so BB violates the secant equation on an ordinary pair of positive curvature -/
theorem C35_bb_counterexample : ∃ (s y : Fin 1 → ℝ), 0 < rdot y s ∧ ∀ B', ((({ scheme := .bb, hess := meye, diff := mzero } :
    IterApprox Num 1).update (ofV s) (ofV y)).getMat) = ofM B' → rmv B' s ≠ y := by
  refine ⟨![1], ![2], by norm_num [rdot], fun B' hB' => ?_⟩
  have h := C35_bb_never_updates (F := Num) (n := 1) { scheme := .bb, hess := meye, diff := mzero } rfl [(ofV ![1], ofV ![2])]
  rw [show (runIter _ [(ofV ![1], ofV ![2])] : IterApprox Num 1) = _ from rfl] at h
  simp only [runIter] at h
  rw [hB'] at h
  have h2 : B' = idM := by
    funext i j
    have := congrFun (congrFun h i) j
    simpa [IterApprox.getMat, fin_inj, idM] using this
  rw [h2, idM_rmv]
  intro h3
  have := congrFun h3 0
  norm_num at this

example : (![1, 2] : Fin 2 → ℝ) ≠ 0 := fun h => by have := congrFun h 0; norm_num at this

end Fides
