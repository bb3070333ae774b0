import Verif.Lemmas.RotationQuasi
import Verif.Props.Rotation

/-!
# C88: rotated coordinates, quasi-Newton approximations

The statement of C87 for objectives without Hessian and the BFGS, DFP and Broyden-class approximations.  Modelled code: `Optimizer.minimize` (minimize.py:313-443) with everything it calls,
`Broyden`, `DFP`, `BFGS` (hessian_approximation.py:122-200), `broyden_class_update` (hessian_approximation.py:604-642), `trust_region` (trust_region.py:31-199), `TRStep2D`, `TRStepFull`,
`TRStepSteihaug` (steps.py:281-520).
-/

namespace Fides
open Num Spec

variable {n : ℕ} {Q : Fin n → Fin n → ℝ} {f f' : (Fin n → ℝ) → ℝ} {g g' : (Fin n → ℝ) → Fin n → ℝ} {E E' : Env Num n} {phi : ℝ}

/-- **C88.** One update of a Broyden-class approximation with `phi ≥ 0` (0 is BFGS, 1 is DFP) and curvature check, from a positive definite matrix `B`, for any displacement `s` and any
difference of gradients `y`: updating in the coordinates `Q x` gives the updated approximation in the coordinates `Q x`, it stays symmetric and positive definite. -/
theorem C88_update (hQ : OrthoCols Q) {h h' : IterApprox Num n} {B B' : Fin n → Fin n → ℝ} (hphi : 0 ≤ phi) (hs : h.scheme = .broyden (fin phi) true)
    (hs' : h'.scheme = .broyden (fin phi) true) (hB : h.hess = ofM B) (hB' : h'.hess = ofM B') (hc : ∀ u, rmv B' (rmv Q u) = rmv Q (rmv B u)) (hS : Sym B) (hpd : PD B) (s y : Fin n → ℝ) :
    IterRot Q (h.update (ofV s) (ofV y)) (h'.update (ofV (rmv Q s)) (ofV (rmv Q y))) ∧ ∃ C, (h.update (ofV s) (ofV y)).hess = ofM C ∧ Sym C ∧ PD C := by
  obtain ⟨C, C', c1, c2, c3, c4, c5, c6, c7, c8⟩ := rot_update hQ hphi hs hs' hB hB' hc hS hpd s y
  exact ⟨⟨c8.trans c7.symm, ⟨C, C', c1, c2, c3⟩, c6⟩, C, c1, c4, c5⟩

section
variable (hQ : OrthoCols Q) (hv : ∀ x, f' (rmv Q x) = f x) (hgr : ∀ x, g' (rmv Q x) = rmv Q (g x)) (h : ReturnsGrad E f g) (h' : ReturnsGrad E' f' g') (ho : E'.opts = E.opts) (hc : E'.clock = E.clock)
  (hU : ∀ i, E.lb i = ninf ∧ E.ub i = pinf) (hU' : ∀ i, E'.lb i = ninf ∧ E'.ub i = pinf) (hh : E.opts.history = false) {ga : ℝ} (hga : E.opts.gatol = fin ga) (hga0 : 0 ≤ ga)
  {mu eta g1 g2 D0 : ℝ} (hE : TRParams E mu eta g1 g2 D0) (hphi : 0 ≤ phi) (x0 : Fin n → ℝ) (hg : g x0 ≠ 0) (startId : String)
include hQ hv hgr h h' ho hc hU hU' hh hga hga0 hE hphi hg

/-- **C88.** A run of a new optimizer without bounds, with a Broyden-class approximation started at the identity and the Steihaug solver (any linear algebra routines): `minimize` in the
coordinates `Q x` gives the run in the coordinates `x`, rotated.  All values, the radius, exit flag, counters and decisions are the same; all points and gradients are multiplied by `Q`,
the Hessian approximations are conjugated.  Any objective that returns value and gradient, every step-back strategy, every starting point with non-zero gradient, any fuel. -/
theorem C88_steihaug (hd : E.opts.subspaceDim = .steihaug) (O O' : ℕ → Oracles Num) (tf : ℕ) (hO : ∀ k I, E.tr k I = trustRegion (O k) tf .steihaug E.opts.stepbackStrat I)
    (hO' : ∀ k I, E'.tr k I = trustRegion (O' k) tf .steihaug E.opts.stepbackStrat I) (fuel : ℕ) :
    (∃ s s', minimize E fuel (ofV x0) startId (.val .none) (St.new E.opts (some (.iter (.new (.broyden (fin phi) true))))) = .ok s ∧
      minimize E' fuel (ofV (rmv Q x0)) startId (.val .none) (St.new E'.opts (some (.iter (.new (.broyden (fin phi) true))))) = .ok s' ∧ QuasiRot Q s s') ∨
    ∃ s s', minimize E fuel (ofV x0) startId (.val .none) (St.new E.opts (some (.iter (.new (.broyden (fin phi) true))))) = .error (.diverges, s) ∧
      minimize E' fuel (ofV (rmv Q x0)) startId (.val .none) (St.new E'.opts (some (.iter (.new (.broyden (fin phi) true))))) = .error (.diverges, s') ∧ QuasiRot Q s s' := by
  refine (quasi_minimize (Q := Q) (f := f) (f' := f') (g := g) (g' := g') hphi ?_ _ _ rfl rfl x0 hg startId fuel).symm
  refine ⟨hQ, hv, hgr, h, h', ho, hc, hU, hU', hh, by rw [hga, fin_le]; exact decide_eq_true hga0, hE.theta, ⟨_, hE.gamma1⟩, ⟨_, hE.gamma2⟩, ⟨_, hE.deltaInit⟩, fun k => ?_⟩
  rw [hd]
  exact ⟨O k, O' k, tf, hO k, hO' k, Or.inl rfl⟩

/-- **C88.** The same with the 2D (default) and the full solver and exact linear algebra routines, possibly different ones in the two runs.  Nothing is assumed about the curvature of the
objective. -/
theorem C88_exact (hd : E.opts.subspaceDim = .two ∨ E.opts.subspaceDim = .full) (O O' : ℕ → Oracles Num) (hX : ∀ k, ExactRoutines (O k)) (hX' : ∀ k, ExactRoutines (O' k))
    (tf : ℕ) (hO : ∀ k I, E.tr k I = trustRegion (O k) tf E.opts.subspaceDim E.opts.stepbackStrat I)
    (hO' : ∀ k I, E'.tr k I = trustRegion (O' k) tf E.opts.subspaceDim E.opts.stepbackStrat I) (fuel : ℕ) :
    (∃ s s', minimize E fuel (ofV x0) startId (.val .none) (St.new E.opts (some (.iter (.new (.broyden (fin phi) true))))) = .ok s ∧
      minimize E' fuel (ofV (rmv Q x0)) startId (.val .none) (St.new E'.opts (some (.iter (.new (.broyden (fin phi) true))))) = .ok s' ∧ QuasiRot Q s s') ∨
    ∃ s s', minimize E fuel (ofV x0) startId (.val .none) (St.new E.opts (some (.iter (.new (.broyden (fin phi) true))))) = .error (.diverges, s) ∧
      minimize E' fuel (ofV (rmv Q x0)) startId (.val .none) (St.new E'.opts (some (.iter (.new (.broyden (fin phi) true))))) = .error (.diverges, s') ∧ QuasiRot Q s s' := by
  refine (quasi_minimize (Q := Q) (f := f) (f' := f') (g := g) (g' := g') hphi ?_ _ _ rfl rfl x0 hg startId fuel).symm
  exact ⟨hQ, hv, hgr, h, h', ho, hc, hU, hU', hh, by rw [hga, fin_le]; exact decide_eq_true hga0, hE.theta, ⟨_, hE.gamma1⟩, ⟨_, hE.gamma2⟩, ⟨_, hE.deltaInit⟩,
    fun k => ⟨O k, O' k, tf, hO k, hO' k, Or.inr ⟨hd, hX k, hX' k⟩⟩⟩

end

/-- the assumptions of `C88_update` are met by a DFP approximation just initialised -/
example (hQ : OrthoCols Q) (s y : Fin n → ℝ) :
    let h : IterApprox Num n := (IterApprox.new (.broyden (fin 1) true)).initMat none
    IterRot Q (h.update (ofV s) (ofV y)) (h.update (ofV (rmv Q s)) (ofV (rmv Q y))) :=
  (C88_update (B := idM) (B' := idM) hQ (zero_le_one' ℝ) rfl rfl meye_ofM meye_ofM (fun u => by rw [idM_rmv, idM_rmv]) Sym_idM PD_idM s y).1

noncomputable section

/-- a non-convex objective with its gradient (two wells) -/
def wellsF (x : Fin 2 → ℝ) : ℝ := x 0 ^ 4 / 4 - x 0 ^ 2 / 2 + 2 * x 1 ^ 2
def wellsG (x : Fin 2 → ℝ) : Fin 2 → ℝ := ![x 0 ^ 3 - x 0, 4 * x 1]

/-- an objective that returns given values and gradients -/
def tableObj2 (f : (Fin n → ℝ) → ℝ) (g : (Fin n → ℝ) → Fin n → ℝ) (v : Vec Num n) : Ret Num :=
  .tuple [.scalar (fin (f fun i => realPart (v i))), .ofVec (ofV (g fun i => realPart (v i)))]

/-- the assumptions of `C88_exact` are met: default options and BFGS (`phi = 0`), a non-convex function of two variables without Hessian, rotated by the angle with cosine 3/5; with
exact routines, from every starting point with second coordinate not zero, the run in the rotated coordinates is the rotated run -/
example (O O' : ℕ → Oracles Num) (hX : ∀ k, ExactRoutines (O k)) (hX' : ∀ k, ExactRoutines (O' k)) (x0 : Fin 2 → ℝ) (h0 : x0 1 ≠ 0) (fuel : ℕ) :
    let E := { plainEnv 2 (tableObj2 wellsF wellsG) O with nargout := 2 }
    let E' := { plainEnv 2 (tableObj2 (fun y => wellsF (turnBack y)) (fun y => rmv turnQ (wellsG (turnBack y)))) O' with nargout := 2 }
    let bfgs : Option (Happ Num 2) := some (.iter (.new (.broyden (fin 0) true)))
    (∃ s s', minimize E fuel (ofV x0) "0" (.val .none) (St.new E.opts bfgs) = .ok s ∧
      minimize E' fuel (ofV (rmv turnQ x0)) "0" (.val .none) (St.new E'.opts bfgs) = .ok s' ∧ QuasiRot turnQ s s') ∨
    ∃ s s', minimize E fuel (ofV x0) "0" (.val .none) (St.new E.opts bfgs) = .error (.diverges, s) ∧
      minimize E' fuel (ofV (rmv turnQ x0)) "0" (.val .none) (St.new E'.opts bfgs) = .error (.diverges, s') ∧ QuasiRot turnQ s s' := by
  intro E E' bfgs
  have hp := plain_params 2 (tableObj2 wellsF wellsG) O
  refine C88_exact (E := E) (E' := E') (f := wellsF) (g := wellsG) (f' := fun y => wellsF (turnBack y)) (g' := fun y => rmv turnQ (wellsG (turnBack y))) ?_ (fun x => ?_) (fun x => ?_)
    ⟨rfl, rfl, fun _ _ => rfl⟩ ⟨rfl, rfl, fun _ _ => rfl⟩ rfl rfl (fun _ => ⟨rfl, rfl⟩) (fun _ => ⟨rfl, rfl⟩) ?_
    (ga := 1 / 1000000) ?_ (by norm_num) ⟨hp.hmu, hp.heta, hp.gamma1, hp.gamma2, hp.deltaInit, hp.theta, hp.mu_pos, hp.mu_lt, hp.mu_eta, hp.g1_pos, hp.g1_lt, hp.g2_ge, hp.D0_pos⟩ le_rfl x0 ?_ "0" ?_ O O' hX hX' 2 ?_ ?_ fuel
  · intro a b
    fin_cases a <;> fin_cases b <;> simp [turnQ, rdot, Fin.sum_univ_two] <;> norm_num
  · show wellsF _ = _
    rw [turn_back]
  · show rmv turnQ (wellsG _) = _
    rw [turn_back]
  · simp only [E, plainEnv, demo_opts]
  · simp only [E, plainEnv, demo_opts]
  · intro hg
    have e1 : 4 * x0 1 = 0 := congrFun hg 1
    exact h0 (by linarith)
  · left; simp only [E, plainEnv, demo_opts]
  · intro k I; simp only [E, plainEnv, demo_opts]
  · intro k I; simp only [E, E', plainEnv, demo_opts]

end
end Fides
