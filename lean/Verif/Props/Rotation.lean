import Verif.Lemmas.RotationRun
import Verif.Lemmas.ExactRoutines
import Verif.Props.NewtonExamples

/-!
# C87: rotated coordinates

Without bounds, the optimizer does not depend on the choice of the (orthonormal) coordinate system.  Modelled code: `Optimizer.minimize` (minimize.py:313-443) with everything it calls,
`trust_region` (trust_region.py:31-199), `TRStep2D`, `TRStepFull`, `TRStepSteihaug` (steps.py:281-520).
-/

namespace Fides
open Num Spec

variable {n : ℕ} {Q : Fin n → Fin n → ℝ} {f f' : (Fin n → ℝ) → ℝ} {g g' : (Fin n → ℝ) → Fin n → ℝ} {H H' : (Fin n → ℝ) → Fin n → Fin n → ℝ} {E E' : Env Num n}

/-- **C87.** One call of `trust_region` without bounds, in the coordinates `x` and in the coordinates `Q x`, `Q` orthogonal: if the gradient is not zero, then both calls return, and
the second one proposes the displacement `Q p` and predicts the same change of the objective when the first one proposes `p`; or both exhaust the fuel of the model (which is only the
number of CG iterations of the Steihaug solver).  With the Steihaug solver for every symmetric Hessian and all linear algebra routines, with the 2D and the full solver for positive
definite Hessians and exact (possibly different) linear algebra routines. -/
theorem C87_step (hQ : OrthoCols Q) {I I' : TRIn Num n} {x v : Fin n → ℝ} {B B' : Fin n → Fin n → ℝ} {D : ℝ} (hI : PlainInput I x v B D) (hI' : PlainInput I' (rmv Q x) (rmv Q v) B' D)
    (hB : ∀ u, rmv B' (rmv Q u) = rmv Q (rmv B u)) (hv : v ≠ 0) (O O' : Oracles Num) (dim : SubSpaceDim)
    (hX : dim = .steihaug ∨ (dim = .two ∨ dim = .full) ∧ PD B ∧ ExactRoutines O ∧ ExactRoutines O') (fuel : ℕ) (sb : StepBackStrategy) :
    (trustRegion O fuel dim sb I = .error .diverges ∧ trustRegion O' fuel dim sb I' = .error .diverges) ∨
    ∃ r r' p, trustRegion O fuel dim sb I = .ok r ∧ trustRegion O' fuel dim sb I' = .ok r' ∧ Proposes1 r x v B p ∧ Proposes1 r' (rmv Q x) (rmv Q v) B' (rmv Q p) :=
  rot_step hQ hI hI' hB hv O O' dim hX fuel sb

section
variable (hQ : OrthoCols Q) (hR : Rotates Q f g H f' g' H') (h : Returns E f g H) (h' : Returns E' f' g' H') (ho : E'.opts = E.opts) (hc : E'.clock = E.clock)
  (hU : ∀ i, E.lb i = ninf ∧ E.ub i = pinf) (hU' : ∀ i, E'.lb i = ninf ∧ E'.ub i = pinf) (hh : E.opts.history = false) {ga : ℝ} (hga : E.opts.gatol = fin ga) (hga0 : 0 ≤ ga)
  (hS : ∀ x, Sym (H x)) {mu eta g1 g2 D0 : ℝ} (hE : TRParams E mu eta g1 g2 D0) (x0 : Fin n → ℝ) (hg : g x0 ≠ 0) (startId : String) (hess0 hess0' : Hess0 Num)
include hQ hR h h' ho hc hU hU' hh hga hga0 hS hE hg

/-- **C87.** A run of a new optimizer without bounds, with the Steihaug solver: `minimize` in the coordinates `Q x` gives the run in the coordinates `x`, rotated.  All values, the radius,
exit flag, counters and decisions are the same; all points and gradients are multiplied by `Q`, the Hessians are conjugated.  Any objective that returns value, gradient and symmetric
Hessian, every step-back strategy, every starting point that is not a stationary point, any fuel. -/
theorem C87_steihaug (hd : E.opts.subspaceDim = .steihaug) (O O' : ℕ → Oracles Num) (tf : ℕ) (hO : ∀ k I, E.tr k I = trustRegion (O k) tf .steihaug E.opts.stepbackStrat I)
    (hO' : ∀ k I, E'.tr k I = trustRegion (O' k) tf .steihaug E.opts.stepbackStrat I) (fuel : ℕ) :
    (∃ s s', minimize E fuel (ofV x0) startId hess0 (St.new E.opts none) = .ok s ∧
      minimize E' fuel (ofV (rmv Q x0)) startId hess0' (St.new E'.opts none) = .ok s' ∧ StRot Q s s') ∨
    ∃ s s', minimize E fuel (ofV x0) startId hess0 (St.new E.opts none) = .error (.diverges, s) ∧
      minimize E' fuel (ofV (rmv Q x0)) startId hess0' (St.new E'.opts none) = .error (.diverges, s') ∧ StRot Q s s' := by
  refine (rot_minimize (Q := Q) (f := f) (f' := f') (g := g) (g' := g') (H := H) (H' := H') ?_ x0 hg startId hess0 hess0' fuel).symm
  refine ⟨hQ, hR, h, h', ho, hc, hU, hU', hh, by rw [hga, fin_le]; exact decide_eq_true hga0, hE.theta, ⟨_, hE.gamma1⟩, ⟨_, hE.gamma2⟩, ⟨_, hE.deltaInit⟩, hS, fun k => ?_⟩
  rw [hd]
  exact ⟨O k, O' k, tf, hO k, hO' k, Or.inl rfl⟩

/-- **C87.** The same with the 2D (default) and with the full solver, if the Hessians are positive definite and the linear algebra routines, possibly different ones in the two runs, exact. -/
theorem C87_exact (hd : E.opts.subspaceDim = .two ∨ E.opts.subspaceDim = .full) (hpd : ∀ x, PD (H x)) (O O' : ℕ → Oracles Num) (hX : ∀ k, ExactRoutines (O k)) (hX' : ∀ k, ExactRoutines (O' k))
    (tf : ℕ) (hO : ∀ k I, E.tr k I = trustRegion (O k) tf E.opts.subspaceDim E.opts.stepbackStrat I)
    (hO' : ∀ k I, E'.tr k I = trustRegion (O' k) tf E.opts.subspaceDim E.opts.stepbackStrat I) (fuel : ℕ) :
    (∃ s s', minimize E fuel (ofV x0) startId hess0 (St.new E.opts none) = .ok s ∧
      minimize E' fuel (ofV (rmv Q x0)) startId hess0' (St.new E'.opts none) = .ok s' ∧ StRot Q s s') ∨
    ∃ s s', minimize E fuel (ofV x0) startId hess0 (St.new E.opts none) = .error (.diverges, s) ∧
      minimize E' fuel (ofV (rmv Q x0)) startId hess0' (St.new E'.opts none) = .error (.diverges, s') ∧ StRot Q s s' := by
  refine (rot_minimize (Q := Q) (f := f) (f' := f') (g := g) (g' := g') (H := H) (H' := H') ?_ x0 hg startId hess0 hess0' fuel).symm
  exact ⟨hQ, hR, h, h', ho, hc, hU, hU', hh, by rw [hga, fin_le]; exact decide_eq_true hga0, hE.theta, ⟨_, hE.gamma1⟩, ⟨_, hE.gamma2⟩, ⟨_, hE.deltaInit⟩, hS,
    fun k => ⟨O k, O' k, tf, hO k, hO' k, Or.inr ⟨hd, hpd, hX k, hX' k⟩⟩⟩

end

noncomputable section

/-- rotation of the plane by the angle with cosine 3/5 -/
def turnQ : Fin 2 → Fin 2 → ℝ := ![![3 / 5, -4 / 5], ![4 / 5, 3 / 5]]
/-- a convex objective with its derivatives -/
def quarticF (x : Fin 2 → ℝ) : ℝ := x 0 ^ 2 / 2 + x 0 ^ 4 / 4 + 2 * x 1 ^ 2
def quarticG (x : Fin 2 → ℝ) : Fin 2 → ℝ := ![x 0 + x 0 ^ 3, 4 * x 1]
def quarticH (x : Fin 2 → ℝ) : Fin 2 → Fin 2 → ℝ := ![![1 + 3 * x 0 ^ 2, 0], ![0, 4]]
/-- back to the original coordinates -/
def turnBack (y : Fin 2 → ℝ) : Fin 2 → ℝ := ![3 / 5 * y 0 + 4 / 5 * y 1, -4 / 5 * y 0 + 3 / 5 * y 1]
/-- the Hessian of the objective in the rotated coordinates -/
def turnedH (y : Fin 2 → ℝ) : Fin 2 → Fin 2 → ℝ :=
  let h := 1 + 3 * turnBack y 0 ^ 2
  ![![9 / 25 * h + 64 / 25, 12 / 25 * h - 48 / 25], ![12 / 25 * h - 48 / 25, 16 / 25 * h + 36 / 25]]

theorem turn_back (x : Fin 2 → ℝ) : turnBack (rmv turnQ x) = x := by
  funext i
  fin_cases i <;> simp [turnBack, turnQ, rmv, rdot, Fin.sum_univ_two] <;> ring

theorem turn_rotates : Rotates turnQ quarticF quarticG quarticH (fun y => quarticF (turnBack y)) (fun y => rmv turnQ (quarticG (turnBack y))) turnedH where
  value x := by rw [turn_back]
  grad x := by rw [turn_back]
  hess x v := by
    funext i
    simp only [turnedH, turn_back]
    fin_cases i <;> simp [turnQ, rmv, rdot, Fin.sum_univ_two, quarticH] <;> ring

/-- the real number behind a finite value -/
def realPart : Num → ℝ
  | fin r => r
  | _ => 0

/-- an objective that returns given values -/
def tableObj (f : (Fin n → ℝ) → ℝ) (g : (Fin n → ℝ) → Fin n → ℝ) (H : (Fin n → ℝ) → Fin n → Fin n → ℝ) (v : Vec Num n) : Ret Num :=
  .tuple [.scalar (fin (f fun i => realPart (v i))), .ofVec (ofV (g fun i => realPart (v i))), .ofMat (ofM (H fun i => realPart (v i)))]

/-- the assumptions of `C87_exact` are met: default options, a convex function of two variables, rotated by the angle with cosine 3/5; with exact routines, from every starting point
except the origin, the run in the rotated coordinates is the rotated run -/
example (O O' : ℕ → Oracles Num) (hX : ∀ k, ExactRoutines (O k)) (hX' : ∀ k, ExactRoutines (O' k)) (x0 : Fin 2 → ℝ) (h0 : x0 ≠ 0) (fuel : ℕ) :
    let E := plainEnv 2 (tableObj quarticF quarticG quarticH) O
    let E' := plainEnv 2 (tableObj (fun y => quarticF (turnBack y)) (fun y => rmv turnQ (quarticG (turnBack y))) turnedH) O'
    (∃ s s', minimize E fuel (ofV x0) "0" .hessStr (St.new E.opts none) = .ok s ∧
      minimize E' fuel (ofV (rmv turnQ x0)) "0" .hessStr (St.new E'.opts none) = .ok s' ∧ StRot turnQ s s') ∨
    ∃ s s', minimize E fuel (ofV x0) "0" .hessStr (St.new E.opts none) = .error (.diverges, s) ∧
      minimize E' fuel (ofV (rmv turnQ x0)) "0" .hessStr (St.new E'.opts none) = .error (.diverges, s') ∧ StRot turnQ s s' := by
  intro E E'
  refine C87_exact (E := E) (E' := E') (f := quarticF) (g := quarticG) (H := quarticH) ?_ turn_rotates ⟨rfl, rfl, fun _ _ => rfl⟩ ⟨rfl, rfl, fun _ _ => rfl⟩ rfl rfl (fun _ => ⟨rfl, rfl⟩) (fun _ => ⟨rfl, rfl⟩) ?_
    (ga := 1 / 1000000) ?_ (by norm_num) ?_ (plain_params 2 _ O) x0 ?_ "0" .hessStr .hessStr ?_ ?_ O O' hX hX' 2 ?_ ?_ fuel
  · intro a b
    fin_cases a <;> fin_cases b <;> simp [turnQ, rdot, Fin.sum_univ_two] <;> norm_num
  · simp only [E, plainEnv, demo_opts]
  · simp only [E, plainEnv, demo_opts]
  · intro x i j
    fin_cases i <;> fin_cases j <;> simp [quarticH]
  · intro hg
    apply h0
    have e0 : x0 0 + x0 0 ^ 3 = 0 := congrFun hg 0
    have e1 : 4 * x0 1 = 0 := congrFun hg 1
    have e2 : x0 0 * (1 + x0 0 ^ 2) = 0 := by linear_combination e0
    have e3 : (1 + x0 0 ^ 2) ≠ 0 := by positivity
    funext i
    fin_cases i
    · exact (mul_eq_zero.mp e2).resolve_right e3
    · show x0 1 = 0
      linarith
  · left; simp only [E, plainEnv, demo_opts]
  · intro x v hv
    have e : rdot v (rmv (quarticH x) v) = (1 + 3 * x 0 ^ 2) * (v 0 * v 0) + 4 * (v 1 * v 1) := by
      simp [quarticH, rmv, rdot, Fin.sum_univ_two]; ring
    rw [e]
    have hne : v 0 ≠ 0 ∨ v 1 ≠ 0 := by
      by_contra hcon
      push Not at hcon
      exact hv (funext fun i => by fin_cases i; exacts [hcon.1, hcon.2])
    have a0 := mul_self_nonneg (v 0)
    have a1 := mul_self_nonneg (v 1)
    have a2 := mul_nonneg (sq_nonneg (x 0)) a0
    rcases hne with h | h
    · have := mul_self_pos.mpr h; nlinarith
    · have := mul_self_pos.mpr h; nlinarith
  · intro k I; simp only [E, plainEnv, demo_opts]
  · intro k I; simp only [E, E', plainEnv, demo_opts]

end
end Fides
