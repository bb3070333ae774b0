import Verif.Lemmas.PermutedRun
import Verif.Props.Saddle

/-!
# C79: the order of the variables does not matter

Solving a problem whose variables are listed in another order gives the same run with the variables in that order (in exact arithmetic).
-/

namespace Fides
open Num Spec
variable {n : ℕ} {σ : Equiv.Perm (Fin n)} {E E' : Env Num n}

/-- **C79.** Let `E'` be the problem `E` with its variables in the order `σ` (bounds, arguments of the objective, gradients, Hessians, sensitivities of residuals, `hess0`), and let the
external linear algebra routines give for reordered matrices the reordered results.  Then, for every solver other than the full-space one, every step-back strategy, Hessian
approximation, starting point, options and objective, `minimize` from the reordered starting point does exactly what `minimize` does on the original problem: the objective calls
are at reordered points, the outcome (result or exception), values, radius, flags, counters and history are the same, and points, gradients and Hessians are reordered. -/
theorem C79_order (h : PermutedProblem σ E E') (O O' : ℕ → Oracles Num) (hO : ∀ k, PermutedRoutines σ (O k) (O' k)) (fuel : ℕ)
    (hdim : E.opts.subspaceDim ≠ .full)
    (htr : ∀ k I, E.tr k I = trustRegion (O k) fuel E.opts.subspaceDim E.opts.stepbackStrat I)
    (htr' : ∀ k I, E'.tr k I = trustRegion (O' k) fuel E'.opts.subspaceDim E'.opts.stepbackStrat I)
    (loops : ℕ) (x0 : Vec Num n) (startId : String) (hess0 hess0' : Hess0 Num) (h0 : PermHess0 σ hess0 hess0') (st : St Num n) :
    minimize E' loops (permV σ x0) startId hess0' (permState σ st) =
      match minimize E loops x0 startId hess0 st with
      | .ok st' => .ok (permState σ st')
      | .error e => .error (e.1, permState σ e.2) := by
  rw [pv_minimize h (fun k I => by rw [htr, htr', h.opts, pv_trustRegion (hO k) fuel _ hdim]) loops x0 startId h0 st]
  cases minimize E loops x0 startId hess0 st <;> rfl

theorem permState_new (o : Opts Num) (happ : Option (Happ Num n)) : permState σ (St.new o happ) = St.new o (happ.map (permHapp σ)) := rfl

/-- **C79, new optimizers.** The same for two newly constructed optimizers (with Hessian approximations that are reordered copies of each other, e.g. both newly constructed): they
return together; the points and gradients returned are the same up to the order of the variables, and value, best value, exit flag and numbers of iterations and calls are the same. -/
theorem C79_results (h : PermutedProblem σ E E') (O O' : ℕ → Oracles Num) (hO : ∀ k, PermutedRoutines σ (O k) (O' k)) (fuel : ℕ)
    (hdim : E.opts.subspaceDim ≠ .full)
    (htr : ∀ k I, E.tr k I = trustRegion (O k) fuel E.opts.subspaceDim E.opts.stepbackStrat I)
    (htr' : ∀ k I, E'.tr k I = trustRegion (O' k) fuel E'.opts.subspaceDim E'.opts.stepbackStrat I)
    (loops : ℕ) (x0 : Vec Num n) (startId : String) (hess0 hess0' : Hess0 Num) (h0 : PermHess0 σ hess0 hess0') (happ : Option (Happ Num n)) (st : St Num n)
    (hmin : minimize E loops x0 startId hess0 (St.new E.opts happ) = .ok st) :
    ∃ st', minimize E' loops (permV σ x0) startId hess0' (St.new E'.opts (happ.map (permHapp σ))) = .ok st' ∧
      (∀ i, st'.x i = st.x (σ i)) ∧ (∀ i, st'.grad i = st.grad (σ i)) ∧ (∀ i j, st'.hess i j = st.hess (σ i) (σ j)) ∧ st'.fval = st.fval ∧
      (∀ i, st'.xMin i = st.xMin (σ i)) ∧ (∀ i, st'.gradMin i = st.gradMin (σ i)) ∧ st'.fvalMin = st.fvalMin ∧
      st'.exitflag = st.exitflag ∧ st'.converged = st.converged ∧ st'.iteration = st.iteration ∧ st'.delta = st.delta ∧ st'.history = st.history ∧
      st'.evals.map EvalRec.arg = st.evals.map fun r i => r.arg (σ i) := by
  have h1 := C79_order h O O' hO fuel hdim htr htr' loops x0 startId hess0 hess0' h0 (St.new E.opts happ)
  rw [hmin] at h1
  refine ⟨permState σ st, ?_, fun _ => rfl, fun _ => rfl, fun _ _ => rfl, rfl, fun _ => rfl, fun _ => rfl, rfl, rfl, rfl, rfl, rfl, rfl, ?_⟩
  · rw [h.opts, ← permState_new]; exact h1
  · show List.map EvalRec.arg (st.evals.map (permEval σ)) = _
    rw [List.map_map]
    rfl

/-- **C79, exceptions.** If the run on the original problem raises then so does that on the reordered one: the same exception, at the same point up to the order of the variables. -/
theorem C79_exceptions (h : PermutedProblem σ E E') (O O' : ℕ → Oracles Num) (hO : ∀ k, PermutedRoutines σ (O k) (O' k)) (fuel : ℕ)
    (hdim : E.opts.subspaceDim ≠ .full)
    (htr : ∀ k I, E.tr k I = trustRegion (O k) fuel E.opts.subspaceDim E.opts.stepbackStrat I)
    (htr' : ∀ k I, E'.tr k I = trustRegion (O' k) fuel E'.opts.subspaceDim E'.opts.stepbackStrat I)
    (loops : ℕ) (x0 : Vec Num n) (startId : String) (hess0 hess0' : Hess0 Num) (h0 : PermHess0 σ hess0 hess0') (happ : Option (Happ Num n)) (e : PyErr) (st : St Num n)
    (hmin : minimize E loops x0 startId hess0 (St.new E.opts happ) = .error (e, st)) :
    ∃ st', minimize E' loops (permV σ x0) startId hess0' (St.new E'.opts (happ.map (permHapp σ))) = .error (e, st') ∧
      (∀ i, st'.x i = st.x (σ i)) ∧ st'.exitflag = st.exitflag ∧ st'.iteration = st.iteration ∧ st'.evals.map EvalRec.arg = st.evals.map fun r i => r.arg (σ i) := by
  have h1 := C79_order h O O' hO fuel hdim htr htr' loops x0 startId hess0 hess0' h0 (St.new E.opts happ)
  rw [hmin] at h1
  refine ⟨permState σ st, ?_, fun _ => rfl, rfl, rfl, ?_⟩
  · rw [h.opts, ← permState_new]; exact h1
  · show List.map EvalRec.arg (st.evals.map (permEval σ)) = _
    rw [List.map_map]
    rfl

/-! ## examples -/

end Fides

namespace Fides
open Num Spec
variable {n : ℕ}

/-- new Hessian approximations do not depend on the order -/
example (σ : Equiv.Perm (Fin n)) (sc : IterScheme Num) : permHapp σ (.iter (IterApprox.new sc)) = .iter (IterApprox.new sc) := rfl

theorem permV_symm {F : Type} (σ : Equiv.Perm (Fin n)) (v : Vec F n) : permV σ.symm (permV σ v) = v := by
  funext i; simp [permV]
theorem permM_symm {F : Type} (σ : Equiv.Perm (Fin n)) (a : Mat F n n) : permM σ.symm (permM σ a) = a := by
  funext i j; simp [permM]
theorem permProb_symm (σ : Equiv.Perm (Fin n)) (P : Prob Num n) : permProb σ.symm (permProb σ P) = P := by
  simp only [permProb, permV_symm, permM_symm]
theorem permStep_symm (σ : Equiv.Perm (Fin n)) (s : Step Num n) : permStep σ.symm (permStep σ s) = s := by
  have h1 : ∀ l : List (Vec Num n), (l.map (permV σ)).map (permV σ.symm) = l := by
    intro l
    rw [List.map_map]
    conv_rhs => rw [← List.map_id l]
    exact List.map_congr_left fun v _ => permV_symm σ v
  simp only [permStep, permV_symm, h1, Equiv.apply_symm_apply]

/-- routines for the reordered problem that call those for the original one -/
noncomputable def conjRoutines (σ : Equiv.Perm (Fin n)) (O : Oracles Num) : Oracles Num where
  sub := O.sub
  lstsq {m} a b := if h : m = n then by subst h; exact (O.lstsq (permM σ.symm a) (permV σ.symm b)).map (permV σ) else O.lstsq a b
  npEig {m} a := if h : m = n then by subst h; exact (O.npEig (permM σ.symm a)).map fun r => (r.1, r.2.1, fun i j => r.2.2 (σ i) j) else O.npEig a
  refine {m} P s := if h : m = n then by subst h; exact O.refine (permProb σ.symm P) (permStep σ.symm s) else O.refine P s

theorem conjRoutines_ok (σ : Equiv.Perm (Fin n)) (O : Oracles Num) : PermutedRoutines σ O (conjRoutines σ O) where
  sub := rfl
  lstsq a b := by simp only [conjRoutines, dif_pos, permM_symm, permV_symm]
  npEig a := by simp only [conjRoutines, dif_pos, permM_symm]
  refine P s := by simp only [conjRoutines, dif_pos, permProb_symm, permStep_symm]

/-- the problem of `tameEnv` with its variables in the order `σ` -/
noncomputable def reorder (σ : Equiv.Perm (Fin n)) (f : (Fin n → ℝ) → ℝ) (g : (Fin n → ℝ) → Fin n → ℝ) (H : (Fin n → ℝ) → Fin n → Fin n → ℝ) : Env Num n :=
  plainEnv n (tameObj (fun y => f (permV σ.symm y)) (fun y => permV σ (g (permV σ.symm y))) fun y => permM σ (H (permV σ.symm y))) fun _ => conjRoutines σ exactRoutines

theorem reorder_ok (σ : Equiv.Perm (Fin n)) (f : (Fin n → ℝ) → ℝ) (g : (Fin n → ℝ) → Fin n → ℝ) (H : (Fin n → ℝ) → Fin n → Fin n → ℝ) :
    PermutedProblem σ (tameEnv f g H) (reorder σ f g H) where
  lb := rfl
  ub := rfl
  obj k v := by
    show PermRet σ (tameObj f g H v) (tameObj (fun y => f (permV σ.symm y)) (fun y => permV σ (g (permV σ.symm y))) (fun y => permM σ (H (permV σ.symm y))) (permV σ v))
    by_cases hv : ∃ x, v = ofV x
    · obtain ⟨x, rfl⟩ := hv
      rw [show permV σ (ofV x) = ofV (permV σ x) from rfl, tameObj_real, tameObj_real]
      simp only [permV_symm]
      exact PermRet.hess (σ := σ) _ _ _
    · have hv' : ¬ ∃ y, permV σ v = ofV y := by
        rintro ⟨y, hy⟩
        exact hv ⟨permV σ.symm y, by rw [← permV_symm σ v, hy]; rfl⟩
      rw [tameObj, tameObj, dif_neg hv, dif_neg hv']
      exact PermRet.hess (σ := σ) _ _ _
  opts := rfl
  nargout := rfl
  resfun := rfl
  clock := rfl
  evs _ := rfl
  cond _ := rfl

/-- the double well of C71 with its two variables exchanged, from the saddle: the run returns a point with the coordinates exchanged, in which the value is below that of the saddle -/
example : ∃ st', minimize (reorder (Equiv.swap 0 1) wellF wellG wellH) 1000 (ofV 0) "0" (.val .none) (St.new (reorder (Equiv.swap 0 1) wellF wellG wellH).opts none) = .ok st' ∧
    ∃ y : Fin 2 → ℝ, st'.x = ofV y ∧ st'.fval = fin (wellF ![y 1, y 0]) ∧ wellF ![y 1, y 0] < 0 := by
  obtain ⟨st, hst, y, h1, h2, h3⟩ := well_run
  have hd : (tameEnv wellF wellG wellH).opts.subspaceDim = .two ∧ (tameEnv wellF wellG wellH).opts.stepbackStrat = .reflect := by
    simp only [tameEnv, plainEnv, demo_opts]; exact ⟨trivial, trivial⟩
  obtain ⟨st', k1, k2, -, -, k3, -⟩ := C79_results (reorder_ok (Equiv.swap 0 1) wellF wellG wellH) (fun _ => exactRoutines) (fun _ => conjRoutines (Equiv.swap 0 1) exactRoutines)
    (fun _ => conjRoutines_ok _ _) 2 (by rw [hd.1]; decide) (fun k I => by rw [hd.1, hd.2]; rfl)
    (fun k I => by rw [(reorder_ok (Equiv.swap 0 1) wellF wellG wellH).opts, hd.1, hd.2]; rfl) 1000 (ofV 0) "0" (.val .none) (.val .none) PermHess0.none none st hst
  refine ⟨st', k1, ![y 1, y 0], ?_, ?_, ?_⟩
  · funext i
    rw [k2, h1]
    fin_cases i <;> simp [ofV]
  · rw [k3, h2]
    congr 2
    funext i
    fin_cases i <;> simp
  · rw [show (![(![y 1, y 0] : Fin 2 → ℝ) 1, (![y 1, y 0] : Fin 2 → ℝ) 0] : Fin 2 → ℝ) = y from by funext i; fin_cases i <;> simp]
    exact h3

end Fides
