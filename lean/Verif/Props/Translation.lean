import Verif.Lemmas.Translation
import Verif.Props.Saddle

/-!
# C74: the choice of the origin does not matter

Solving a translated problem from the translated starting point gives the translated run (in exact arithmetic).
-/

namespace Fides
open Num Spec
variable {n : ℕ} {c : Fin n → ℝ} {E E' : Env Num n}

/-- **C74.** Let the bounds of a problem be moved by `c` and the objective accordingly (its value, gradient and Hessian at `x + c` are those of the original
objective at `x`).  Then, for every solver and step-back strategy and whatever the Hessian approximation, bounds, options and starting point, `minimize`
started at `x0 + c` does exactly what `minimize` started at `x0` does on the original problem: it makes the same objective calls at translated points, and
it ends with the same outcome (result or exception), the same value, gradient, Hessian, radius, flags, counters and history, and with translated points. -/
theorem C74_translation (h : TranslatedProblem c E E') (O : ℕ → Oracles Num) (hO : ∀ k, RefineInvariant (O k)) (fuel : ℕ)
    (htr : ∀ k I, E.tr k I = trustRegion (O k) fuel E.opts.subspaceDim E.opts.stepbackStrat I)
    (htr' : ∀ k I, E'.tr k I = trustRegion (O k) fuel E'.opts.subspaceDim E'.opts.stepbackStrat I)
    (loops : ℕ) (x0 : Vec Num n) (startId : String) (hess0 : Hess0 Num) (st : St Num n) :
    minimize E' loops (moved c x0) startId hess0 (movedState c st) =
      match minimize E loops x0 startId hess0 st with
      | .ok st' => .ok (movedState c st')
      | .error e => .error (e.1, movedState c e.2) := by
  rw [mv_minimize h (fun k I => by rw [htr, htr', h.opts, mv_trustRegion c (O k) (hO k)]) loops x0 startId hess0 st]
  cases minimize E loops x0 startId hess0 st <;> rfl

/-- a run that returns does not depend on the contents of `x` and `x_min` before the call (`np.empty` in the constructor) -/
theorem minimize_forgets (E : Env Num n) (loops : ℕ) (x0 : Vec Num n) (startId : String) (hess0 : Hess0 Num) (st : St Num n) (a b : Vec Num n) (st' : St Num n)
    (h : minimize E loops x0 startId hess0 st = .ok st') : minimize E loops x0 startId hess0 { st with x := a, xMin := b } = .ok st' := by
  have e0 : ∃ b', makeNonDegenerate E { reset E startId { st with x := a, xMin := b } with x := x0, xId := (reset E startId { st with x := a, xMin := b }).nextId, nextId := (reset E startId { st with x := a, xMin := b }).nextId + 1 } =
      { makeNonDegenerate E { reset E startId st with x := x0, xId := (reset E startId st).nextId, nextId := (reset E startId st).nextId + 1 } with xMin := b' } := ⟨_, rfl⟩
  obtain ⟨b', e0⟩ := e0
  have hinf : (makeNonDegenerate E { reset E startId st with x := x0, xId := (reset E startId st).nextId, nextId := (reset E startId st).nextId + 1 }).fvalMin = pinf := rfl
  unfold minimize at h ⊢
  simp only at h ⊢
  rw [e0]
  generalize makeNonDegenerate E { reset E startId st with x := x0, xId := (reset E startId st).nextId, nextId := (reset E startId st).nextId + 1 } = s at h hinf ⊢
  split at h
  · cases h
  · rename_i hn
    rw [if_neg hn]
    unfold checkInBounds at h ⊢
    cases hb : inBounds E.lb E.ub s.x
    · rw [hb] at h; cases h
    · have hset : ∀ r, setup E hess0 s = .ok r → setup E hess0 { s with xMin := b' } = .ok r := by
        intro r hr
        unfold setup at hr ⊢
        simp only at hr ⊢
        cases hf : funEval E.nargout E.resfun (E.obj s.evals.length s.x) with
        | error e => rw [hf] at hr; cases hr
        | ok raw =>
          rw [hf] at hr
          simp only at hr ⊢
          cases hi : initialHapp s.happ hess0 raw with
          | error e => rw [hi] at hr; cases hr
          | ok ha =>
            rw [hi] at hr
            simp only at hr ⊢
            cases hd : checkdims n raw with
            | error e => rw [hd] at hr; cases hr
            | ok u =>
              rw [hd] at hr
              simp only at hr ⊢
              cases ht : raw.typed s.x s.xId with
              | none => rw [ht] at hr; cases hr
              | some fo =>
                rw [ht] at hr
                simp only [checkFinite] at hr ⊢
                cases hfin : allFinite fo.fval fo.grad fo.hess
                · rw [hfin] at hr; cases hr
                · rw [hfin] at hr
                  have h1 : isFinite fo.fval = true := by
                    unfold allFinite at hfin
                    simp only [Bool.and_eq_true] at hfin
                    exact hfin.1.1
                  have h2 : lt fo.fval pinf = true := by
                    revert h1
                    cases fo.fval <;> simp
                  rw [← hr]
                  simp only [trackMinimum, hinf, h1, h2, Bool.and_self, if_true]
      simp only [hb, if_true] at h ⊢
      cases hs : setup E hess0 s with
      | error e => rw [hs] at h; cases h
      | ok r =>
        rw [hs] at h
        rw [hset r hs]
        exact h

/-- **C74, new optimizers.** The same for two newly constructed optimizers: if the first returns then so does the second; values, gradient, Hessian, exit flag and number
of iterations are the same, and the points returned differ by `c`. -/
theorem C74_results (h : TranslatedProblem c E E') (O : ℕ → Oracles Num) (hO : ∀ k, RefineInvariant (O k)) (fuel : ℕ)
    (htr : ∀ k I, E.tr k I = trustRegion (O k) fuel E.opts.subspaceDim E.opts.stepbackStrat I)
    (htr' : ∀ k I, E'.tr k I = trustRegion (O k) fuel E'.opts.subspaceDim E'.opts.stepbackStrat I)
    (loops : ℕ) (x0 : Vec Num n) (startId : String) (hess0 : Hess0 Num) (happ : Option (Happ Num n)) (st : St Num n)
    (hmin : minimize E loops x0 startId hess0 (St.new E.opts happ) = .ok st) :
    ∃ st', minimize E' loops (moved c x0) startId hess0 (St.new E'.opts happ) = .ok st' ∧
      st'.x = moved c st.x ∧ st'.xMin = moved c st.xMin ∧ st'.fval = st.fval ∧ st'.grad = st.grad ∧ st'.hess = st.hess ∧ st'.fvalMin = st.fvalMin ∧ st'.gradMin = st.gradMin ∧
      st'.exitflag = st.exitflag ∧ st'.iteration = st.iteration ∧ st'.evals = st.evals.map (movedEval c) ∧ st'.history = st.history := by
  have h1 := C74_translation h O hO fuel htr htr' loops x0 startId hess0 (St.new E.opts happ)
  rw [hmin] at h1
  have h2 := minimize_forgets E' loops (moved c x0) startId hess0 (movedState c (St.new E.opts happ)) vzero vzero _ h1
  rw [h.opts]
  exact ⟨movedState c st, h2, rfl, rfl, rfl, rfl, rfl, rfl, rfl, rfl, rfl, rfl, rfl⟩

/-! ## examples -/

/-- every problem can be translated -/
noncomputable def translate (c : Fin n → ℝ) (E : Env Num n) : Env Num n :=
  { E with lb := moved c E.lb, ub := moved c E.ub, obj := fun k y => E.obj k (moved (-c) y) }

theorem translate_ok (c : Fin n → ℝ) (E : Env Num n) : TranslatedProblem c E (translate c E) where
  lb := rfl
  ub := rfl
  obj k x := by
    show E.obj k _ = _
    congr 1
    funext i
    show (x i + fin (c i)) + fin ((-c) i) = x i
    cases x i <;> simp
  opts := rfl
  nargout := rfl
  resfun := rfl
  clock := rfl
  evs := rfl
  cond := rfl

/-- routines for the strategy `refine` that meet the assumption: one that starts from the step given to it and leaves it as it is -/
example : RefineInvariant { exactRoutines with refine := fun _ st => .ok st.ogSc } := fun _ _ _ _ => rfl

/-- moving the double well `wellF` of C71, whose run from the saddle at the origin returns, to `(5, -7)`: the run from the saddle at `(5, -7)` returns a point with a
smaller value -/
example : ∃ st', minimize (translate ![5, -7] (tameEnv wellF wellG wellH)) 1000 (moved ![5, -7] (ofV 0)) "0" (.val .none) (St.new (tameEnv wellF wellG wellH).opts none) = .ok st' ∧
    ∃ st, minimize (tameEnv wellF wellG wellH) 1000 (ofV 0) "0" (.val .none) (St.new (tameEnv wellF wellG wellH).opts none) = .ok st ∧
      st'.x = moved ![5, -7] st.x ∧ st'.fval = st.fval := by
  obtain ⟨st, hst⟩ := tameEnv_returns (by norm_num) wellF wellG wellH (fun x i j => by fin_cases i <;> fin_cases j <;> simp [wellH]) 0
  have hO : ∀ k I, (tameEnv wellF wellG wellH).tr k I = trustRegion exactRoutines 2 (tameEnv wellF wellG wellH).opts.subspaceDim (tameEnv wellF wellG wellH).opts.stepbackStrat I := by
    intro k I; simp only [tameEnv, plainEnv, demo_opts]
  obtain ⟨st', h1, h2, -, h3, -⟩ := C74_results (translate_ok ![5, -7] (tameEnv wellF wellG wellH)) (fun _ => exactRoutines) (fun _ _ _ _ _ => rfl) 2 hO hO
    1000 (ofV 0) "0" (.val .none) none st hst
  exact ⟨st', h1, st, hst, h2, h3⟩

end Fides
