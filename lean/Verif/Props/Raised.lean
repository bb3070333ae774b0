import Verif.Lemmas.Raised
import Verif.Props.Saddle

/-!
# C78: a constant added to the objective changes nothing but the values

In exact arithmetic, and with relative tolerances zero (`frtol` and `grtol` are relative to the value, so they depend on its origin by design).
-/

namespace Fides
open Num Spec
variable {n : ℕ} {c : ℝ} {E E' : Env Num n}

/-- **C78.** Let the objective of a problem (not in residual mode) be increased by a constant `c`, and let `frtol` and `grtol` be zero.  Then for all routines used for proposals,
bounds, Hessian approximations, other options, starting points and objectives (including those that raise, return infinite values or arrays of wrong shapes) `minimize` does exactly
what it does for the original objective: the same objective calls in the same order, the same outcome (result or exception), and a final state that differs only in the values, which
are increased by `c`. -/
theorem C78_constant (h : RaisedProblem c E E') (hres : E.resfun = false) (hf : E.opts.frtol = fin 0) (hg : E.opts.grtol = fin 0)
    (loops : ℕ) (x0 : Vec Num n) (startId : String) (hess0 : Hess0 Num) (st : St Num n) :
    minimize E' loops x0 startId hess0 (raisedState c st) =
      match minimize E loops x0 startId hess0 st with
      | .ok st' => .ok (raisedState c st')
      | .error e => .error (e.1, raisedState c e.2) := by
  rw [rs_minimize h hres hf hg]
  cases minimize E loops x0 startId hess0 st <;> rfl

/-- **C78, new optimizers.** The same for two newly constructed optimizers: they return together, the same point, gradient and Hessian, the same best point, exit flag and number
of iterations and of objective calls; the value returned and the smallest value differ by `c`. -/
theorem C78_results (h : RaisedProblem c E E') (hres : E.resfun = false) (hf : E.opts.frtol = fin 0) (hg : E.opts.grtol = fin 0)
    (loops : ℕ) (x0 : Vec Num n) (startId : String) (hess0 : Hess0 Num) (happ : Option (Happ Num n)) (st : St Num n)
    (hmin : minimize E loops x0 startId hess0 (St.new E.opts happ) = .ok st) :
    ∃ st', minimize E' loops x0 startId hess0 (St.new E'.opts happ) = .ok st' ∧
      st'.x = st.x ∧ st'.grad = st.grad ∧ st'.hess = st.hess ∧ st'.fval = st.fval + fin c ∧ st'.xMin = st.xMin ∧ st'.gradMin = st.gradMin ∧ st'.fvalMin = st.fvalMin + fin c ∧
      st'.exitflag = st.exitflag ∧ st'.converged = st.converged ∧ st'.iteration = st.iteration ∧ st'.delta = st.delta ∧
      st'.evals.map EvalRec.arg = st.evals.map EvalRec.arg := by
  have h1 := C78_constant h hres hf hg loops x0 startId hess0 (St.new E.opts happ)
  rw [hmin] at h1
  refine ⟨raisedState c st, ?_, rfl, rfl, rfl, rfl, rfl, rfl, rfl, rfl, rfl, rfl, rfl, ?_⟩
  · rw [h.opts]; exact h1
  · show List.map EvalRec.arg (st.evals.map (raisedEval c)) = _
    rw [List.map_map]
    rfl

/-- **C78, exceptions.** If the run on the original objective raises then so does that on the increased one: the same exception, at the same point, after the same calls. -/
theorem C78_exceptions (h : RaisedProblem c E E') (hres : E.resfun = false) (hf : E.opts.frtol = fin 0) (hg : E.opts.grtol = fin 0)
    (loops : ℕ) (x0 : Vec Num n) (startId : String) (hess0 : Hess0 Num) (happ : Option (Happ Num n)) (e : PyErr) (st : St Num n)
    (hmin : minimize E loops x0 startId hess0 (St.new E.opts happ) = .error (e, st)) :
    ∃ st', minimize E' loops x0 startId hess0 (St.new E'.opts happ) = .error (e, st') ∧ st'.x = st.x ∧ st'.exitflag = st.exitflag ∧ st'.iteration = st.iteration ∧
      st'.evals.map EvalRec.arg = st.evals.map EvalRec.arg := by
  have h1 := C78_constant h hres hf hg loops x0 startId hess0 (St.new E.opts happ)
  rw [hmin] at h1
  refine ⟨raisedState c st, ?_, rfl, rfl, rfl, ?_⟩
  · rw [h.opts]; exact h1
  · show List.map EvalRec.arg (st.evals.map (raisedEval c)) = _
    rw [List.map_map]
    rfl

/-! ## examples -/

/-- every problem can be raised -/
noncomputable def raise (c : ℝ) (E : Env Num n) : Env Num n := { E with obj := fun k x => raisedRet c (E.obj k x) }

theorem raise_ok (c : ℝ) (E : Env Num n) : RaisedProblem c E (raise c E) where
  obj _ _ := rfl
  lb := rfl
  ub := rfl
  opts := rfl
  nargout := rfl
  resfun := rfl
  clock := rfl
  tr := rfl
  evs := rfl
  cond := rfl

/-- default options except that the relative tolerance on values is zero, exact routines, no bounds -/
noncomputable def flatEnv (f : (Fin n → ℝ) → ℝ) (g : (Fin n → ℝ) → Fin n → ℝ) (H : (Fin n → ℝ) → Fin n → Fin n → ℝ) : Env Num n :=
  { tameEnv f g H with opts := { (resolveOpts [] : Opts Num) with frtol := fin 0 } }

/-- the objective of `raise c (flatEnv f g H)` is `f + c` -/
example (f : (Fin n → ℝ) → ℝ) (g : (Fin n → ℝ) → Fin n → ℝ) (H : (Fin n → ℝ) → Fin n → Fin n → ℝ) (k : ℕ) (x : Fin n → ℝ) :
    (raise c (flatEnv f g H)).obj k (ofV x) = (flatEnv (fun z => f z + c) g H).obj k (ofV x) := by
  show raisedRet c (tameObj f g H (ofV x)) = tameObj (fun z => f z + c) g H (ofV x)
  rw [tameObj_real, tameObj_real]
  rfl

theorem flatEnv_returns (hn : 0 < n) (f : (Fin n → ℝ) → ℝ) (g : (Fin n → ℝ) → Fin n → ℝ) (H : (Fin n → ℝ) → Fin n → Fin n → ℝ) (hs : ∀ x, Sym (H x))
    (r0 : Fin n → ℝ) : ∃ st, minimize (flatEnv f g H) 1000 (ofV r0) "0" (.val .none) (St.new (flatEnv f g H).opts none) = .ok st := by
  have hc := tameEnv_clean f g H hs
  have hc' : CleanObjective (flatEnv f g H) := ⟨hc.nargout, hc.resfun, hc.obj⟩
  refine C68_minimize hn hc' rfl ?_ (fun _ => exactRoutines) (by intro k I; simp only [flatEnv, tameEnv, plainEnv, demo_opts])
    (by simp only [flatEnv, demo_opts]; decide) (fun _ _ => ⟨exactRoutines_finite, exactRoutines_documented⟩)
    (fun _ => ⟨_, rfl⟩) (fun _ => ⟨_, rfl⟩) r0 ?_ ?_ ?_ 1000 ?_
  · constructor <;> simp only [flatEnv, demo_opts]
    · exact ⟨_, rfl⟩
    · exact ⟨_, rfl⟩
    · exact ⟨_, rfl⟩
    · exact ⟨_, rfl, by norm_num, by norm_num⟩
  · intro i; exact ⟨rfl, rfl⟩
  · intro z _ _
    exact ⟨_, _, tameObj_real f g H z⟩
  · intro _ g hg; cases hg
  · simp only [flatEnv, demo_opts]; norm_num

/-- the double well of C71 lifted by 1000, from the saddle at the origin: the run returns the same point as for the original well, and a value that is larger by 1000 -/
example : ∃ st', minimize (raise 1000 (flatEnv wellF wellG wellH)) 1000 (ofV 0) "0" (.val .none) (St.new (flatEnv wellF wellG wellH).opts none) = .ok st' ∧
    ∃ st, minimize (flatEnv wellF wellG wellH) 1000 (ofV 0) "0" (.val .none) (St.new (flatEnv wellF wellG wellH).opts none) = .ok st ∧
      st'.x = st.x ∧ st'.fval = st.fval + fin 1000 := by
  obtain ⟨st, hst⟩ := flatEnv_returns (by norm_num) wellF wellG wellH (fun x i j => by fin_cases i <;> fin_cases j <;> simp [wellH]) 0
  obtain ⟨st', h1, h2, -, -, h3, -⟩ := C78_results (raise_ok 1000 (flatEnv wellF wellG wellH)) rfl rfl
    (by simp only [flatEnv, demo_opts]) 1000 (ofV 0) "0" (.val .none) none st hst
  exact ⟨st', h1, st, hst, h2, h3⟩

end Fides
