import Verif.Props.Flags

/-!
# Exit flag after an exception of the checks (arithmetic with infinities and NaN)
-/

set_option linter.unusedSectionVars false

namespace Fides
open Spec Num
variable {n : ℕ} (E : Env Num n) (x0 : Vec Num n) (startId : String) (hess0 : Hess0 Num) (st0 : St Num n)

/-- `x` has a coordinate that is not a real number within its bounds -/
def Infeasible (x : Vec Num n) : Prop := ¬ ∃ r : Fin n → ℝ, x = ofV r ∧ InBox E.lb E.ub r

theorem infeasible_of (x : Vec Num n) (h : inBounds E.lb E.ub x = false) : Infeasible E x := by
  rintro ⟨r, rfl, hr⟩
  rw [inBounds_real _ _ _ hr] at h
  cases h

/-- C10, exceptions: if the external routines do not raise RuntimeError, a RuntimeError of `minimize` comes from the
bounds check or from the finiteness check, and the flag tells which: EXCEEDED_BOUNDARY if the starting point (before any
evaluation) or the last point evaluated is infeasible, NOT_FINITE if the last evaluation is not finite (value, gradient or
Hessian) or the current Hessian (approximation) is not finite. -/
theorem C10_error (htr : ∀ k I, E.tr k I ≠ .error .runtimeError) (hevs : ∀ m, E.evs m ≠ .error .runtimeError)
    (hcond : ∀ m, E.cond m ≠ .error .runtimeError) (fuel : ℕ) (st' : St Num n)
    (h : minimize E fuel x0 startId hess0 st0 = .error (.runtimeError, st')) :
    (st'.exitflag = .exceededBoundary ∧
      ((st'.evals = st0.evals ∧ Infeasible E st'.x) ∨ ∃ r rest, st'.evals = r :: rest ∧ Infeasible E r.arg)) ∨
    (st'.exitflag = .notFinite ∧
      ((∃ fo rest, st'.evals = { arg := fo.x, out := .ok fo } :: rest ∧ ¬ FiniteEval fo) ∨
        ¬ ∀ i j, isFinite (st'.hess i j) = true)) := by
  rcases minimize_error E x0 startId hess0 st0 fuel st' _ h with ⟨hn, _, _⟩ | h | ⟨st1, hb, h⟩ | ⟨k, st1, cur1, st2, hh, hc, h⟩ |
    ⟨k, st1, cur, st2, hh, hc, h⟩
  · simp [minimize, hn] at h
  · obtain ⟨h1, _, rfl⟩ := checkInBounds_error _ _ _ _ _ h
    exact Or.inl ⟨rfl, Or.inl ⟨rfl, infeasible_of E _ h1⟩⟩
  · rcases setup_error E hess0 _ st' _ h with ⟨_, h⟩ | ⟨raw, happ, fo, _, hty, hnf, _, rfl⟩
    · exact absurd rfl h.2
    · refine Or.inr ⟨rfl, Or.inl ⟨fo, st1.evals, ?_, ?_⟩⟩
      · obtain ⟨a, b, c, d, hf⟩ := setupState_frame st1 fo happ
        show (setupState st1 fo happ).evals = _
        rw [hf, (typed_x _ _ _ _ hty).1]
        rfl
      · rw [finiteEval_iff, hnf]; simp
  · rcases h with ⟨h, _⟩ | h
    · cases h
    have hi := headInv E x0 startId hess0 st0 k st1 cur1 hh
    obtain ⟨rfl, _⟩ := checkContinue_true E st1 st2 hc
    rcases iterate_error E _ st' cur1 _ h with ⟨hf, _, rfl⟩ | ⟨_, ⟨h, _⟩ | ⟨step, htr', h⟩⟩
    · refine Or.inr ⟨rfl, Or.inr fun hfin => ?_⟩
      have h1 := hi.finite
      rw [← hi.fval, ← hi.grad] at h1
      have h2 := (allFinite_iff _ _ _).mp h1
      have h3 : allFinite st1.fval st1.grad (some st1.hess) = true :=
        (allFinite_iff _ _ _).mpr ⟨h2.1, h2.2.1, fun m hm => by cases hm; exact hfin⟩
      have hf' : allFinite st1.fval st1.grad (some st1.hess) = false := hf
      rw [h3] at hf'
      cases hf'
    · exact absurd h (htr _ _)
    · rcases h with ⟨h, _⟩ | ⟨new, hout, hnx, _, h⟩
      · exfalso
        unfold trialOut evaluate at h
        simp only at h
        split at h
        · rename_i he; cases h; exact (funEval_ne _ _ _ _ he).2 rfl
        · split at h <;> cases h
      rcases h with ⟨_, hnf, _, rfl⟩ | ⟨_, ⟨_, h⟩ | ⟨_, _, h⟩ | ⟨_, _, h⟩⟩
      · refine Or.inr ⟨rfl, Or.inl ⟨new, st1.evals, ?_, ?_⟩⟩
        · rw [hnx]; rfl
        · rw [finiteEval_iff, hnf]; simp
      · rcases update_error E step new cur1 _ st' _ h with ⟨_, h⟩ | ⟨hb, _, happ, hess, rfl⟩
        · exact absurd rfl h.2
        · refine Or.inl ⟨rfl, Or.inr ⟨{ arg := new.x, out := .ok new }, st1.evals, ?_, infeasible_of E _ hb⟩⟩
          obtain ⟨r, d, i, m, ef, c, mx, mxi, mf, mg, hpf⟩ := postCheck_frame E { st1 with ticks := st1.ticks + 1 } step new
          show (postCheck E _ step new).evals = _
          rw [hpf, hnx]
          rfl
      · exact absurd h (historyRow_ne E _ hevs hcond _ _ _ _ _ _)
      · exact absurd h (historyRow_ne E _ hevs hcond _ _ _ _ _ _)
  · unfold writeHistory at h
    repeat' split at h
    all_goals cases h

/-- the hypotheses are met: a first evaluation with value NaN -/
example : let E : Env Num 1 := { demoEnv (1 / 100000000) (Num.fin 0) (Num.fin 0) with
      obj := fun _ _ => .tuple [.scalar Num.nan, .arr [1] [Num.fin 1], .arr [1, 1] [Num.fin 1]]
      tr := fun _ _ => .error .valueError }
    (∀ k I, E.tr k I ≠ .error .runtimeError) ∧ (∀ m, E.evs m ≠ .error .runtimeError) ∧
    (∀ m, E.cond m ≠ .error .runtimeError) ∧
    ∃ st', minimize E 1 (v1 1) "run" .hessStr demoSt0 = .error (.runtimeError, st') := by
  refine ⟨by simp, by simp [demoEnv], by simp [demoEnv], ?_⟩
  unfold minimize
  simp only [Nat.one_ne_zero, if_false]
  set E : Env Num 1 := { demoEnv (1 / 100000000) (Num.fin 0) (Num.fin 0) with
      obj := fun _ _ => .tuple [.scalar Num.nan, .arr [1] [Num.fin 1], .arr [1, 1] [Num.fin 1]]
      tr := fun _ _ => .error .valueError } with hE
  have hx : (startState E (v1 1) "run" demoSt0).x = v1 1 := demo_nudge (1 / 100000000) (fin 0) (fin 0) 1
  have hb : inBounds E.lb E.ub (v1 1) = true := inBounds_real _ _ _ (demo_box (1 / 100000000) (fin 0) (fin 0) 1)
  have hc : checkInBounds E (startState E (v1 1) "run" demoSt0).x (startState E (v1 1) "run" demoSt0) = .ok (startState E (v1 1) "run" demoSt0) := by
    rw [hx, checkInBounds, if_pos hb]
  have hc' := hc
  unfold startState at hc'
  rw [hc']
  simp only
  have hnf : ¬ FiniteEval ({ x := v1 1, xId := (startState E (v1 1) "run" demoSt0).xId, fval := nan, grad := fun _ => fin 1, hess := some fun _ _ => fin 1, res := none } : Funout Num 1) :=
    fun h => by have := h.1; cases this
  obtain ⟨st', h, _⟩ := C15_first E .hessStr (startState E (v1 1) "run" demoSt0)
    ⟨.scalar Num.nan, .arr [1] [Num.fin 1], .arr [1, 1] [Num.fin 1], .none, .none⟩ none _ (by simp [funEval, E, demoEnv]) rfl
    (by simp [checkdims]) (by rw [hx]; exact typed_one _ _ _ _ _) hnf
  unfold startState at h
  rw [h]
  exact ⟨_, rfl⟩

end Fides
