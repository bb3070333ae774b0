import Verif.Spec.Config
import Verif.Spec.Linear
import Verif.Lemmas.Calls
import Verif.Lemmas.Demo
import Verif.Lemmas.Forward
import Mathlib.Tactic

/-!
# What the objective must return and what is made of it (C42, C43, C44)
-/

namespace Fides
open Spec
variable {F : Type} [FloatOps F] {n : ℕ}

/-- C42: the number of values an optimizer with this scheme asks for. -/
theorem C42_count (happ : Option (Happ F n)) : nargoutOf happ = expectedCount happ := by
  cases happ with
  | none => rfl
  | some h => cases h <;> rfl

theorem funEval_wrong (k : ℕ) (resfun : Bool) (r : Ret F) (h : WrongCount k r) : funEval k resfun r = .error .valueError := by
  cases r with
  | raised => exact absurd h id
  | single v => rfl
  | tuple vals =>
    have h' : vals.length ≠ k := h
    simp [funEval, h']

section
variable [LawfulFloat F] (E : Env F n) (x0 : Vec F n) (startId : String) (hess0 : Hess0 F) (st0 : St F n)

/-- C42: in every run, if a call of the objective returns something other than a tuple of the expected number of values, that call is
the last one and the run raises ValueError.  (`suf` are the earlier calls of the run.) -/
theorem C42_refused (hk : E.nargout = expectedCount st0.happ) (fuel : ℕ) (pre : List (EvalRec F n)) (r : EvalRec F n)
    (suf : List (EvalRec F n)) (hc : CallsOf st0 (minimize E fuel x0 startId hess0 st0) (pre ++ r :: suf))
    (hw : WrongCount (expectedCount st0.happ) (E.obj (suf.length + st0.evals.length) r.arg)) :
    pre = [] ∧ ∃ s, minimize E fuel x0 startId hess0 st0 = .error (.valueError, s) := by
  obtain ⟨calls, h1, h2⟩ := run_calls E x0 startId hess0 st0 fuel
  have hcalls : calls = pre ++ r :: suf := List.append_cancel_right (h1.symm.trans hc)
  obtain ⟨h3, h4⟩ := h2 pre r suf hcalls
  refine h4 _ (h3.1 _ ?_)
  rw [hk]
  exact funEval_wrong _ _ _ hw

/-- C42: a run that returns has received a tuple of the expected number of values from every call. -/
theorem C42_accepted (hk : E.nargout = expectedCount st0.happ) (fuel : ℕ) (st' : St F n) (h : minimize E fuel x0 startId hess0 st0 = .ok st') :
    ∃ calls, st'.evals = calls ++ st0.evals ∧ ∀ pre r suf, calls = pre ++ r :: suf →
      ∃ vals, E.obj (suf.length + st0.evals.length) r.arg = .tuple vals ∧ vals.length = expectedCount st0.happ := by
  obtain ⟨calls, h1, h2⟩ := run_calls E x0 startId hess0 st0 fuel
  have h1' := h1
  rw [h] at h1'
  refine ⟨calls, h1', ?_⟩
  intro pre r suf hcs
  obtain ⟨h3, h4⟩ := h2 pre r suf hcs
  cases ho : E.obj (suf.length + st0.evals.length) r.arg with
  | tuple vals =>
    refine ⟨vals, rfl, ?_⟩
    by_contra hw
    have h5 := (h4 _ (h3.1 .valueError (by rw [ho, hk]; exact funEval_wrong _ _ _ hw))).2
    obtain ⟨s, hs⟩ := h5
    rw [h] at hs; cases hs
  | single v =>
    have h5 := (h4 _ (h3.1 .valueError (by rw [ho]; rfl))).2
    obtain ⟨s, hs⟩ := h5
    rw [h] at hs; cases hs
  | raised =>
    have h5 := (h4 _ (h3.1 .userError (by rw [ho]; rfl))).2
    obtain ⟨s, hs⟩ := h5
    rw [h] at hs; cases hs

/-- C43, last part: with `resfun` and no approximation scheme construction succeeds but no run can return: the first call of the objective
raises, whatever it returns, and nothing is called after it. -/
theorem C43_unusable (hr : E.resfun = true) (hh : st0.happ = none) (hk : E.nargout = expectedCount st0.happ) (fuel : ℕ) :
    optimizerInit st0.happ true [] = .ok () ∧
    (∃ e s, minimize E fuel x0 startId hess0 st0 = .error (e, s) ∧
      ∃ calls, CallsOf st0 (minimize E fuel x0 startId hess0 st0) calls ∧ calls.length ≤ 1 ∧
        ∀ c ∈ calls, e = .userError ∨ e = .valueError) := by
  have hnone : ∀ r : Ret F, funEval E.nargout E.resfun r = .error .userError ∨ funEval E.nargout E.resfun r = .error .valueError := by
    intro r
    rw [hk, hh, hr]
    cases r with
    | raised => exact Or.inl rfl
    | single v => exact Or.inr rfl
    | tuple vals =>
      right
      simp only [funEval, expectedCount, if_true]
      by_cases h3 : vals.length = 3
      · match vals, h3 with
        | [a, b, c], _ => simp
      · simp [h3]
  constructor
  · rw [hh]
    rfl
  obtain ⟨calls, h1, h2⟩ := run_calls E x0 startId hess0 st0 fuel
  have hlen : ∀ pre r suf, calls = pre ++ r :: suf → pre = [] ∧ ∃ s, minimize E fuel x0 startId hess0 st0 = .error (.userError, s) ∨
      minimize E fuel x0 startId hess0 st0 = .error (.valueError, s) := by
    intro pre r suf hcs
    obtain ⟨h3, h4⟩ := h2 pre r suf hcs
    rcases hnone (E.obj (suf.length + st0.evals.length) r.arg) with h | h
    · obtain ⟨h5, s, h6⟩ := h4 _ (h3.1 _ h)
      exact ⟨h5, s, Or.inl h6⟩
    · obtain ⟨h5, s, h6⟩ := h4 _ (h3.1 _ h)
      exact ⟨h5, s, Or.inr h6⟩
  have hle : calls.length ≤ 1 := by
    match calls, hlen with
    | [], _ => simp
    | [a], _ => simp
    | a :: b :: rest, hlen =>
      have := (hlen [a] b rest rfl).1
      cases this
  cases hm : minimize E fuel x0 startId hess0 st0 with
  | ok s =>
    exfalso
    obtain ⟨_, k, st1, cur, st2, _, h1', _, _⟩ := minimize_ok E x0 startId hess0 st0 fuel s hm
    obtain ⟨l, hl, hlen', hl'⟩ := head_calls E x0 startId hess0 st0 k st1 cur h1'
    match l, hlen', hl' with
    | a :: rest, _, hl' =>
      obtain ⟨h3, fo, h4⟩ := hl' [] a rest rfl
      rcases hnone (E.obj (rest.length + st0.evals.length) a.arg) with h | h
      · have := h3.1 _ h; rw [h4] at this; cases this
      · have := h3.1 _ h; rw [h4] at this; cases this
  | error x =>
    refine ⟨x.1, x.2, rfl, calls, by rw [← hm]; exact h1, hle, ?_⟩
    intro c hc
    obtain ⟨pre, suf, hcs⟩ := List.append_of_mem hc
    obtain ⟨_, s, h⟩ := hlen pre c suf hcs
    rw [hm] at h
    rcases h with h | h
    · cases h; exact Or.inl rfl
    · cases h; exact Or.inr rfl

end

/-! ## shapes -/

/-- C44: the shape check passes iff the value is a scalar, the gradient a vector of the length of `x`, and the Hessian absent or square of
that size. -/
theorem C44_exact (o : RawOut F) : checkdims n o = .ok () ↔ GoodShape n o := by
  obtain ⟨f, g, h, r, s⟩ := o
  unfold checkdims GoodShape
  cases f with
  | scalar f =>
    cases g with
    | arr gs gd =>
      simp only [PyVal.scalar.injEq, exists_eq', true_and, PyVal.arr.injEq]
      match gs with
      | [] => simp
      | a :: b :: rest => simp
      | [a] =>
        simp only [List.length_cons, List.length_nil, ne_eq, not_true_eq_false, if_false, List.headD_cons, List.cons.injEq, and_true]
        by_cases ha : a = n
        · subst ha
          cases h with
          | none => simp
          | scalar v => simp
          | other => simp
          | arr hs hd =>
            match hs with
            | [] => simp
            | [p] => simp
            | p :: q :: u :: rest => simp
            | [p, q] =>
              simp only [List.length_cons, List.length_nil, ne_eq, not_true_eq_false, if_false, List.headD_cons, PyVal.arr.injEq,
                reduceCtorEq, false_or, List.cons.injEq, and_true]
              by_cases hp : p = q
              · subst hp
                by_cases hq : p = a
                · simp [hq]
                · simp [hq]
              · simp only [List.getD_cons_succ, List.getD_cons_zero, hp, not_false_eq_true, if_true, reduceCtorEq, false_iff]
                rintro ⟨_, _, ⟨h1, h2⟩, _⟩
                exact hp (h1.trans h2.symm)
        · simp [ha]
    | _ => simp
  | _ => simp

/-! ## residual mode -/

section
open Num

theorem getD_lt {α : Type} (l : List α) (i : ℕ) (d : α) (h : i < l.length) : l.getD i d = l[i] := by
  simp [List.getD, h]

theorem flatten_entry {α : Type} {m k : ℕ} (a : Fin m → Fin k → α) (i : Fin m) (j : Fin k) (d : α) :
    ((List.ofFn fun i => List.ofFn (a i)).flatten).getD (i.val * k + j.val) d = a i j := by
  have hk : 0 < k := Nat.lt_of_le_of_lt (Nat.zero_le _) j.isLt
  have h := List.ofFn_mul (m := m) (n := k) (fun p => a ⟨p.val / k, Nat.div_lt_of_lt_mul (lt_of_lt_of_eq p.isLt (mul_comm m k))⟩ ⟨p.val % k, Nat.mod_lt _ hk⟩)
  have h2 : (List.ofFn fun i : Fin m => List.ofFn fun j : Fin k =>
      a ⟨(i.val * k + j.val) / k, Nat.div_lt_of_lt_mul (by
        have h1 := i.isLt; have h2 := j.isLt
        calc i.val * k + j.val < i.val * k + k := by omega
          _ = (i.val + 1) * k := by ring
          _ ≤ m * k := Nat.mul_le_mul_right _ h1
          _ = k * m := mul_comm _ _)⟩ ⟨(i.val * k + j.val) % k, Nat.mod_lt _ hk⟩) = List.ofFn fun i => List.ofFn (a i) := by
    congr 1; funext i; congr 1; funext j
    congr 1
    · apply Fin.ext; simp only; rw [mul_comm, Nat.mul_add_div hk, Nat.div_eq_of_lt j.isLt]; omega
    · apply Fin.ext; simp only; rw [mul_comm, Nat.mul_add_mod, Nat.mod_eq_of_lt j.isLt]
  have h3 := h.trans (congrArg List.flatten h2)
  rw [← h3]
  have hlt : i.val * k + j.val < m * k := by
    have h1 := i.isLt; have h2 := j.isLt
    calc i.val * k + j.val < i.val * k + k := by omega
      _ = (i.val + 1) * k := by ring
      _ ≤ m * k := Nat.mul_le_mul_right _ h1
  rw [getD_lt _ _ _ (by rw [List.length_ofFn]; exact hlt), List.getElem_ofFn]
  congr 1
  · apply Fin.ext; simp only; rw [mul_comm, Nat.mul_add_div hk, Nat.div_eq_of_lt j.isLt]; omega
  · apply Fin.ext; simp only; rw [mul_comm, Nat.mul_add_mod, Nat.mod_eq_of_lt j.isLt]

theorem toVec_ofVec {m : ℕ} (v : Vec F m) : (PyVal.ofVec v).toVec? m = some v := by
  simp only [PyVal.ofVec, PyVal.toVec?, if_true, Option.some.injEq]
  funext i
  rw [getD_lt _ _ _ (by rw [List.length_ofFn]; exact i.isLt), List.getElem_ofFn]

theorem toMat_ofMat {m k : ℕ} (a : Mat F m k) : (PyVal.ofMat a).toMat? m k = some a := by
  simp only [PyVal.ofMat, PyVal.toMat?, and_self, if_true, Option.some.injEq]
  funext i j
  exact flatten_entry a i j _

section
variable [LawfulFloat F] (E : Env F n) (x0 : Vec F n) (startId : String) (hess0 : Hess0 F) (st0 : St F n)

/-- C42: outside residual mode the values are used in the order value, gradient, Hessian: what a run uses at the argument of a call is what the
objective returned for it (second part: objectives that return no Hessian). -/
theorem C42_meaning (hr : E.resfun = false) (fuel : ℕ) (pre : List (EvalRec F n)) (c : EvalRec F n) (suf : List (EvalRec F n))
    (hc : CallsOf st0 (minimize E fuel x0 startId hess0 st0) (pre ++ c :: suf)) (fo : Funout F n) (hfo : c.out = .ok fo)
    (f : F) (g : Vec F n) :
    (∀ H : Mat F n n, E.nargout = 3 → E.obj (suf.length + st0.evals.length) c.arg = .tuple [.scalar f, .ofVec g, .ofMat H] →
      fo.x = c.arg ∧ fo.fval = f ∧ fo.grad = g ∧ fo.hess = some H) ∧
    (E.nargout = 2 → E.obj (suf.length + st0.evals.length) c.arg = .tuple [.scalar f, .ofVec g] →
      fo.x = c.arg ∧ fo.fval = f ∧ fo.grad = g ∧ fo.hess = none) := by
  obtain ⟨calls, h1, h2⟩ := run_calls E x0 startId hess0 st0 fuel
  have hcalls : calls = pre ++ c :: suf := List.append_cancel_right (h1.symm.trans hc)
  obtain ⟨⟨_, h3⟩, _⟩ := h2 pre c suf hcalls
  obtain ⟨raw, k, h4, h5⟩ := h3 fo hfo
  constructor
  · intro H hk hobj
    rw [hobj, hr, hk] at h4
    simp only [funEval, List.length_cons, List.length_nil, ne_eq, not_true_eq_false, if_false, if_true, Except.ok.injEq,
      Bool.false_eq_true] at h4
    subst h4
    simp only [RawOut.typed] at h5
    rw [toVec_ofVec] at h5
    rw [show (PyVal.ofMat H) = PyVal.arr [n, n] ((List.ofFn fun i => List.ofFn (H i)).flatten) from rfl] at h5
    simp only at h5
    rw [show PyVal.arr [n, n] ((List.ofFn fun i => List.ofFn (H i)).flatten) = PyVal.ofMat H from rfl, toMat_ofMat] at h5
    simp only [Option.some.injEq] at h5
    subst h5
    exact ⟨rfl, rfl, rfl, rfl⟩
  · intro hk hobj
    rw [hobj, hr, hk] at h4
    simp [funEval] at h4
    subst h4
    simp only [RawOut.typed] at h5
    rw [toVec_ofVec] at h5
    simp only [Option.some.injEq] at h5
    subst h5
    exact ⟨rfl, rfl, rfl, rfl⟩
end

/-- the hypotheses of `C42_meaning` are met: a run with calls that succeeded, the first one with the value, gradient and Hessian returned at `1` -/
example : (demoEnv (1 / 100000000) (fin 0) (fin 0)).resfun = false ∧ (demoEnv (1 / 100000000) (fin 0) (fin 0)).nargout = 3 ∧
    ∃ pre c fo, CallsOf demoSt0 (minimize (demoEnv (1 / 100000000) (fin 0) (fin 0)) 1 (v1 1) "run" .hessStr demoSt0) (pre ++ c :: []) ∧
      c.out = .ok fo ∧ (demoEnv (1 / 100000000) (fin 0) (fin 0)).obj (0 + demoSt0.evals.length) c.arg =
        .tuple [.scalar (fin (1 / 2)), .ofVec (v1 1), .ofMat (fun _ _ : Fin 1 => fin 1)] := by
  refine ⟨rfl, rfl, ?_⟩
  obtain ⟨st', hm, -⟩ := demo_ok
  obtain ⟨_, k, st1, cur, st2, _, h1, h2, h3⟩ := minimize_ok _ _ _ _ _ _ st' hm
  obtain ⟨l, fo0, he, hfirst⟩ := (headInv _ _ _ _ _ k st1 cur h1).evals
  have e1 := checkContinue_evals _ st1 st2 false h2
  have e2 : st'.evals = st2.evals := by
    unfold writeHistory at h3
    repeat' split at h3
    all_goals cases h3
    all_goals rfl
  refine ⟨l, { arg := nudge (demoEnv (1 / 100000000) (fin 0) (fin 0)).lb (demoEnv (1 / 100000000) (fin 0) (fin 0)).ub (v1 1), out := .ok fo0 }, fo0, ?_, rfl, ?_⟩
  · rw [hm]
    show st'.evals = _
    rw [e2, e1, he]
    simp
  · simp only [demo_nudge]
    exact if_pos rfl

variable (E : Env Num n) (x0 : Vec Num n) (startId : String) (hess0 : Hess0 Num) (st0 : St Num n)

/-- what is made of residuals `r` and their derivative `J` -/
theorem least_squares_out (m : ℕ) (r : Fin m → ℝ) (J : Fin m → Fin n → ℝ) (raw : RawOut Num) (x : Vec Num n) (k : ℕ) (fo : Funout Num n)
    (h4 : funEval 2 true (.tuple [.ofVec (ofV r), .ofMat (ofM J)]) = .ok raw) (h5 : raw.typed x k = some fo) :
    fo.fval = fin ((∑ i, r i ^ 2) / 2) ∧ fo.grad = ofV (fun j => ∑ i, J i j * r i) ∧
    fo.hess = some (ofM fun j l => ∑ i, J i j * J i l) ∧ fo.res = some { m := m, res := ofV r, sres := ofM J } := by
  simp only [funEval, PyVal.ofVec, PyVal.ofMat, List.length_cons, List.length_nil, ne_eq, not_true_eq_false, if_false, if_true,
    Except.ok.injEq] at h4
  have hres : (fun i : Fin m => (List.ofFn (ofV r)).getD i.val FloatOps.nan) = ofV r := by
    funext i
    rw [getD_lt _ _ _ (by rw [List.length_ofFn]; exact i.isLt), List.getElem_ofFn]
  have hsres : (fun (i : Fin m) (j : Fin n) => entry ((List.ofFn fun i => List.ofFn (ofM J i)).flatten) n i.val j.val) = ofM J := by
    funext i j
    exact flatten_entry (ofM J) i j _
  simp only [resOut] at h4
  rw [hres, hsres] at h4
  subst h4
  simp only [RawOut.typed] at h5
  rw [toVec_ofVec] at h5
  simp only at h5
  rw [show (PyVal.ofMat (mulTM (ofM J) (ofM J))) = PyVal.arr [n, n] ((List.ofFn fun i => List.ofFn (mulTM (ofM J) (ofM J) i)).flatten) from rfl] at h5
  simp only at h5
  rw [show PyVal.arr [n, n] ((List.ofFn fun i => List.ofFn (mulTM (ofM J) (ofM J) i)).flatten) = PyVal.ofMat (mulTM (ofM J) (ofM J)) from rfl, toMat_ofMat] at h5
  simp only [Option.some.injEq] at h5
  subst h5
  refine ⟨?_, ?_, ?_, ?_⟩
  · simp only [dot_ofV, lit_def, fin_mul, rdot]
    congr 1
    push_cast
    rw [show (∑ i, r i ^ 2) = ∑ i, r i * r i from Finset.sum_congr rfl fun i _ => by ring]
    ring
  · simp only [vecMul_ofM, rdot]
    funext j
    simp only [ofV_apply]
    congr 1
    exact Finset.sum_congr rfl fun i _ => mul_comm _ _
  · simp only [mulTM_ofM, rdot]
  · unfold RawOut.resData
    simp only [and_self, if_true, hres, hsres]

/-- C43: in residual mode, whenever the objective returns residuals `r` and their derivative `J` (real numbers, any number of residuals), the
value, gradient and Hessian used are `sum r^2 / 2`, `J^T r` and `J^T J`; the value is nonnegative, the Hessian symmetric and positive
semidefinite; and it is these residuals and this derivative that are handed to the update of the Hessian approximation (C56). -/
theorem C43_least_squares (hr : E.resfun = true) (hk : E.nargout = 2) (fuel : ℕ) (pre : List (EvalRec Num n)) (c : EvalRec Num n)
    (suf : List (EvalRec Num n)) (hc : CallsOf st0 (minimize E fuel x0 startId hess0 st0) (pre ++ c :: suf)) (fo : Funout Num n)
    (hfo : c.out = .ok fo) (m : ℕ) (r : Fin m → ℝ) (J : Fin m → Fin n → ℝ)
    (hobj : E.obj (suf.length + st0.evals.length) c.arg = .tuple [.ofVec (ofV r), .ofMat (ofM J)]) :
    fo.fval = fin ((∑ i, r i ^ 2) / 2) ∧ fo.grad = ofV (fun j => ∑ i, J i j * r i) ∧
    fo.hess = some (ofM fun j l => ∑ i, J i j * J i l) ∧ fo.res = some { m := m, res := ofV r, sres := ofM J } ∧ 0 ≤ (∑ i, r i ^ 2) / 2 ∧
    Sym (fun j l => ∑ i, J i j * J i l) ∧ PSD (fun j l => ∑ i, J i j * J i l) := by
  obtain ⟨calls, h1, h2⟩ := run_calls E x0 startId hess0 st0 fuel
  have hcalls : calls = pre ++ c :: suf := List.append_cancel_right (h1.symm.trans hc)
  obtain ⟨⟨_, h3⟩, _⟩ := h2 pre c suf hcalls
  obtain ⟨raw, k, h4, h5⟩ := h3 fo hfo
  rw [hobj, hr, hk] at h4
  obtain ⟨e1, e2, e3, e4⟩ := least_squares_out m r J raw _ _ fo h4 h5
  refine ⟨e1, e2, e3, e4, ?_, ?_, ?_⟩
  · positivity
  · intro j l
    exact Finset.sum_congr rfl fun i _ => mul_comm _ _
  · intro v
    have : rdot v (rmv (fun j l => ∑ i, J i j * J i l) v) = ∑ i, (∑ j, J i j * v j) ^ 2 := by
      simp only [rdot, rmv]
      simp only [Finset.mul_sum, Finset.sum_mul, sq]
      rw [Finset.sum_congr rfl fun j _ => Finset.sum_comm, Finset.sum_comm]
      refine Finset.sum_congr rfl fun i _ => ?_
      refine Finset.sum_congr rfl fun j _ => ?_
      refine Finset.sum_congr rfl fun l _ => ?_
      ring
    rw [this]
    positivity

/-- one variable, two residuals, no iterations allowed -/
noncomputable def resDemo : Env Num 1 :=
  { demoEnv 1 (fin 0) (fin 0) with
    opts := { (demoEnv 1 (fin 0) (fin 0)).opts with maxiter := 0, history := false }
    resfun := true, nargout := 2
    obj := fun _ _ => .tuple [.ofVec (ofV fun i : Fin 2 => (i.val : ℝ) + 1), .ofMat (ofM fun (_ : Fin 2) (_ : Fin 1) => 1)] }

/-- an optimizer with a residual-based scheme -/
noncomputable def resDemoSt : St Num 1 := St.new resDemo.opts (some (.ssm (Structured.new (fin 1) false)))

/-- the hypotheses of `C43_least_squares` and of `C42_accepted` are met: the value is (1 + 4)/2 -/
example : resDemo.resfun = true ∧ resDemo.nargout = 2 ∧ resDemo.nargout = expectedCount resDemoSt.happ ∧
    ∃ st' c fo, minimize resDemo 0 (v1 1) "run" .hessStr resDemoSt = .ok st' ∧
      CallsOf resDemoSt (minimize resDemo 0 (v1 1) "run" .hessStr resDemoSt) ([] ++ c :: []) ∧ c.out = .ok fo ∧ fo.fval = fin (5 / 2) := by
  refine ⟨rfl, rfl, rfl, ?_⟩
  obtain ⟨raw, hraw⟩ : ∃ raw, funEval 2 true (resDemo.obj 0 (v1 1)) = .ok raw := ⟨_, rfl⟩
  have hraw' : raw = resOut 2 1 (List.ofFn (ofV fun i : Fin 2 => (i.val : ℝ) + 1)) ((List.ofFn fun i => List.ofFn ((ofM fun (_ : Fin 2) (_ : Fin 1) => (1 : ℝ)) i)).flatten) := by
    cases hraw; rfl
  have hx : (startState resDemo (v1 1) "run" resDemoSt).x = v1 1 := demo_nudge 1 (fin 0) (fin 0) 1
  have hb : inBounds resDemo.lb resDemo.ub (v1 1) = true := inBounds_real _ _ _ (demo_box 1 (fin 0) (fin 0) 1)
  have hval : raw.fval = .scalar (fin (5 / 2)) ∧ raw.grad = .arr [1] [fin 3] ∧ raw.hess = .arr [1, 1] [fin 2] := by
    rw [hraw']
    refine ⟨?_, ?_, ?_⟩
    · simp [resOut, dot, sum_cons, sum_nil, entry]
      norm_num
    · simp [resOut, PyVal.ofVec, vecMul, dot, sum_cons, sum_nil, entry]
      norm_num
    · simp [resOut, PyVal.ofMat, mulTM, dot, sum_cons, sum_nil, entry]
      norm_num
  obtain ⟨hf, hg, hh⟩ := hval
  have hty : raw.typed (startState resDemo (v1 1) "run" resDemoSt).x (startState resDemo (v1 1) "run" resDemoSt).xId =
      some { x := v1 1, xId := (startState resDemo (v1 1) "run" resDemoSt).xId, fval := fin (5 / 2), grad := fun _ => fin 3, hess := some fun _ _ => fin 2, res := raw.resData 1 } := by
    rw [hx]
    simp only [RawOut.typed, hf, hg, hh, PyVal.toVec?, PyVal.toMat?, if_true, and_self]
    congr 2
    · funext i; simp
    · congr 1; funext i j; simp
  have hset := setup_forward resDemo .hessStr (startState resDemo (v1 1) "run" resDemoSt) raw
    (some (Happ.initMat (.ssm (Structured.new (fin 1) false)) (some fun _ _ => fin 2))) _ (by rw [hx]; exact hraw) (by
      show initialHapp (some (.ssm (Structured.new (fin 1) false))) .hessStr raw = _
      simp only [initialHapp, initHapp, hh, initShapeCheck, PyVal.toMat?]
      simp) ((C44_exact raw).mpr ⟨⟨_, hf⟩, ⟨_, hg⟩, Or.inr ⟨_, hh⟩⟩) hty (by simp [allFinite, vfinite, mfinite])
  have hhead : LoopHead resDemo (v1 1) "run" .hessStr resDemoSt 0 _ _ := LoopHead.start (startState resDemo (v1 1) "run" resDemoSt) _ _
    (by rw [hx, checkInBounds, if_pos hb]) hset
  obtain ⟨l, hl, hlen, _⟩ := head_calls _ _ _ _ _ _ _ _ hhead
  obtain ⟨a, b, c, d, hfr⟩ := setupState_frame (startState resDemo (v1 1) "run" resDemoSt)
    { x := v1 1, xId := (startState resDemo (v1 1) "run" resDemoSt).xId, fval := fin (5 / 2), grad := fun _ => fin 3, hess := some fun _ _ => fin 2, res := raw.resData 1 }
    (some (Happ.initMat (.ssm (Structured.new (fin 1) false)) (some fun _ _ => fin 2)))
  have hstop : ∃ s, checkContinue resDemo { setupState (startState resDemo (v1 1) "run" resDemoSt)
      { x := v1 1, xId := (startState resDemo (v1 1) "run" resDemoSt).xId, fval := fin (5 / 2), grad := fun _ => fin 3, hess := some fun _ _ => fin 2, res := raw.resData 1 }
      (some (Happ.initMat (.ssm (Structured.new (fin 1) false)) (some fun _ _ => fin 2))) with converged := false } = (false, s) := by
    unfold checkContinue
    have : resDemo.opts.maxiter = 0 := rfl
    simp only [Bool.false_eq_true, if_false, this]
    rw [if_pos (by simp)]
    exact ⟨_, rfl⟩
  obtain ⟨s, hs⟩ := hstop
  have hm := minimize_of_head resDemo (v1 1) "run" .hessStr resDemoSt _ _ _ 0 (by decide) hhead (loop_stop _ _ _ _ _ hs)
  have hw : writeHistory resDemo s = .ok s := by
    unfold writeHistory
    have : resDemo.opts.history = false := rfl
    rw [this]; rfl
  rw [hw] at hm
  refine ⟨s, { arg := (startState resDemo (v1 1) "run" resDemoSt).x, out := .ok { x := v1 1, xId := (startState resDemo (v1 1) "run" resDemoSt).xId, fval := fin (5 / 2), grad := fun _ => fin 3, hess := some fun _ _ => fin 2, res := raw.resData 1 } }, _, hm, ?_, rfl, rfl⟩
  rw [hm]
  show s.evals = _
  rw [checkContinue_evals _ _ _ _ hs, hfr]
  rfl

/-- the hypotheses of `C42_refused` and `C43_unusable` are met by an objective that returns two values where three are expected -/
example : let E : Env Num 1 := { demoEnv 1 (fin 0) (fin 0) with resfun := true, obj := fun _ _ => .tuple [.scalar (fin 1), .arr [1] [fin 1]] }
    E.nargout = expectedCount demoSt0.happ ∧ E.resfun = true ∧ demoSt0.happ = none ∧ ∀ k x, WrongCount (expectedCount demoSt0.happ) (E.obj k x) :=
  ⟨rfl, rfl, rfl, fun _ _ => by show (2 : ℕ) ≠ 3; decide⟩

end

/-! ## shapes -/

/-- C44: otherwise ValueError, provided gradient and Hessian are numpy arrays or scalars (or the Hessian is None). -/
theorem C44_error (o : RawOut F) (hg : IsNumeric o.grad) (hh : o.hess = .none ∨ IsNumeric o.hess) (hbad : ¬ GoodShape n o) :
    checkdims n o = .error .valueError := by
  rw [← C44_exact] at hbad
  obtain ⟨f, g, h, r, s⟩ := o
  unfold checkdims at hbad ⊢
  cases f <;> cases g <;> cases h <;> simp only [IsNumeric, reduceCtorEq, or_self, or_false, false_or] at hg hh <;>
    simp only at hbad ⊢ <;> split_ifs at hbad ⊢ <;> first | rfl | exact absurd rfl hbad

/-- C44: every run that gets past its first call has checked the shapes of the first evaluation. -/
theorem C44_run [LawfulFloat F] (E : Env F n) (x0 : Vec F n) (startId : String) (hess0 : Hess0 F) (st0 : St F n) (fuel : ℕ) (st' : St F n)
    (h : minimize E fuel x0 startId hess0 st0 = .ok st') :
    ∃ calls first raw, st'.evals = calls ++ first :: st0.evals ∧
      funEval E.nargout E.resfun (E.obj st0.evals.length first.arg) = .ok raw ∧ GoodShape n raw := by
  obtain ⟨_, k, st1, cur, st2, _, h1, h2, h3⟩ := minimize_ok E x0 startId hess0 st0 fuel st' h
  have hs : ∀ k st cur, LoopHead E x0 startId hess0 st0 k st cur → ∃ raw,
      funEval E.nargout E.resfun (E.obj st0.evals.length (nudge E.lb E.ub x0)) = .ok raw ∧ GoodShape n raw := by
    intro k
    induction k with
    | zero =>
      intro st cur h
      cases h with
      | start s _ _ hb hs =>
        obtain ⟨rfl, _⟩ := checkInBounds_ok _ _ _ _ hb
        obtain ⟨raw, happ, r1, _, r3, _⟩ := setup_ok _ _ _ _ _ hs
        exact ⟨raw, r1, (C44_exact raw).mp r3⟩
    | succ k ih =>
      intro st cur h
      cases h with
      | next _ _ _ _ _ _ h => exact ih _ _ h
  obtain ⟨raw, r1, r2⟩ := hs k st1 cur h1
  obtain ⟨l, fo0, he, _⟩ := (headInv E x0 startId hess0 st0 k st1 cur h1).evals
  have e1 := checkContinue_evals E st1 st2 false h2
  have e2 : st'.evals = st2.evals := by
    unfold writeHistory at h3
    repeat' split at h3
    all_goals cases h3
    all_goals rfl
  exact ⟨l, _, raw, by rw [e2, e1, he], r1, r2⟩

/-- both sides occur -/
example : GoodShape 2 (⟨.scalar (Num.fin 1), .arr [2] [Num.fin 1, Num.fin 2], .none, .none, .none⟩ : RawOut Num) ∧
    ¬ GoodShape 2 (⟨.scalar (Num.fin 1), .arr [2] [Num.fin 1, Num.fin 2], .arr [2, 1] [Num.fin 1, Num.fin 1], .none, .none⟩ : RawOut Num) := by
  constructor
  · exact ⟨⟨_, rfl⟩, ⟨_, rfl⟩, Or.inl rfl⟩
  · rintro ⟨_, _, h | ⟨h', h⟩⟩
    · cases h
    · cases h

end Fides
