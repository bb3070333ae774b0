import Verif.Lemmas.Permuted
import Verif.Props.Evaluations

/-! Helper lemmas: Hessian approximations, objective calls and the optimizer on a problem with reordered variables. -/

set_option linter.unusedSectionVars false

namespace Fides
open Num Spec
variable {n : ℕ} (σ : Equiv.Perm (Fin n))

/-! ## Hessian approximations -/

theorem pv_broyden (y s : Vec Num n) (mat : Mat Num n n) (phi : Num) (b : Bool) :
    broydenClassUpdate (permV σ y) (permV σ s) (permM σ mat) phi b = permM σ (broydenClassUpdate y s mat phi b) := by
  unfold broydenClassUpdate
  have e1 : ∀ (u : Vec Num n) (b c : Num), vsub (fun i => permV σ y i / b) (fun i => permV σ u i / c) = permV σ (vsub (fun i => y i / b) fun i => u i / c) := fun _ _ _ => rfl
  simp only [pv_mulVec, pv_dot, pv_outer, pv_mdiv, pv_msub, e1, pv_msmul, pv_madd]
  split
  · rfl
  · split <;> rfl

theorem pv_iterUpdate (h : IterApprox Num n) (s y : Vec Num n) : (permIter σ h).update (permV σ s) (permV σ y) = permIter σ (h.update s y) := by
  rcases h with ⟨sch, H, D⟩
  have e1 : mulVec (permM σ H) (permV σ s) = permV σ (mulVec H s) := pv_mulVec σ H s
  cases sch with
  | broyden phi b =>
    simp only [IterApprox.update, permIter, IterApprox.computeUpdate, pv_broyden, pv_madd]
  | sr1 =>
    simp only [IterApprox.update, permIter, IterApprox.computeUpdate, e1, pv_vsub, pv_dot, pv_norm, pv_outer, pv_mdiv]
    generalize le (FloatOps.sqrt spacing1 * norm s * norm (vsub y (mulVec H s))) (FloatOps.abs (dot (vsub y (mulVec H s)) s)) = b
    cases b <;> rfl
  | bg =>
    simp only [IterApprox.update, permIter, IterApprox.computeUpdate, e1, pv_vsub, pv_dot, pv_outer, pv_mdiv, pv_madd]
  | bb =>
    simp only [IterApprox.update, permIter, e1, pv_vsub, pv_dot, pv_outer, pv_mdiv]
    split <;> rfl

theorem pv_switched (h : Hybrid Num n) (b : Bool) (s y : Vec Num n) (H : Mat Num n n) :
    (permHybrid σ h).switchedUpdate b (permV σ s) (permV σ y) (permM σ H) = permHybrid σ (h.switchedUpdate b s y H) := by
  unfold Hybrid.switchedUpdate
  have e1 : (permHybrid σ h).inner = permIter σ h.inner := rfl
  rw [e1, pv_iterUpdate]
  cases b <;> rfl

theorem pv_fx {m : ℕ} (h : Hybrid Num n) (tol : Num) (s y : Vec Num n) (r rp : Vec Num m) (H : Mat Num n n) :
    (permHybrid σ h).updateFX tol (permV σ s) (permV σ y) r rp (permM σ H) = permHybrid σ (h.updateFX tol s y r rp H) := by
  unfold Hybrid.updateFX
  have e1 : (permHybrid σ h).inner = permIter σ h.inner := rfl
  rw [e1, pv_iterUpdate]
  simp only
  split <;> rfl

theorem pv_ssm (h : Structured Num n) (s y : Vec Num n) (H : Mat Num n n) (yb : Vec Num n) :
    (permStruct σ h).updateSSM (permV σ s) (permV σ y) (permM σ H) (permV σ yb) = permStruct σ (h.updateSSM s y H yb) := by
  unfold Structured.updateSSM
  have e1 : (permStruct σ h).A = permM σ h.A := rfl
  have e2 : (permStruct σ h).phi = h.phi := rfl
  have e3 : (permStruct σ h).enforceCurvCond = h.enforceCurvCond := rfl
  simp only [e1, e2, e3, pv_mulVec, pv_vadd, pv_madd, pv_broyden]
  rfl

theorem pv_tssm (h : Structured Num n) (s y : Vec Num n) (nr : Num) (H : Mat Num n n) (yb : Vec Num n) :
    (permStruct σ h).updateTSSM (permV σ s) (permV σ y) nr (permM σ H) (permV σ yb) = permStruct σ (h.updateTSSM s y nr H yb) := by
  unfold Structured.updateTSSM
  have e1 : (permStruct σ h).A = permM σ h.A := rfl
  have e2 : (permStruct σ h).phi = h.phi := rfl
  have e3 : (permStruct σ h).enforceCurvCond = h.enforceCurvCond := rfl
  simp only [e1, e2, e3, pv_mulVec, pv_vadd, pv_msmul, pv_madd, pv_broyden, pv_mdiv]
  rfl

theorem pv_gnsbfgs (h : Structured Num n) (tol : Num) (s y : Vec Num n) (nr : Num) (H : Mat Num n n) (yb : Vec Num n) :
    (permStruct σ h).updateGNSBFGS tol (permV σ s) (permV σ y) nr (permM σ H) (permV σ yb) = permStruct σ (h.updateGNSBFGS tol s y nr H yb) := by
  unfold Structured.updateGNSBFGS
  have e1 : (permStruct σ h).A = permM σ h.A := rfl
  have e2 : (permStruct σ h).phi = h.phi := rfl
  have e3 : (permStruct σ h).enforceCurvCond = h.enforceCurvCond := rfl
  have e4 : madd (permM σ H) (msmul nr (meye : Mat Num n n)) = permM σ (madd H (msmul nr meye)) := by
    rw [← pv_madd, ← pv_msmul, pv_eye]
  simp only [e1, e2, e3, e4, pv_dot, pv_madd, pv_broyden]
  split <;> rfl

theorem pv_getMat (h : Happ Num n) : (permHapp σ h).getMat = permM σ h.getMat := by cases h <;> rfl
theorem pv_getDiff (h : Happ Num n) : (permHapp σ h).getDiff = permM σ h.getDiff := by cases h <;> rfl

theorem pv_initMat (h : Happ Num n) (m : Option (Mat Num n n)) : (permHapp σ h).initMat (m.map (permM σ)) = permHapp σ (h.initMat m) := by
  have e1 : (m.map (permM σ)).getD meye = permM σ (m.getD meye) := by
    cases m with
    | none => exact (pv_eye σ).symm
    | some a => rfl
  have e2 : (fun i j => (meye : Mat Num n n) i j * spacing1) = permM σ fun i j => (meye : Mat Num n n) i j * spacing1 := by
    funext i j
    show (meye : Mat Num n n) i j * spacing1 = (permM σ (meye : Mat Num n n)) i j * spacing1
    rw [pv_eye]
  cases h <;> simp only [permHapp, Happ.initMat, IterApprox.initMat, Hybrid.initMat, Structured.initMat, permIter, permHybrid, permStruct, e1, pv_mzero, ← e2]

theorem pv_castTo (r : ResData Num n) (m : ℕ) : ({ r with sres := permC σ r.sres } : ResData Num n).castTo m = (r.castTo m).map fun p => (p.1, permC σ p.2) := by
  unfold ResData.castTo
  by_cases h : r.m = m <;> simp only [h, dif_pos, dif_neg, not_false_eq_true] <;> rfl

theorem pv_updateHapp (st : St Num n) (g : Happ Num n) (step : Step Num n) (new old : Funout Num n) :
    updateHapp (permState σ st) (permHapp σ g) (permStep σ step) (permOut σ new) (permOut σ old) = (updateHapp st g step new old).map (permHapp σ) := by
  have hs : vadd (permStep σ step).s (permStep σ step).s0 = permV σ (vadd step.s step.s0) := rfl
  have hy : vsub (permOut σ new).grad (permState σ st).grad = permV σ (vsub new.grad st.grad) := rfl
  have hh : (permOut σ new).hess = new.hess.map (permM σ) := rfl
  have hr : (permOut σ new).res = new.res.map fun r => { r with sres := permC σ r.sres } := rfl
  have ho : (permOut σ old).res = old.res.map fun r => { r with sres := permC σ r.sres } := rfl
  have hm : ∀ {m : ℕ} (r : Vec Num m) (a b : Mat Num m n), vecMul r (msub (permC σ a) (permC σ b)) = permV σ (vecMul r (msub a b)) := fun _ _ _ => rfl
  unfold updateHapp
  rw [hs, hy, hh, hr, ho]
  generalize vadd step.s step.s0 = s
  generalize vsub new.grad st.grad = y
  cases g with
  | base a b => rfl
  | iter h => simp only [permHapp, pv_iterUpdate]; rfl
  | hybridFixed k sw h =>
    cases new.hess with
    | none => rfl
    | some H => simp only [permHapp, Option.map, Happ.updateFixed, pv_switched]; rfl
  | hybridFraction k sw h =>
    cases new.hess with
    | none => rfl
    | some H => simp only [permHapp, Option.map, Happ.updateFraction, pv_switched]; rfl
  | fx tol h =>
    cases new.hess with
    | none => rfl
    | some H =>
      cases new.res with
      | none => rfl
      | some rn =>
        cases old.res with
        | none => rfl
        | some ro =>
          simp only [permHapp, Option.map_some, pv_castTo]
          cases ro.castTo rn.m with
          | none => rfl
          | some p => simp only [Option.map_some, hm, pv_mulVec, pv_vadd, pv_fx]; rfl
  | ssm h =>
    cases new.hess with
    | none => rfl
    | some H =>
      cases new.res with
      | none => rfl
      | some rn =>
        cases old.res with
        | none => rfl
        | some ro =>
          simp only [permHapp, Option.map_some, pv_castTo]
          cases ro.castTo rn.m with
          | none => rfl
          | some p => simp only [Option.map_some, hm, pv_ssm]; rfl
  | tssm h =>
    cases new.hess with
    | none => rfl
    | some H =>
      cases new.res with
      | none => rfl
      | some rn =>
        cases old.res with
        | none => rfl
        | some ro =>
          simp only [permHapp, Option.map_some, pv_castTo]
          cases ro.castTo rn.m with
          | none => rfl
          | some p =>
            simp only [Option.map_some, hm]
            have e1 : ∀ q : Num, (fun i => permV σ (vecMul rn.res (msub rn.sres p.2)) i * q) = permV σ (fun i => vecMul rn.res (msub rn.sres p.2) i * q) := fun _ => rfl
            simp only [e1, pv_tssm]; rfl
  | gnsbfgs tol h =>
    cases new.hess with
    | none => rfl
    | some H =>
      cases new.res with
      | none => rfl
      | some rn =>
        cases old.res with
        | none => rfl
        | some ro =>
          simp only [permHapp, Option.map_some, pv_castTo]
          cases ro.castTo rn.m with
          | none => rfl
          | some p =>
            simp only [Option.map_some, hm]
            have e1 : ∀ q : Num, (fun i => permV σ (vecMul rn.res (msub rn.sres p.2)) i * q) = permV σ (fun i => vecMul rn.res (msub rn.sres p.2) i * q) := fun _ => rfl
            simp only [e1, pv_gnsbfgs]; rfl

/-! ## objective calls -/

/-- a Hessian as returned, reordered -/
inductive PermMat (σ : Equiv.Perm (Fin n)) : PyVal Num → PyVal Num → Prop
  | none : PermMat σ .none .none
  | mat (h : Mat Num n n) : PermMat σ (.ofMat h) (.ofMat (permM σ h))

/-- outputs of `FunEvaluator`, reordered -/
structure PermRaw (σ : Equiv.Perm (Fin n)) (raw raw' : RawOut Num) : Prop where
  typed : ∀ (x : Vec Num n) k, raw'.typed (permV σ x) k = (raw.typed x k).map (permOut σ)
  dims : checkdims n raw' = checkdims n raw
  hess : PermMat σ raw.hess raw'.hess

theorem typed_ofMat (f : Num) (g : Vec Num n) (h : Mat Num n n) (R S : PyVal Num) (x : Vec Num n) (k : ℕ) :
    RawOut.typed { fval := .scalar f, grad := .ofVec g, hess := .ofMat h, res := R, sres := S } x k =
      some { x := x, xId := k, fval := f, grad := g, hess := some h, res := RawOut.resData n { fval := .scalar f, grad := .ofVec g, hess := .ofMat h, res := R, sres := S } } := by
  have e1 := toMat_ofMat h
  unfold RawOut.typed
  simp only [toVec_ofVec]
  unfold PyVal.ofMat at e1 ⊢
  simp only [e1]

theorem resOut_ofMat {m : ℕ} (r : Vec Num m) (s : Mat Num m n) : resOut m n (List.ofFn r) ((List.ofFn fun i => List.ofFn (s i)).flatten) =
    { fval := .scalar (lit (1 / 2) * dot r r), grad := .ofVec (vecMul r s), hess := .ofMat (mulTM s s), res := .ofVec r, sres := .ofMat s } := by
  have hv : (fun i : Fin m => (List.ofFn r).getD i.val FloatOps.nan) = r := by
    funext i; simp
  have hm : (fun (i : Fin m) (j : Fin n) => entry ((List.ofFn fun i => List.ofFn (s i)).flatten) n i.val j.val) = s := by
    funext i j; exact flatten_entry s i j _
  unfold resOut
  rw [hv, hm]
  rfl

theorem resData_ofMat {m : ℕ} (f g h : PyVal Num) (r : Vec Num m) (s : Mat Num m n) :
    RawOut.resData n { fval := f, grad := g, hess := h, res := .ofVec r, sres := .ofMat s } = some { m := m, res := r, sres := s } := by
  have hv : (fun i : Fin m => (List.ofFn r).getD i.val FloatOps.nan) = r := by
    funext i; simp
  have hm : (fun (i : Fin m) (j : Fin n) => entry ((List.ofFn fun i => List.ofFn (s i)).flatten) n i.val j.val) = s := by
    funext i j; exact flatten_entry s i j _
  unfold RawOut.resData PyVal.ofVec PyVal.ofMat
  simp only [and_self, if_true, hv, hm]

theorem pv_funEval {r r' : Ret Num} (h : PermRet σ r r') (k : ℕ) (rf : Bool) :
    (∃ e, funEval k rf r = .error e ∧ funEval k rf r' = .error e) ∨
      ∃ raw raw', funEval k rf r = .ok raw ∧ funEval k rf r' = .ok raw' ∧ PermRaw σ raw raw' := by
  cases h with
  | raised => exact Or.inl ⟨_, rfl, rfl⟩
  | hess f g h =>
    unfold funEval
    simp only [List.length_cons, List.length_nil]
    split
    · exact Or.inl ⟨_, rfl, rfl⟩
    · cases rf
      · simp only [Bool.false_eq_true, if_false]
        split
        · refine Or.inr ⟨_, _, rfl, rfl, ?_, rfl, PermMat.mat h⟩
          intro x k
          rw [typed_ofMat, typed_ofMat]
          rfl
        · exact Or.inl ⟨_, rfl, rfl⟩
      · exact Or.inl ⟨_, rfl, rfl⟩
  | grad f g =>
    unfold funEval
    simp only [List.length_cons, List.length_nil]
    split
    · exact Or.inl ⟨_, rfl, rfl⟩
    · cases rf
      · simp only [Bool.false_eq_true, if_false]
        split
        · exact Or.inl ⟨_, rfl, rfl⟩
        · refine Or.inr ⟨_, _, rfl, rfl, ?_, rfl, PermMat.none⟩
          intro x k
          unfold RawOut.typed
          simp only [toVec_ofVec]
          rfl
      · exact Or.inl ⟨_, rfl, rfl⟩
  | res m r s =>
    unfold funEval
    simp only [List.length_cons, List.length_nil]
    split
    · exact Or.inl ⟨_, rfl, rfl⟩
    · cases rf
      · simp only [Bool.false_eq_true, if_false]
        split
        · exact Or.inl ⟨_, rfl, rfl⟩
        · exact Or.inr ⟨_, _, rfl, rfl, fun _ _ => rfl, rfl, PermMat.none⟩
      · simp only [if_true]
        refine Or.inr ⟨resOut m n (List.ofFn r) ((List.ofFn fun i => List.ofFn (s i)).flatten), resOut m n (List.ofFn r) ((List.ofFn fun i => List.ofFn (permC σ s i)).flatten), ?_, ?_, ?_⟩
        · unfold PyVal.ofVec PyVal.ofMat; simp only [if_true]
        · unfold PyVal.ofVec PyVal.ofMat; simp only [if_true]
        · rw [resOut_ofMat, resOut_ofMat, pv_vecMulC, pv_mulTM]
          refine ⟨fun x k => ?_, rfl, PermMat.mat _⟩
          rw [typed_ofMat, typed_ofMat, resData_ofMat, resData_ofMat]
          rfl

/-! ## the optimizer -/

variable {σ}

theorem pv_initialHapp {raw raw' : RawOut Num} {hess0 hess0' : Hess0 Num} (h : PermMat σ raw.hess raw'.hess) (h0 : PermHess0 σ hess0 hess0') (happ : Option (Happ Num n)) :
    initialHapp (happ.map (permHapp σ)) hess0' raw' = (initialHapp happ hess0 raw).map (Option.map (permHapp σ)) := by
  have hi : ∀ (g : Happ Num n) {v v' : PyVal Num}, PermMat σ v v' → initHapp (permHapp σ g) v' = (initHapp g v).map (permHapp σ) := by
    intro g v v' hv
    cases hv with
    | none =>
      unfold initHapp
      exact congrArg Except.ok (pv_initMat σ g none)
    | mat a =>
      have e1 := toMat_ofMat a
      have e2 := toMat_ofMat (permM σ a)
      unfold initHapp
      unfold PyVal.ofMat at e1 e2 ⊢
      simp only [initShapeCheck, ne_eq, not_true_eq_false, if_false, e1, e2]
      exact congrArg Except.ok (pv_initMat σ g (some a))
  unfold initialHapp
  cases happ with
  | none =>
    generalize raw.hess = a at h ⊢
    generalize raw'.hess = b at h ⊢
    cases h with
    | none => rfl
    | mat a => rfl
  | some g =>
    simp only [Option.map_some]
    cases h0 with
    | str =>
      simp only
      rw [hi g h]
      cases initHapp g raw.hess <;> rfl
    | none =>
      simp only
      rw [hi g PermMat.none]
      cases initHapp g .none <;> rfl
    | mat a =>
      simp only
      rw [hi g (PermMat.mat a)]
      cases initHapp g (.ofMat a) <;> rfl

/-- results with reordered states -/
def pvU (σ : Equiv.Perm (Fin n)) : Except (PyErr × St Num n) (St Num n) → Except (PyErr × St Num n) (St Num n)
  | .error e => .error (e.1, permState σ e.2)
  | .ok s => .ok (permState σ s)

def pvR (σ : Equiv.Perm (Fin n)) : Except (PyErr × St Num n) (St Num n × Funout Num n) → Except (PyErr × St Num n) (St Num n × Funout Num n)
  | .error e => .error (e.1, permState σ e.2)
  | .ok s => .ok (permState σ s.1, permOut σ s.2)

variable {E E' : Env Num n}

theorem pv_nudge (σ : Equiv.Perm (Fin n)) (lb ub x : Vec Num n) : nudge (permV σ lb) (permV σ ub) (permV σ x) = permV σ (nudge lb ub x) := by
  unfold nudge
  have e1 : (vmin fun i => FloatOps.abs (permV σ ub i - permV σ x i)) = vmin fun i => FloatOps.abs (ub i - x i) := pv_vmin σ fun i => FloatOps.abs (ub i - x i)
  have e2 : (vmin fun i => FloatOps.abs (permV σ x i - permV σ lb i)) = vmin fun i => FloatOps.abs (x i - lb i) := pv_vmin σ fun i => FloatOps.abs (x i - lb i)
  rw [e1, e2]
  split <;> rfl

theorem pv_makeNonDegenerate (h : PermutedProblem σ E E') (st : St Num n) : makeNonDegenerate E' (permState σ st) = permState σ (makeNonDegenerate E st) := by
  unfold makeNonDegenerate
  have h1 : (permState σ st).x = permV σ st.x := rfl
  rw [h.lb, h.ub, h1, pv_nudge]
  unfold permState
  simp only
  split <;> rfl

theorem pv_inBounds (σ : Equiv.Perm (Fin n)) (lb ub x : Vec Num n) : inBounds (permV σ lb) (permV σ ub) (permV σ x) = inBounds lb ub x := by
  unfold inBounds
  rw [← pv_all σ fun i => le (lit (-1) * (ub i - x i)) (lit 0) = true, ← pv_all σ fun i => le (lit 1 * (lb i - x i)) (lit 0) = true]
  rfl

theorem pv_checkInBounds (h : PermutedProblem σ E E') (x : Vec Num n) (st : St Num n) : checkInBounds E' (permV σ x) (permState σ st) = pvU σ (checkInBounds E x st) := by
  unfold checkInBounds
  rw [h.lb, h.ub, pv_inBounds]
  split <;> rfl

theorem pv_allFinite (σ : Equiv.Perm (Fin n)) (f : Num) (g : Vec Num n) (m : Option (Mat Num n n)) : allFinite f (permV σ g) (m.map (permM σ)) = allFinite f g m := by
  unfold allFinite
  rw [pv_vfinite]
  cases m with
  | none => rfl
  | some m => simp only [Option.map_some, pv_mfinite]

theorem pv_trackMinimum (fo : Funout Num n) (st : St Num n) : trackMinimum (permOut σ fo) (permState σ st) = permState σ (trackMinimum fo st) := by
  unfold trackMinimum
  have h1 : (permOut σ fo).fval = fo.fval := rfl
  have h2 : (permState σ st).fvalMin = st.fvalMin := rfl
  rw [h1, h2]
  split <;> rfl

theorem pv_trInput (h : PermutedProblem σ E E') (st : St Num n) : trInput E' (permState σ st) = permIn σ (trInput E st) := by
  have hv : affineV (permV σ E.lb) (permV σ E.ub) (permV σ st.x) (permV σ st.grad) = permV σ (affineV E.lb E.ub st.x st.grad) := rfl
  have hn : normInf (fun i => permV σ (affineV E.lb E.ub st.x st.grad) i * permV σ st.grad i) = normInf (fun i => affineV E.lb E.ub st.x st.grad i * st.grad i) :=
    pv_normInf σ fun i => affineV E.lb E.ub st.x st.grad i * st.grad i
  unfold trInput
  have h1 : (permState σ st).x = permV σ st.x := rfl
  have h2 : (permState σ st).grad = permV σ st.grad := rfl
  rw [h.lb, h.ub, h.opts, h1, h2]
  simp only [hv, thetaOf, hn]
  rfl

theorem pv_updateTrRadius (h : PermutedProblem σ E E') (fo : Funout Num n) (step : Step Num n) (dv : Vec Num n) (st : St Num n) :
    updateTrRadius E' (permOut σ fo) (permStep σ step) (permV σ dv) (permState σ st) = ((updateTrRadius E fo step dv st).1, permState σ (updateTrRadius E fo step dv st).2) := by
  unfold updateTrRadius
  rw [h.opts]
  have e1 : (permOut σ fo).fval = fo.fval := rfl
  have e3 : vadd (permStep σ step).ss (permStep σ step).ss0 = permV σ (vadd step.ss step.ss0) := rfl
  have e5 : (permStep σ step).qpval = step.qpval := rfl
  have e6 : (permState σ st).fval = st.fval := rfl
  have e7 : (permState σ st).deltaIter = st.deltaIter := rfl
  have e8 : dot (permV σ (vadd step.ss step.ss0)) (fun i => permV σ dv i * FloatOps.abs ((permOut σ fo).grad i) * permV σ (vadd step.ss step.ss0) i) =
    dot (vadd step.ss step.ss0) (fun i => dv i * FloatOps.abs (fo.grad i) * vadd step.ss step.ss0 i) :=
    pv_dot σ (vadd step.ss step.ss0) (fun i => dv i * FloatOps.abs (fo.grad i) * vadd step.ss step.ss0 i)
  simp only [e1, e3, e5, e6, e7, e8, pv_norm]
  cases isFinite fo.fval
  · rfl
  · generalize (if le (-step.qpval) (lit 0) = true then (lit 0 : Num) else _) = r
    simp only [Bool.not_true, Bool.false_eq_true, if_false]
    cases (le E.opts.eta r && !lt (norm (vadd step.ss step.ss0)) (st.deltaIter * lit (9 / 10)))
    · cases le r E.opts.mu
      · cases (lt E.opts.mu r && lt r E.opts.eta) <;> rfl
      · rfl
    · rfl

theorem pv_checkConvergence (h : PermutedProblem σ E E') (step : Step Num n) (fo : Funout Num n) (st : St Num n) :
    checkConvergence E' (permStep σ step) (permOut σ fo) (permState σ st) = permState σ (checkConvergence E step fo st) := by
  unfold checkConvergence
  rw [h.opts]
  have e1 : (permOut σ fo).fval = fo.fval := rfl
  have e2 : (permOut σ fo).grad = permV σ fo.grad := rfl
  have e3 : vadd (permStep σ step).ss (permStep σ step).ss0 = permV σ (vadd step.ss step.ss0) := rfl
  have e5 : (permState σ st).fval = st.fval := rfl
  have e6 : (permState σ st).trRatio = st.trRatio := rfl
  have e7 : (permState σ st).iteration = st.iteration := rfl
  simp only [e1, e2, e3, e5, e6, e7, pv_norm]
  cases (lt E.opts.mu st.trRatio && lt (FloatOps.abs (fo.fval - st.fval)) (E.opts.fatol + E.opts.frtol * FloatOps.abs st.fval))
  · cases (decide (1 < st.iteration) && lt (norm (vadd step.ss step.ss0)) E.opts.xtol)
    · cases le (norm fo.grad) E.opts.gatol
      · cases le (norm fo.grad) (E.opts.grtol * FloatOps.abs st.fval) <;> rfl
      · rfl
    · rfl
  · rfl

theorem pv_checkContinue (h : PermutedProblem σ E E') (st : St Num n) :
    checkContinue E' (permState σ st) = ((checkContinue E st).1, permState σ (checkContinue E st).2) := by
  unfold checkContinue
  rw [h.opts, h.clock]
  have e1 : (permState σ st).converged = st.converged := rfl
  have e2 : (permState σ st).iteration = st.iteration := rfl
  have e3 : (permState σ st).ticks = st.ticks := rfl
  have e4 : (permState σ st).starttime = st.starttime := rfl
  have e5 : (permState σ st).delta = st.delta := rfl
  simp only [e1, e2, e3, e4, e5]
  cases st.converged
  · by_cases h2 : E.opts.maxiter ≤ (st.iteration : Int)
    · simp only [h2, Bool.false_eq_true, if_false, if_true]; rfl
    · simp only [h2, Bool.false_eq_true, if_false]
      generalize (if st.iteration = 0 then 1 else st.iteration) = m
      cases lt (E.opts.maxtime - (E.clock st.ticks - st.starttime)) ((E.clock st.ticks - st.starttime) / lit ((m : ℕ) : ℚ))
      · cases lt st.delta spacing1 <;> rfl
      · rfl
  · rfl

theorem pv_update (h : PermutedProblem σ E E') (step : Step Num n) (new old : Funout Num n) (st : St Num n) :
    update E' (permStep σ step) (permOut σ new) (permOut σ old) (permState σ st) = pvU σ (update E step new old st) := by
  unfold update
  have e1 : (permState σ st).happ = st.happ.map (permHapp σ) := rfl
  have e2 : (permOut σ new).hess = new.hess.map (permM σ) := rfl
  have e3 : (permOut σ new).x = permV σ new.x := rfl
  simp only [e1, e2, e3, checkInBounds, h.lb, h.ub, pv_inBounds]
  cases hh : st.happ with
  | none =>
    cases new.hess with
    | none => rfl
    | some m =>
      simp only [Option.map_none, Option.map_some]
      cases inBounds E.lb E.ub new.x
      · simp only [Bool.false_eq_true, if_false, pvU, permState, hh, Option.map_none]
      · have := pv_makeNonDegenerate h { st with hess := m, happ := none, fval := new.fval, x := new.x, xId := new.xId, grad := new.grad }
        simp only [if_true, pvU]
        exact congrArg Except.ok this
  | some g =>
    simp only [Option.map_some, pv_updateHapp]
    cases updateHapp st g step new old with
    | error er => rfl
    | ok g' =>
      simp only [Except.map, pv_getMat]
      cases inBounds E.lb E.ub new.x
      · rfl
      · have := pv_makeNonDegenerate h { st with hess := g'.getMat, happ := some g', fval := new.fval, x := new.x, xId := new.xId, grad := new.grad }
        simp only [if_true, pvU]
        rw [← this]
        rfl

theorem pv_count (p : Fin n → Bool) : ((List.finRange n).filter fun i => p (σ i)).length = ((List.finRange n).filter p).length := by
  rw [← List.countP_eq_length_filter, ← List.countP_eq_length_filter]
  have e1 : List.countP (fun i => p (σ i)) (List.finRange n) = List.countP p ((List.finRange n).map σ) := by
    rw [List.countP_map]; rfl
  rw [e1]
  exact (Equiv.Perm.map_finRange_perm σ).countP_eq p

theorem pv_historyRow (h : PermutedProblem σ E E') (acc : Bool) (step : Step Num n) (fo : Funout Num n) (th : Num) (sh : Mat Num n n) (st : St Num n) :
    historyRow E' acc (permStep σ step) (permOut σ fo) th (permM σ sh) (permState σ st) = historyRow E acc step fo th sh st := by
  unfold historyRow
  have e1 : (permState σ st).happ = st.happ.map (permHapp σ) := rfl
  have e2 : (permState σ st).hess = permM σ st.hess := rfl
  have e3 : (permState σ st).grad = permV σ st.grad := rfl
  have e4 : vadd (permStep σ step).s (permStep σ step).s0 = permV σ (vadd step.s step.s0) := rfl
  have e5 : ((List.finRange n).filter (permStep σ step).reflIdx).length = ((List.finRange n).filter step.reflIdx).length := pv_count _
  have e6 : ((List.finRange n).filter (permStep σ step).truncIdx).length = ((List.finRange n).filter step.truncIdx).length := pv_count _
  have e7 : (permStep σ step).subspace.length = step.subspace.length := List.length_map _
  have e8 : (permState σ st).trRatio = st.trRatio := rfl
  have e9 : (permState σ st).deltaIter = st.deltaIter := rfl
  have e10 : (permState σ st).iterSinceTr = st.iterSinceTr := rfl
  have e11 : (permOut σ fo).fval = fo.fval := rfl
  have e12 : (permStep σ step).alpha = step.alpha := rfl
  have e13 : (permStep σ step).type = step.type := rfl
  have e14 : (permStep σ step).posdef = step.posdef := rfl
  have e15 : (permStep σ step).newton = step.newton := rfl
  simp only [e1, e2, e3, e4, e5, e6, e7, e8, e9, e10, e11, e12, e13, e14, e15, h.evs, h.cond, pv_norm]
  cases st.happ with
  | none => rfl
  | some g =>
    simp only [Option.map_some, pv_getDiff, h.evs]
    cases g <;> simp only [permHapp, permStruct, h.evs]

theorem pv_trialPoint (st : St Num n) (step : Step Num n) : trialPoint (permState σ st) (permStep σ step) = permV σ (trialPoint st step) := rfl

theorem pv_evaluate (h : PermutedProblem σ E E') (x : Vec Num n) (k : ℕ) (st : St Num n) :
    (evaluate E' (permV σ x) k (permState σ st)).1 = (evaluate E x k st).1.map (permOut σ) := by
  unfold evaluate
  have e1 : (permState σ st).evals.length = st.evals.length := List.length_map _
  rw [h.nargout, h.resfun]
  simp only [e1]
  rcases pv_funEval σ (h.obj st.evals.length x) E.nargout E.resfun with ⟨e, h1, h2⟩ | ⟨raw, raw', h1, h2, h3⟩
  · rw [h1, h2]; rfl
  · rw [h1, h2]
    simp only [h3.typed]
    cases raw.typed x k <;> rfl

theorem pv_preIter (st : St Num n) : preIter (permState σ st) = permState σ (preIter st) := rfl

theorem pv_trialOut (h : PermutedProblem σ E E') (st : St Num n) (step : Step Num n) :
    trialOut E' (permState σ st) (permStep σ step) = (trialOut E st step).map (permOut σ) := by
  unfold trialOut
  rw [pv_trialPoint]
  exact pv_evaluate h _ _ { preIter st with proposals := st.proposals + 1, nextId := st.nextId + 1 }

theorem pv_afterEval (st : St Num n) (step : Step Num n) (out : Except PyErr (Funout Num n)) :
    afterEval (permState σ st) (permStep σ step) (out.map (permOut σ)) = permState σ (afterEval st step out) := by
  unfold afterEval
  rw [pv_trialPoint]
  rfl

theorem pv_radiusStep (h : PermutedProblem σ E E') (st : St Num n) (step : Step Num n) (new : Funout Num n) :
    radiusStep E' (permState σ st) (permStep σ step) (permOut σ new) = ((radiusStep E st step new).1, permState σ (radiusStep E st step new).2) := by
  unfold radiusStep
  rw [pv_preIter, pv_trInput h, show (Except.ok (permOut σ new) : Except PyErr (Funout Num n)) = (Except.ok new : Except PyErr (Funout Num n)).map (permOut σ) from rfl,
    pv_afterEval, ← pv_updateTrRadius h]
  rfl

theorem pv_postCheck (h : PermutedProblem σ E E') (st : St Num n) (step : Step Num n) (new : Funout Num n) :
    postCheck E' (permState σ st) (permStep σ step) (permOut σ new) = permState σ (postCheck E st step new) := by
  unfold postCheck
  rw [pv_radiusStep h, pv_checkConvergence h, pv_trackMinimum]

theorem pv_finish (h : PermutedProblem σ E E') (st : St Num n) (old : Funout Num n) (step : Step Num n) (new : Funout Num n) :
    finish E' (permState σ st) (permOut σ old) (permStep σ step) (permOut σ new) = pvR σ (finish E st old step new) := by
  unfold finish
  rw [pv_radiusStep h, pv_postCheck h, pv_update h, h.opts, pv_preIter, pv_trInput h]
  have e1 : (permIn σ (trInput E (preIter st))).theta = (trInput E (preIter st)).theta := rfl
  have e2 : (permIn σ (trInput E (preIter st))).prob.shess = permM σ (trInput E (preIter st)).prob.shess := pv_shess σ (trInput E (preIter st)).prob
  rw [e1, e2]
  have e3 : (if (radiusStep E st step new).1 = true then pvU σ (update E step new old (postCheck E st step new)) else .ok (permState σ (postCheck E st step new))) =
      pvU σ (if (radiusStep E st step new).1 = true then update E step new old (postCheck E st step new) else .ok (postCheck E st step new)) := by
    split <;> rfl
  simp only [e3]
  cases (if (radiusStep E st step new).1 = true then update E step new old (postCheck E st step new) else .ok (postCheck E st step new)) with
  | error e => rfl
  | ok s =>
    simp only [pvU, pv_historyRow h]
    cases E.opts.history
    · simp only [Bool.false_eq_true, if_false, pvR]
      cases (radiusStep E st step new).1 <;> rfl
    · simp only [if_true]
      cases historyRow E (radiusStep E st step new).1 step new (trInput E (preIter st)).theta (trInput E (preIter st)).prob.shess s with
      | error e => rfl
      | ok row =>
        simp only [pvR]
        cases (radiusStep E st step new).1 <;> rfl

theorem pv_iterate (h : PermutedProblem σ E E') (htr : ∀ k I, E'.tr k (permIn σ I) = (E.tr k I).map (permStep σ)) (st : St Num n) (old : Funout Num n) :
    iterate E' (permState σ st) (permOut σ old) = pvR σ (iterate E st old) := by
  rw [iterate_eq, iterate_eq]
  have e1 : allFinite (permState σ st).fval (permState σ st).grad (some (permState σ st).hess) = allFinite st.fval st.grad (some st.hess) := pv_allFinite σ st.fval st.grad (some st.hess)
  have e2 : (permState σ st).proposals = st.proposals := rfl
  rw [e1, e2, pv_preIter, pv_trInput h, htr]
  cases allFinite st.fval st.grad (some st.hess)
  · rfl
  · simp only [if_true]
    cases E.tr st.proposals (trInput E (preIter st)) with
    | error x => rfl
    | ok step =>
      simp only [Except.map, pv_trialOut h]
      cases trialOut E st step with
      | error x =>
        simp only
        exact congrArg (fun s : St Num n => Except.error (x, s)) (pv_afterEval st step (.error x))
      | ok new =>
        simp only
        have e3 : (isFinite (permOut σ new).fval && !allFinite (permOut σ new).fval (permOut σ new).grad (permOut σ new).hess) =
          (isFinite new.fval && !allFinite new.fval new.grad new.hess) := by
          have e4 : allFinite (permOut σ new).fval (permOut σ new).grad (permOut σ new).hess = allFinite new.fval new.grad new.hess := pv_allFinite σ _ _ _
          rw [e4]
          rfl
        rw [e3]
        cases (isFinite new.fval && !allFinite new.fval new.grad new.hess)
        · simp only [Bool.false_eq_true, if_false]
          exact pv_finish h st old step new
        · exact congrArg (fun s : St Num n => Except.error (PyErr.runtimeError, { s with exitflag := .notFinite })) (pv_afterEval st step (.ok new))

theorem pv_loop (h : PermutedProblem σ E E') (htr : ∀ k I, E'.tr k (permIn σ I) = (E.tr k I).map (permStep σ)) (fuel : ℕ) (st : St Num n) (old : Funout Num n) :
    loop E' fuel (permState σ st) (permOut σ old) = pvU σ (loop E fuel st old) := by
  induction fuel generalizing st old with
  | zero =>
    rw [loop, loop, pv_checkContinue h]
    rcases checkContinue E st with ⟨b, s⟩
    cases b <;> rfl
  | succ k ih =>
    rw [loop, loop, pv_checkContinue h]
    rcases checkContinue E st with ⟨b, s⟩
    cases b
    · rfl
    · simp only [pv_iterate h htr]
      cases iterate E s old with
      | error e => rfl
      | ok r => exact ih r.1 r.2

theorem pv_setup (h : PermutedProblem σ E E') {hess0 hess0' : Hess0 Num} (h0 : PermHess0 σ hess0 hess0') (st : St Num n) :
    setup E' hess0' (permState σ st) = pvR σ (setup E hess0 st) := by
  unfold setup
  have e1 : (permState σ st).evals.length = st.evals.length := List.length_map _
  have e2 : (permState σ st).x = permV σ st.x := rfl
  have e3 : (permState σ st).happ = st.happ.map (permHapp σ) := rfl
  have e4 : (permState σ st).xId = st.xId := rfl
  rw [h.nargout, h.resfun]
  simp only [e1, e2, e3, e4]
  rcases pv_funEval σ (h.obj st.evals.length st.x) E.nargout E.resfun with ⟨e, h1, h2⟩ | ⟨raw, raw', h1, h2, h3⟩
  · rw [h1, h2]; rfl
  · rw [h1, h2]
    simp only [pv_initialHapp h3.hess h0, h3.dims, h3.typed]
    cases initialHapp st.happ hess0 raw with
    | error e => rfl
    | ok ha =>
      simp only [Except.map]
      cases checkdims n raw with
      | error e => rfl
      | ok u =>
        simp only
        cases raw.typed st.x st.xId with
        | none => rfl
        | some fo =>
          have hm : (permState σ st).fvalMin = st.fvalMin := rfl
          have hf' : (permOut σ fo).fval = fo.fval := rfl
          have hfin : allFinite fo.fval (permOut σ fo).grad (permOut σ fo).hess = allFinite fo.fval fo.grad fo.hess := pv_allFinite σ _ _ _
          have hH : (match ha.map (permHapp σ) with | some h => h.getMat | none => (permOut σ fo).hess.getD mzero) =
              permM σ (match ha with | some h => h.getMat | none => fo.hess.getD mzero) := by
            cases ha with
            | some g => exact pv_getMat σ g
            | none =>
              show (fo.hess.map (permM σ)).getD mzero = permM σ (fo.hess.getD mzero)
              cases fo.hess <;> rfl
          cases ha with
          | some g =>
            cases hb : (isFinite fo.fval && lt fo.fval st.fvalMin) <;> cases hf : allFinite fo.fval fo.grad fo.hess <;>
              simp only [Option.map_some, trackMinimum, checkFinite, hm, hf', hfin, hb, hf, pvR, if_true, Bool.false_eq_true, if_false, pv_getMat] <;> rfl
          | none =>
            have hH' : (permOut σ fo).hess.getD mzero = permM σ (fo.hess.getD mzero) := hH
            cases hb : (isFinite fo.fval && lt fo.fval st.fvalMin) <;> cases hf : allFinite fo.fval fo.grad fo.hess <;>
              simp only [Option.map_some, Option.map_none, trackMinimum, checkFinite, hm, hf', hfin, hb, hf, pvR, if_true, Bool.false_eq_true, if_false, hH'] <;> rfl

theorem pv_writeHistory (h : PermutedProblem σ E E') (st : St Num n) : writeHistory E' (permState σ st) = pvU σ (writeHistory E st) := by
  unfold writeHistory
  rw [h.opts]
  have e1 : (permState σ st).file = st.file := rfl
  have e2 : (permState σ st).startId = st.startId := rfl
  rw [e1, e2]
  cases E.opts.history
  · rfl
  · simp only [if_true]
    split <;> rfl

theorem pv_minimize (h : PermutedProblem σ E E') (htr : ∀ k I, E'.tr k (permIn σ I) = (E.tr k I).map (permStep σ)) (fuel : ℕ) (x0 : Vec Num n) (startId : String)
    {hess0 hess0' : Hess0 Num} (h0 : PermHess0 σ hess0 hess0') (st : St Num n) :
    minimize E' fuel (permV σ x0) startId hess0' (permState σ st) = pvU σ (minimize E fuel x0 startId hess0 st) := by
  have e0 : ({ reset E' startId (permState σ st) with x := permV σ x0, xId := (reset E' startId (permState σ st)).nextId, nextId := (reset E' startId (permState σ st)).nextId + 1 } : St Num n) =
      permState σ { reset E startId st with x := x0, xId := (reset E startId st).nextId, nextId := (reset E startId st).nextId + 1 } := by
    unfold reset
    rw [h.clock, h.opts]
    rfl
  unfold minimize
  simp only [e0]
  split
  · rfl
  · rw [pv_makeNonDegenerate h]
    have e1 : ∀ s : St Num n, (permState σ s).x = permV σ s.x := fun _ => rfl
    rw [e1, pv_checkInBounds h]
    cases checkInBounds E (makeNonDegenerate E { reset E startId st with x := x0, xId := (reset E startId st).nextId, nextId := (reset E startId st).nextId + 1 }).x
      (makeNonDegenerate E { reset E startId st with x := x0, xId := (reset E startId st).nextId, nextId := (reset E startId st).nextId + 1 }) with
    | error e => rfl
    | ok s =>
      simp only [pvU, pv_setup h h0]
      cases setup E hess0 s with
      | error e => rfl
      | ok r =>
        simp only [pvR, pv_loop h htr]
        cases loop E fuel r.1 r.2 with
        | error e => rfl
        | ok s' => simp only [pvU, pv_writeHistory h]

end Fides
