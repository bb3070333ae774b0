import Verif.Spec.Run

/-!
# Specification vocabulary: several runs on one optimizer
-/

namespace Fides
variable {F : Type} [FloatOps F] {n : ℕ}

/-- the surroundings of an optimizer from now on: the next calls of the objective, the clock and `trust_region` are those
that follow the calls already made by the optimizer in state `b` -/
def Env.after (E : Env F n) (b : St F n) : Env F n :=
  { E with obj := fun k => E.obj (k + b.evals.length), clock := fun k => E.clock (k + b.ticks),
           tr := fun k => E.tr (k + b.proposals) }

namespace Spec

/-- the states of an optimizer constructed with the approximation `happ0` and used for any number of runs, with any
starting points, run names and initial matrices, whether they returned or raised -/
inductive Used (E : Env F n) (happ0 : Option (Happ F n)) : St F n → Prop
  | new : Used E happ0 (St.new E.opts happ0)
  | run (st : St F n) (fuel : ℕ) (x0 : Vec F n) (startId : String) (hess0 : Hess0 F) :
      Used E happ0 st → Used E happ0 (finalState (minimize E fuel x0 startId hess0 st))

/-- the schemes that keep a switch -/
def hasSwitch : Happ F n → Prop
  | .hybridFixed _ _ _ => True
  | .hybridFraction _ _ _ => True
  | _ => False

/-- an evaluation without the identity of the array object -/
def anonymous (r : EvalRec F n) : EvalRec F n := { arg := r.arg, out := r.out.map fun fo => { fo with xId := 0 } }

/-- the run that ended in `s'` on the used optimizer `b` gave the same as the run that ended in `s` on a new one: returned tuple,
attributes, history, group added to the history file, calls of the objective -/
structure SameResult (b s s' : St F n) : Prop where
  fval : s'.fval = s.fval
  x : s'.x = s.x
  grad : s'.grad = s.grad
  hess : s'.hess = s.hess
  xMin : s'.xMin = s.xMin
  fvalMin : s'.fvalMin = s.fvalMin
  gradMin : s'.gradMin = s.gradMin
  happ : s'.happ = s.happ
  exitflag : s'.exitflag = s.exitflag
  converged : s'.converged = s.converged
  iteration : s'.iteration = s.iteration
  delta : s'.delta = s.delta
  history : s'.history = s.history
  file : s'.file = b.file ++ s.file
  evals : s'.evals.map anonymous = s.evals.map anonymous ++ b.evals.map anonymous

end Spec

end Fides
