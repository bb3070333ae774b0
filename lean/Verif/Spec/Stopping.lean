import Verif.Spec.Run

/-!
# Specification vocabulary: optimizers that differ in their stopping options
-/

namespace Fides.Spec
open Fides
variable {F : Type} [FloatOps F] {n : ℕ}

/-- two optimizers for the same problem and with the same options, except for the stopping options `maxiter`, `maxtime`, `fatol`, `frtol`, `xtol`, `gatol` and
`grtol`; the clocks they read may differ as well -/
structure SameButStopping (E E' : Env F n) : Prop where
  lb : E'.lb = E.lb
  ub : E'.ub = E.ub
  nargout : E'.nargout = E.nargout
  resfun : E'.resfun = E.resfun
  obj : E'.obj = E.obj
  tr : E'.tr = E.tr
  evs : E'.evs = E.evs
  cond : E'.cond = E.cond
  subspaceDim : E'.opts.subspaceDim = E.opts.subspaceDim
  stepbackStrat : E'.opts.stepbackStrat = E.opts.stepbackStrat
  thetaMax : E'.opts.thetaMax = E.opts.thetaMax
  deltaInit : E'.opts.deltaInit = E.opts.deltaInit
  mu : E'.opts.mu = E.opts.mu
  eta : E'.opts.eta = E.opts.eta
  gamma1 : E'.opts.gamma1 = E.opts.gamma1
  gamma2 : E'.opts.gamma2 = E.opts.gamma2
  history : E'.opts.history = E.opts.history

/-- the states agree in everything but the clock readings and the flags `converged` and `exitflag` -/
def SamePath (a b : St F n) : Prop :=
  b = { a with starttime := b.starttime, ticks := b.ticks, converged := b.converged, exitflag := b.exitflag }

/-- the stopping options of `E'` are at most as easily met as those of `E` -/
structure Stricter (E E' : Env F n) : Prop where
  maxiter : E.opts.maxiter ≤ E'.opts.maxiter
  maxtime : le E.opts.maxtime E'.opts.maxtime = true
  fatol : le E'.opts.fatol E.opts.fatol = true
  frtol : le E'.opts.frtol E.opts.frtol = true
  xtol : le E'.opts.xtol E.opts.xtol = true
  gatol : le E'.opts.gatol E.opts.gatol = true
  grtol : le E'.opts.grtol E.opts.grtol = true

end Fides.Spec
