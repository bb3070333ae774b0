import Verif.Model.Log
import Verif.Model.TrustRegion

/-!
# Specification vocabulary: the labels of steps
-/

namespace Fides.Spec
open Fides

/-- the label of the step computed by the chosen solver: `2D` is shown as `2d`, `full` as `nd`, `scg` as `cgs` -/
def solverLabel : SubSpaceDim → String
  | .two => "2d"
  | .full => "nd"
  | .steihaug => "cgs"
  | .other => ""

/-- the labels of the further candidates: a gradient step `g` always, reflected steps `trr` with the strategies that reflect, truncated ones `trt` with those
that truncate, refined ones `ref` with `refine` -/
inductive ExtraLabel : StepBackStrategy → String → Prop
  | gradient (s) : ExtraLabel s "g"
  | single : ExtraLabel .singleReflect "trr"
  | reflect : ExtraLabel .reflect "trr"
  | mixedReflect : ExtraLabel .mixed "trr"
  | truncate : ExtraLabel .truncate "trt"
  | mixedTruncate : ExtraLabel .mixed "trt"
  | refine : ExtraLabel .refine "ref"

end Fides.Spec
