import Verif.Model.TrustRegion

/-!
# Specification for C55: which candidates are considered

`Series R Done c l`: `l` is the series of candidates made one from the other, the first one from `c`, which goes on exactly as long as the
last candidate is not `Done`.  Nothing here mentions the loops of the code.
-/

namespace Fides.Spec

/-- the first member of `l` is made from `c`, every other one from its predecessor, and only the last one may be `Done` -/
structure Series {S : Type} (R : S → S → Prop) (Done : S → Prop) (c : S) (l : List S) : Prop where
  nonempty : l ≠ []
  made : ∀ k (h : k < l.length), R ((c :: l)[k]'(by simp; omega)) l[k]
  goesOn : ∀ k (h : k + 1 < l.length), ¬ Done l[k]

/-- the series has reached a candidate that is `Done` -/
def Ended {S : Type} (Done : S → Prop) (l : List S) : Prop := ∃ s, l.getLast? = some s ∧ Done s

end Fides.Spec
