import Verif.Model.Minimize

/-!
# Model of `Optimizer.minimize` for a starting point with integer entries

`self.x = np.array(x0).copy()` (minimize.py:357) keeps the dtype: for a list or an array of Python integers `self.x` is an integer array, and the
assignments of `make_non_degenerate` (minimize.py:715-716) convert the floats back to integers (numpy casts like C, toward zero).  All later
values of `self.x` are float arrays (minimize.py:414, 530), so nothing else differs.

Simplifications: the integers are exactly representable as floats; the objective treats integer and float entries of the same value alike.
-/

namespace Fides
variable {F : Type} [FloatOps F] {n : Nat}

/-- the new value of `self.x` in `make_non_degenerate` (minimize.py:700-716) if `self.x` is an integer array; `cast` converts a float to an
integer (given as a float again) -/
def nudgeInt (cast : F → F) (lb ub x : Vec F n) : Vec F n :=
  if lt (vmin fun i => FloatOps.abs (ub i - x i)) degEps || lt (vmin fun i => FloatOps.abs (x i - lb i)) degEps then
    fun i =>
      let upper := lt (ub i - x i) degEps                                               -- 713
      let lower := lt (x i - lb i) degEps                                               -- 714
      let xi := if upper then cast (x i - degEps) else x i                              -- 715
      if lower then cast (xi + degEps) else xi                                          -- 716
  else x

/-- `make_non_degenerate` (minimize.py:700-716) for an integer array, as `makeNonDegenerate` -/
def makeNonDegenerateInt (cast : F → F) (E : Env F n) (st : St F n) : St F n :=
  let x := nudgeInt cast E.lb E.ub st.x
  { st with x := x, xMin := if st.xMinId = st.xId then x else st.xMin }

/-- `Optimizer.minimize` (minimize.py:313-443) for a vector `z` of integers, as `minimize` -/
def minimizeInt (cast : F → F) (E : Env F n) (fuel : Nat) (z : Fin n → Int) (startId : String) (hess0 : Hess0 F) (st : St F n) :
    Except (PyErr × St F n) (St F n) :=
  let st := reset E startId st                                                          -- 355
  let st := { st with x := fun i => lit (z i : Rat), xId := st.nextId, nextId := st.nextId + 1 }   -- 357
  if n = 0 then .error (.valueError, st)
  else
    let st := makeNonDegenerateInt cast E st                                            -- 360
    match checkInBounds E st.x st with                                                  -- 361
    | .error e => .error e
    | .ok st =>
      match setup E hess0 st with                                                       -- 363-383
      | .error e => .error e
      | .ok (st, fo) =>
        match loop E fuel st fo with                                                    -- 385-435
        | .error e => .error e
        | .ok st => writeHistory E st                                                   -- 437-443

end Fides
