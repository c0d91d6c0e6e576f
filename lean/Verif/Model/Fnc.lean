import Verif.Model.Double

/-!
# `round_int` of hiir/fnc.hpp

In `double`, with the rounding of the addition. The function is not called by the rest of the code.
-/

namespace Panda

/-- `int (q)` for a `double` that is an integer: undefined unless the `int` can represent it. (hiir/fnc.hpp:44) -/
def intOf (z : ℤ) : Res ℤ := if -2 ^ 31 ≤ z ∧ z < 2 ^ 31 then pure z else .error .convert

/-- hiir/fnc.hpp:42-45 `round_int`: `return int (floor (x + 0.5));` -/
def roundInt (x : F64) : Res ℤ :=
  match x + Fl.fin (1 / 2) with
  | some q => intOf ⌊q⌋
  | none => .error .convert

end Panda
