import Mathlib.Algebra.Order.Field.Power
import Mathlib.Data.Rat.Floor
import Mathlib.Data.Rat.Cast.Order
import Mathlib.Algebra.Order.Ring.Abs
import Verif.Model.Basic

/-!
# Floating point sample types

The code computes with `float` (`std::vector<float>`, `F4Vector`, pandaresampler.cc; `DataType` is `float` in
hiir/Upsampler2xFpu.h:39). A sample is a rational number or "not a number" (all infinities and NaNs are identified; the sign
of zero is not modelled). Every operation is computed exactly and then rounded; results that do not fit become `none`.
-/

namespace Panda

/-- A floating point format: how results are rounded and which ones are representable. (the type `float` of pandaresampler.hh:197 and the rest of the code) -/
structure Format where
  rnd : ℚ → ℚ
  fits : ℚ → Bool

/-- Floating point numbers of a format. (the type `float` of pandaresampler.hh:197 and the rest of the code) -/
def Fl (_ : Format) : Type := Option ℚ

namespace Fl

variable {S : Format}

/-- The finite number `q`. (literals as in pandaresampler.cc:515) -/
def fin (q : ℚ) : Fl S := some q

/-- Rounded result of an operation. (operations as in pandaresampler.cc:515) -/
def mk (S : Format) (q : ℚ) : Fl S := if S.fits (S.rnd q) then some (S.rnd q) else none

/-- An operation: not a number if an operand is not. (operations as in pandaresampler.cc:515) -/
def op (f : ℚ → ℚ → ℚ) (a b : Fl S) : Fl S :=
  match a, b with
  | some x, some y => mk S (f x y)
  | _, _ => none

instance : Zero (Fl S) := ⟨some 0⟩
instance : One (Fl S) := ⟨some 1⟩
instance : Add (Fl S) := ⟨op (· + ·)⟩
instance : Sub (Fl S) := ⟨op (· - ·)⟩
instance : Mul (Fl S) := ⟨op (· * ·)⟩
/-- `0.5f` is exact; conversions from `double` round. -/
instance : Sample (Fl S) := ⟨some (1 / 2), mk S⟩
instance : DecidableEq (Fl S) := inferInstanceAs (DecidableEq (Option ℚ))

end Fl

/-- Nearest integer, ties to even. (operations as in pandaresampler.cc:515) -/
def rne (q : ℚ) : ℤ :=
  let f := ⌊q⌋
  if q - f < 1 / 2 then f else if 1 / 2 < q - f then f + 1 else if f % 2 = 0 then f else f + 1

/-- The integer part of the binary logarithm of `|q|` (`q ≠ 0`). (operations as in pandaresampler.cc:515) -/
def ilog2 (q : ℚ) : ℤ :=
  let e : ℤ := (Nat.log2 q.num.natAbs : ℤ) - (Nat.log2 q.den : ℤ)
  if (2 : ℚ) ^ e ≤ |q| then e else e - 1

/-- Exponent of the last place of the binary32 number next to `q`: 24 bits of precision, subnormals below `2^-126`. (operations as in pandaresampler.cc:515) -/
def ulpExp (q : ℚ) : ℤ := max (ilog2 q - 23) (-149)

/-- IEEE 754 binary32, round to nearest, ties to even; without the limit on the exponent. (operations as in pandaresampler.cc:515) -/
def rnd32 (q : ℚ) : ℚ := if q = 0 then 0 else (rne (q / 2 ^ ulpExp q) : ℤ) * 2 ^ ulpExp q

/-- binary32. (`float`, pandaresampler.hh:197) -/
def binary32 : Format := { rnd := rnd32, fits := fun q => decide (|q| < 2 ^ 128) }

end Panda
