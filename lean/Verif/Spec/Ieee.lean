import Mathlib.Algebra.Order.Field.Rat
import Mathlib.Algebra.Order.Ring.Abs

/-!
# IEEE 754: round to nearest, ties to even
-/

namespace Panda.Spec

/-- A number with a significand of `p` bits, and an exponent of at least `emin` (for the last bit). -/
def Representable (p : ℕ) (emin : ℤ) (y : ℚ) : Prop := ∃ m e : ℤ, |m| < 2 ^ p ∧ emin ≤ e ∧ y = m * 2 ^ e

/-- The last one of the `p` bits is 0. -/
def EvenSig (p : ℕ) (emin : ℤ) (y : ℚ) : Prop := ∃ m e : ℤ, |m| < 2 ^ p ∧ emin ≤ e ∧ m % 2 = 0 ∧ y = m * 2 ^ e

/-- `r` is `q` rounded: the nearest representable number, and the one with an even significand if there are two. -/
def Rounds (p : ℕ) (emin : ℤ) (q r : ℚ) : Prop :=
  Representable p emin r ∧ ∀ y, Representable p emin y → |r - q| ≤ |y - q| ∧ (y ≠ r → |r - q| = |y - q| → EvenSig p emin r)

end Panda.Spec
