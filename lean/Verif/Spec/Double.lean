import Mathlib.Algebra.Order.Field.Rat
import Mathlib.Algebra.Order.Ring.Abs

/-!
# The finite numbers of IEEE 754 binary64
-/

namespace Panda.Spec

/-- A significand of 53 bits, exponents from -1074 to 971. -/
def IsDouble (y : ℚ) : Prop := ∃ m e : ℤ, |m| < 2 ^ 53 ∧ -1074 ≤ e ∧ e ≤ 971 ∧ y = m * 2 ^ e

/-- `n` is the integer nearest to `x`, and the larger one of two that are equally near. -/
def NearestInt (n : ℤ) (x : ℚ) : Prop := ∀ k : ℤ, |(n : ℚ) - x| ≤ |(k : ℚ) - x| ∧ (|(n : ℚ) - x| = |(k : ℚ) - x| → k ≤ n)

end Panda.Spec
