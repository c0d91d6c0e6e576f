import Mathlib.Data.Real.Basic

/-!
# What a spectrum with a Blackman window shows of a sine wave
-/

namespace Panda.Spec

/-- Amplitude shown at a distance of `d` values from the frequency of a sine wave with amplitude 1. -/
noncomputable def lobe (d : ℤ) : ℝ := if d = 0 then 1 else if |d| = 1 then 25 / 42 else if |d| = 2 then 2 / 21 else 0

end Panda.Spec
