import Mathlib.Analysis.SpecialFunctions.Trigonometric.Basic

/-!
# Sums of sinusoids
-/

namespace Panda

/-- The signal `∑ c cos (w s + p)` at time `s`, over a list of amplitudes, frequencies and phases `(c, w, p)`. -/
noncomputable def tones (L : List (ℝ × ℝ × ℝ)) (s : ℝ) : ℝ := (L.map fun a => a.1 * Real.cos (a.2.1 * s + a.2.2)).sum

/-- Sum of the amplitudes. -/
noncomputable def amps (L : List (ℝ × ℝ × ℝ)) : ℝ := (L.map fun a => |a.1|).sum

end Panda
