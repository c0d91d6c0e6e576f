import Mathlib.Analysis.SpecialFunctions.Trigonometric.Arctan
import Verif.Spec.Iir

/-!
# Phase response of all-pass sections

Stated without reference to the model of the code. Angles are in radians per sample.
-/

namespace Panda

/-- Phase by which a section with coefficient `a` turns a sinusoid of frequency `θ`: the argument of
`(a + e^{-iθ}) / (1 + a e^{-iθ})`, as a continuous function. -/
noncomputable def apPhase (a θ : ℝ) : ℝ := 2 * Real.arctan (a * Real.sin θ / (1 + a * Real.cos θ)) - θ

/-- Phase of the first `j` sections of branch `b` with the coefficients `c b, c (b + 2), …`. -/
noncomputable def branchPhase (c : ℕ → ℝ) (b : ℕ) (θ : ℝ) : ℕ → ℝ
  | 0 => 0
  | j + 1 => branchPhase c b θ j + apPhase (c (2 * j + b)) θ

/-- Phase of branch `b` of a filter with `nc` coefficients. -/
noncomputable def branchOutPhase (nc : ℕ) (c : ℕ → ℝ) (b : ℕ) (θ : ℝ) : ℝ := branchPhase c b θ (branchLen nc b)

/-- Half the difference of the phases of the two branches, the second one delayed by a sample of the higher rate, at `v`
radians per sample of the higher rate. The half band filter has gain `cos`, its mirror image (at `v + π`) `-sin` of it. -/
noncomputable def iirDiff (nc : ℕ) (c : ℕ → ℝ) (v : ℝ) : ℝ :=
  (branchOutPhase nc c 0 (2 * v) - branchOutPhase nc c 1 (2 * v) + v) / 2

/-- Phase of the half band filter. -/
noncomputable def iirPhase (nc : ℕ) (c : ℕ → ℝ) (v : ℝ) : ℝ :=
  (branchOutPhase nc c 0 (2 * v) + branchOutPhase nc c 1 (2 * v) - v) / 2

end Panda
