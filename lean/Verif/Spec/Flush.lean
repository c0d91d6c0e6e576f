import Mathlib.Tactic.Linarith
import Verif.Model.Float
import Verif.Model.Resampler

/-!
# Formats without subnormal numbers, and how long IIR filters take to get silent in them
-/

namespace Panda

/-- A format for numbers of at least 24 bits without subnormal numbers: results are zero or at least `2^-126`, with a relative error that
is not above `2^-22` unless they become zero. -/
structure Flushing (S : Format) : Prop where
  grows : ∀ q, |S.rnd q| ≤ (1 + 2⁻¹ ^ 22) * |q|
  flushed : ∀ q, S.rnd q = 0 ∨ 2⁻¹ ^ 126 ≤ |S.rnd q|
  fits : ∀ q, |q| ≤ 2 ^ 120 → S.fits q = true

/-- A bound for the coefficient of a section, in 1024th. -/
def milliCoef (d : Dec) : ℕ := ⌊d.toRat * 1024⌋₊ + 1

/-- Samples after which a section without input has at most half its level. -/
def halfTime (d : Dec) : ℕ := ((List.range 64).find? fun m => decide (milliCoef d ^ m * 2 ≤ 1024 ^ m)).getD 0

/-- Samples after which a section of level up to `2^110` without input is below `2^-126`. -/
def dieTime (d : Dec) : ℕ := 237 * halfTime d

/-- Samples (of the lower rate) for the sections of branch `b` of a stage with the coefficients `t`, one after the other. -/
def branchTime (t : List Dec) (b : ℕ) : ℕ := ((List.range ((t.length + 1 - b) / 2)).map fun i => dieTime (t.getD (2 * i + b) ⟨0, 0⟩)).sum

/-- Samples (of the lower rate) for a stage with the coefficients `t`. -/
def stageTime (t : List Dec) : ℕ := max (branchTime t 0) (branchTime t 1)

/-- Input samples for a resampler with the stages `ts` (in the order in which they are used). -/
def silenceTime (m : Mode) : List (List Dec) → ℕ
  | [] => 0
  | t :: ts => match m with
    | .up => stageTime t + (silenceTime m ts + 1) / 2
    | .down => 2 * stageTime t + 1 + 2 * silenceTime m ts + 1

end Panda
