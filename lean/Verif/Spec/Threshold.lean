import Mathlib.Analysis.SpecialFunctions.Pow.Real
import Verif.Model.Resampler

/-!
# The thresholds of the accuracy tests (tests/testresampler.cc:846-885 `check_accuracy_full`)
-/

namespace Panda

/-- Twice the threshold in dB, by mode, precision in bits and whether SSE is tested (tests/testresampler.cc:851-874). -/
def testDb2 (sse : Bool) : Mode → ℕ → ℕ
  | .up, 8 => 2 * 44
  | .up, 12 => 133
  | .up, 16 => 2 * 89
  | .up, 20 => 227
  | .up, _ => if sse then 249 else 2 * 124
  | .down, 8 => 2 * 50
  | .down, 12 => 2 * 72
  | .down, 16 => 2 * 95
  | .down, 20 => 239
  | .down, _ => 2 * 130

/-- Twice the threshold in dB for oversampling, by precision in bits; only 8 and 16 bits are tested (tests/testresampler.cc:879-880, 883). -/
def overDb2 : ℕ → ℕ
  | 8 => 2 * 44
  | _ => 2 * 89

/-- Twice the threshold in dB for subsampling with 16 bits, the only precision tested (tests/testresampler.cc:881, 884). -/
def subDb2 : ℕ := 171

/-- The level `- d / 2` dB as a factor. The tests compare `20 log10` of the largest error with the threshold
(tests/testresampler.cc:576-590). -/
noncomputable def level (d : ℕ) : ℝ := 10 ^ (-(d : ℝ) / 40)

/-- Largest frequency of the tests: 18 kHz of 44.1 kHz for upsampling, 9 kHz of 44.1 kHz for downsampling, in radians per sample. -/
noncomputable def testEdge : Mode → ℝ
  | .up => 40 * Real.pi / 49
  | .down => 20 * Real.pi / 49

end Panda
