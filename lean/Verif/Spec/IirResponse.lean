import Mathlib.Analysis.SpecialFunctions.Pow.Real
import Verif.Model.Float
import Verif.Spec.Config
import Verif.Spec.Response
import Verif.Spec.Sine

/-!
# Frequency response of IIR resamplers

Frequencies `w` are in radians per sample of the lower sample rate.
-/

namespace Panda

/-- An attenuation in dB as a factor. -/
noncomputable def atten (db : ℝ) : ℝ := (10 : ℝ) ^ (-db / 20)

/-- Constants of the source are converted exactly, or to binary32 (`float`). -/
structure Constants [Sample ℝ] (float : Bool) : Prop where
  half : (Sample.half : ℝ) = 1 / 2
  ofDouble : ∀ q : ℚ, (Sample.ofDouble q : ℝ) = if float then ((rnd32 q : ℚ) : ℝ) else (q : ℝ)

/-- Attenuation that can be relied on: the dB number of the precision, but 143 dB for the highest precision with coefficients
rounded to binary32. -/
def stopDb (float : Bool) (precision : ℕ) : ℕ := if float = true ∧ precision = 24 then 143 else 6 * precision

/-- The coefficients of the stage between sample rates `k/2` and `k`. -/
def iirCoefs [Sample ℝ] (k p : ℕ) : List ℝ := ((iirTable k p).getD ([], ⟨0, 0⟩)).1.map fun d => Sample.ofDouble d.toRat

/-- Half the difference of the phases of the branches of a stage. -/
noncomputable def stageDiff [Sample ℝ] (p : ℕ) (w : ℝ) (k : ℕ) : ℝ := iirDiff (iirCoefs k p).length (seq (iirCoefs k p)) (w / k)

/-- Phase of a stage. -/
noncomputable def stagePhase [Sample ℝ] (p : ℕ) (w : ℝ) (k : ℕ) : ℝ := iirPhase (iirCoefs k p).length (seq (iirCoefs k p)) (w / k)

/-- The stages of a resampler. -/
def iirKeys (r : ℕ) : List ℕ := [2, 4, 8].filter (· ≤ r)

/-- Gain of a resampler. -/
noncomputable def Config.response [Sample ℝ] (cfg : Config) (w : ℝ) : ℝ :=
  ((iirKeys cfg.ratio).map fun k => Real.cos (stageDiff cfg.precision w k)).prod

/-- Phase of a resampler. -/
noncomputable def Config.phase [Sample ℝ] (cfg : Config) (w : ℝ) : ℝ :=
  ((iirKeys cfg.ratio).map fun k => stagePhase cfg.precision w k).sum

/-- What becomes of a sinusoid `c cos (w i + φ)` (given by `(c, w, φ)`) in an upsampler. -/
noncomputable def Config.upTone [Sample ℝ] (cfg : Config) (a : ℝ × ℝ × ℝ) : ℝ × ℝ × ℝ :=
  (a.1 * cfg.response a.2.1, a.2.1 / cfg.ratio, a.2.2 + cfg.phase a.2.1)

/-- What becomes of a sinusoid in a downsampler (output sample `m` is computed when input sample `ratio * (m + 1) - 1` is
known). -/
noncomputable def Config.downTone [Sample ℝ] (cfg : Config) (a : ℝ × ℝ × ℝ) : ℝ × ℝ × ℝ :=
  (a.1 * cfg.response (cfg.ratio * a.2.1), cfg.ratio * a.2.1, a.2.2 + (cfg.phase (cfg.ratio * a.2.1) + (cfg.ratio - 1) * a.2.1))

/-- How large images of the pass band can be after upsampling, in units of the attenuation of a stage. -/
noncomputable def imageFactor (r : ℕ) : ℝ := if r = 1 then 0 else if r = 2 then 1 else if r = 4 then 5 / 2 else 19 / 4

end Panda
