import Mathlib.Analysis.SpecialFunctions.Trigonometric.Basic
import Mathlib.Analysis.SpecialFunctions.Complex.Circle

/-!
# Spectra in the test programs

tests/testresampler.cc (error spectrum), tests/testsawquality.cc and tests/testdownmulti.cc: the window, the normalization and the
amplitudes printed. `float` and `double` are modelled by `ℝ`, `M_PI` by `π`, and the Fourier transform of FFTW by the sum it is documented
to compute. The size of the transform is a parameter (16384 in testresampler.cc:594, 8192 in testsawquality.cc:116 and testdownmulti.cc:40).
-/

namespace Panda.Tool

open Finset

/-- testresampler.cc:63-69, testsawquality.cc:15-21, testdownmulti.cc:11-17 `window_blackman` -/
noncomputable def windowBlackman (x : ℝ) : ℝ :=
  if |x| > 1 then 0 else 0.42 + 0.5 * Real.cos (Real.pi * x) + 0.08 * Real.cos (2.0 * Real.pi * x)

/-- `w` in the loops testresampler.cc:606, testsawquality.cc:135, testdownmulti.cc:47 -/
noncomputable def winAt (fftSize i : ℕ) : ℝ := windowBlackman ((2.0 * i - fftSize) / fftSize)

/-- testresampler.cc:71-83, testsawquality.cc:23-33 `fft`: complex value number `b` of the unnormalized transform with negative exponent. -/
noncomputable def fft (n : ℕ) (x : ℕ → ℝ) (b : ℕ) : ℂ :=
  ∑ j ∈ range n, (x j : ℂ) * Complex.exp (-(2 * Real.pi * b * j / n : ℝ) * Complex.I)

/-- testresampler.cc:604-630 `normalized_error` of value number `b` (`FFT_SIZE / 2` is an integer division). -/
noncomputable def errorSpectrum (fftSize : ℕ) (error : ℕ → ℝ) (b : ℕ) : ℝ :=
  let normalize := ∑ i ∈ range fftSize, winAt fftSize i
  let normalize := normalize / fftSize
  let out := fft fftSize (fun i => error i * winAt fftSize i) b
  let normalize := normalize * (fftSize / 2 : ℕ)
  Real.sqrt (out.re * out.re + out.im * out.im) / normalize

/-- testsawquality.cc:132-147 `amp` of value number `b`. -/
noncomputable def sawSpectrum (fftSize : ℕ) (output : ℕ → ℝ) (b : ℕ) : ℝ :=
  let normalize := ∑ i ∈ range fftSize, winAt fftSize i
  let out := fft fftSize (fun i => output i * winAt fftSize i) b
  let normalize := normalize / 2
  Real.sqrt (out.re * out.re + out.im * out.im) / normalize

/-- testdownmulti.cc:44-50: `in[i]`. -/
noncomputable def downMultiIn (fftSize ds : ℕ) (freq : ℝ) (i : ℕ) : ℝ :=
  Real.sin (i * freq / (44100 * ds) * 2 * Real.pi) * winAt fftSize i

/-- testdownmulti.cc:43-51: `normalize`. -/
noncomputable def downMultiNormalize (fftSize ds : ℕ) : ℝ := (∑ i ∈ range (fftSize * ds), winAt fftSize i) / (2 * ds)

end Panda.Tool
