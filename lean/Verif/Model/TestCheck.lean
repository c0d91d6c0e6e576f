import Mathlib.Algebra.Order.Floor.Semiring
import Mathlib.Analysis.SpecialFunctions.Log.Basic
import Mathlib.Analysis.SpecialFunctions.Trigonometric.Basic
import Verif.Model.TestHarness

/-!
# What `testresampler check` does (tests/testresampler.cc:375-590, 798-898)

Simplification: real numbers instead of `double` and `float`, exact `sin` and `log`. The samples passed to the resamplers and the
resamplers' arithmetic are exact as well (the table constants may be rounded, see `Sample`).
-/

namespace Panda.Tool

open Panda

/-- `while (phase > 2 * M_PI) phase -= 2 * M_PI` (testresampler.cc:489-490, 570-571); the number of iterations is the least `j` such that
`x - j * 2 * pi` is at most `2 * pi`. -/
noncomputable def wrap (x : ℝ) : ℝ := x - (⌈x / (2 * Real.pi)⌉₊ - 1 : ℕ) * (2 * Real.pi)

/-- `phase` or `output_phase` after `n` samples (testresampler.cc:469, 488-490, 569-571), `c` is what is added for each sample. -/
noncomputable def phase (c : ℝ) : ℕ → ℝ
  | 0 => 0
  | n + 1 => wrap (phase c n + c)

/-- The test signal (testresampler.cc:487-488). -/
noncomputable def sine (freq : ℝ) (i : ℕ) : ℝ := Real.sin (phase (freq / 44100 * 2 * Real.pi) i)

/-- testresampler.cc:514, 521, 528, 536 `freq_factor` -/
noncomputable def freqFactor : ResampleType → ℝ
  | .up => 1 / 2
  | .down => 2
  | .over => 1
  | .sub => 1

/-- testresampler.cc:516, 523, 531, 539 `correct_volume` (`44100/4` is an `int`) -/
noncomputable def volume (t : ResampleType) (freq : ℝ) : ℝ :=
  match t with
  | .up | .over => 1
  | .down | .sub => if freq < 11025 then 1 else 0

/-- testresampler.cc:513, 520, 527, 535 `sin_shift` -/
def sinShift {F : Type} (t : ResampleType) (s : St F) : Res ℚ :=
  match t with
  | .up => s.ups.delay
  | .down => s.downs.delay
  | .over => do pure ((← s.ups.delay) * (1 / 2) + (← s.downs.delay))
  | .sub => do pure ((← s.downs.delay) * 2 + (← s.ups.delay))

/-- testresampler.cc:548-554 `correct_output` for output number `k` -/
noncomputable def correct (t : ResampleType) (freq : ℝ) (shift : ℚ) (k : ℕ) : ℝ :=
  Real.sin (phase (freqFactor t * freq / 44100 * 2 * Real.pi) k - shift * 2 * freqFactor t * freq / 44100 * Real.pi) * volume t freq

/-- testresampler.cc:580-590: is the accuracy below the threshold? (In C, `log (0)` is minus infinity.) -/
def Passes (maxDiff thresholdDb : ℝ) : Prop := maxDiff = 0 ∨ ¬ 20 * Real.log maxDiff / Real.log 10 > thresholdDb

/-- Parameters of `run_accuracy` (testresampler.cc:806-807). `thr2` is twice the threshold in dB. -/
structure Check where
  type : ResampleType
  sse : Bool
  bits : ℕ
  fmin : ℕ
  fmax : ℕ
  finc : ℕ
  thr2 : ℕ
  deriving DecidableEq

/-- testresampler.cc:846-885 `check_accuracy_full`; `avail` is the result of `Resampler2::sse_available()`. -/
def checks (avail : Bool) : List Check :=
  (if avail then
    [⟨.up, true, 8, 50, 18000, 50, 2 * 44⟩, ⟨.up, true, 12, 50, 18000, 50, 133⟩, ⟨.up, true, 16, 50, 18000, 50, 2 * 89⟩,
     ⟨.up, true, 20, 50, 18000, 50, 227⟩, ⟨.up, true, 24, 50, 18000, 50, 249⟩,
     ⟨.down, true, 8, 25, 9000, 25, 2 * 50⟩, ⟨.down, true, 12, 25, 9000, 25, 2 * 72⟩, ⟨.down, true, 16, 25, 9000, 25, 2 * 95⟩,
     ⟨.down, true, 20, 25, 9000, 25, 239⟩, ⟨.down, true, 24, 25, 9000, 25, 2 * 130⟩]
   else []) ++
  [⟨.up, false, 8, 50, 18000, 50, 2 * 44⟩, ⟨.up, false, 12, 50, 18000, 50, 133⟩, ⟨.up, false, 16, 50, 18000, 50, 2 * 89⟩,
   ⟨.up, false, 20, 50, 18000, 50, 227⟩, ⟨.up, false, 24, 50, 18000, 50, 2 * 124⟩,
   ⟨.down, false, 8, 25, 9000, 25, 2 * 50⟩, ⟨.down, false, 12, 25, 9000, 25, 2 * 72⟩, ⟨.down, false, 16, 25, 9000, 25, 2 * 95⟩,
   ⟨.down, false, 20, 25, 9000, 25, 239⟩, ⟨.down, false, 24, 25, 9000, 25, 2 * 130⟩] ++
  (if avail then
    [⟨.over, true, 8, 50, 18000, 50, 2 * 44⟩, ⟨.over, true, 16, 50, 18000, 50, 2 * 89⟩, ⟨.sub, true, 16, 25, 9000, 25, 171⟩]
   else []) ++
  [⟨.over, false, 16, 50, 18000, 50, 2 * 89⟩, ⟨.sub, false, 16, 25, 9000, 25, 171⟩]

/-- testresampler.cc:466: the test frequencies (`freq_inc > 1`, testresampler.cc:446-449). All values are integers. `n` bounds the number. -/
def freqsFrom (fmax finc : ℕ) : ℕ → ℕ → List ℕ
  | 0, _ => []
  | n + 1, f => if f < fmax + 1 then f :: freqsFrom fmax finc n (f + finc) else []

/-- The test frequencies of a check. (testresampler.cc:466) -/
def Check.freqs (c : Check) : List ℕ := freqsFrom c.fmax c.finc (c.fmax + 1) c.fmin

/-- testresampler.cc:809-819: the options set by `run_accuracy`; the block size is the default (testresampler.cc:108). -/
def Check.setup (c : Check) (bld : Build) (al : Alloc) (a b d : ℕ) : Setup :=
  ⟨bld, al, c.type, findPrecisionForBits c.bits, sseAvailable bld && c.sse, 128, a, b, d⟩

/-- testresampler.cc:806-823 `run_accuracy`: the test passed. `n`: number of iterations for each frequency. -/
noncomputable def runAccuracy [Sample ℝ] (su : Setup) (c : Check) (stk : ℕ → Stack ℝ × Stack ℝ) (rand : ℕ → ℕ) (n : ℕ) : Res ℝ := do
  let as ← accuracy su stk rand (c.freqs.map fun f : ℕ => (sine f, n))
  (c.freqs.zip as).foldlM (fun m (p : ℕ × Acc ℝ) => do
    let d ← sinShift su.type p.2.s
    pure (maxDiff (fun x => x) (correct su.type p.1 d) p.2.log m)) 0

end Panda.Tool
