import Verif.Model.Designer

/-!
# The test signal of tests/testsawquality.cc

`float` and `double` are modelled by `ℝ`, `M_PI` by `π`; `int` is checked for overflow.
-/

namespace Panda.Tool

open Classical Designer

/-- testsawquality.cc:124 the term added to `in[i]`. -/
noncomputable def sawTerm (freq : ℝ) (i : ℕ) (p : ℤ) : ℝ := Real.sin (freq * p * i / 48000 * 2 * Real.pi) / p

/-- testsawquality.cc:123-124: the loop `for (int p = 1; p * freq < 24000; p++)`. State: `p` and `in[i]`. -/
noncomputable def sawLoop (freq : ℝ) (i : ℕ) (s : ℤ × ℝ) : Res (ℤ × ℝ) :=
  whileU (fun s => decide (s.1 * freq < 24000)) (fun s => do
    let x := s.2 + sawTerm freq i s.1
    let p ← int32 (s.1 + 1)
    pure (p, x)) s

/-- testsawquality.cc:118, 122-124: `in[i]`. -/
noncomputable def sawSample (freq : ℝ) (i : ℕ) : Res ℝ := do
  let s ← sawLoop freq i (1, 0)
  pure s.2

end Panda.Tool
