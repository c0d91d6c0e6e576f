import Mathlib.Analysis.SpecialFunctions.Trigonometric.Basic
import Verif.Model.Tables

/-!
# The FIR filter design scripts (filter-design/us_sinc.m, filter-design/mkfir.sh)

The scripts run in Octave with the `signal` package. `double` is modelled by `ℝ`. The function `ultrwin` belongs to the package, it is not
part of the repository: it is a parameter here (`win`), and `Verif.Spec.Ultraspherical` says what it computes.
-/

namespace Panda.FirDesign

/-- `sinc` of Octave, used in us_sinc.m:2 -/
noncomputable def octSinc (x : ℝ) : ℝ := if x = 0 then 1 else Real.sin (Real.pi * x) / (Real.pi * x)

/-- us_sinc.m:2 `c = sinc([-n:n]*0.5) .* ultrwin(n*2+1,xmu,att,"latt")' / 2`, the element number `i` of `0 … 2 n`; `win` is the window.
The other lines of us_sinc.m only write a file for plotting. -/
noncomputable def usSinc (n : ℕ) (win : ℕ → ℝ) (i : ℕ) : ℝ := octSinc (((i : ℝ) - n) * 0.5) * win i / 2

/-- mkfir.sh:23 `awk '$1 != "#" && NF > 0 { if (n++ % 2 == 1) print … }'`: the printed element number `j`: the elements 1, 3, 5, … of `c` -/
noncomputable def mkfirCoef (n : ℕ) (win : ℕ → ℝ) (j : ℕ) : ℝ := usSinc n win (2 * j + 1)

/-- The arguments of the shell function `mkfir`: mkfir.sh:3-9 -/
structure Call where
  stage : ℕ
  bits : ℕ
  n : ℕ
  /-- The argument `latt` in quarters of a decibel -/
  latt4 : ℕ

/-- mkfir.sh:8 `xmu="0.75"` -/
noncomputable def xmu : ℝ := 0.75

/-- The argument `latt` in decibels. (mkfir.sh:3-9) -/
noncomputable def Call.latt (c : Call) : ℝ := c.latt4 / 4

/-- mkfir.sh:40-58: all calls of `mkfir` -/
def calls : List Call := [
  ⟨2, 24, 52, 4 * 138⟩,
  ⟨4, 24, 16, 4 * 136⟩,
  ⟨8, 24, 12, 4 * 136⟩,
  ⟨2, 20, 42, 4 * 113 + 3⟩,
  ⟨4, 20, 14, 4 * 113 + 3⟩,
  ⟨8, 20, 10, 4 * 113 + 3⟩,
  ⟨2, 16, 32, 4 * 88 + 2⟩,
  ⟨4, 16, 10, 4 * 86 + 2⟩,
  ⟨8, 16, 8, 4 * 88 + 2⟩,
  ⟨2, 12, 24, 4 * 67 + 2⟩,
  ⟨4, 12, 8, 4 * 67 + 2⟩,
  ⟨8, 12, 6, 4 * 67 + 2⟩,
  ⟨2, 8, 16, 4 * 48⟩,
  ⟨4, 8, 6, 4 * 46⟩,
  ⟨8, 8, 4, 4 * 42⟩]

end Panda.FirDesign
