import Mathlib.Analysis.Calculus.Deriv.Basic
import Mathlib.Analysis.SpecialFunctions.Log.Base
import Mathlib.Analysis.SpecialFunctions.Trigonometric.Basic

/-!
# The ultraspherical window

The window with the parameters `mu` and `x` of length `2 n + 1` is the one whose transform is the Gegenbauer (ultraspherical) polynomial
of degree `2 n` at `x cos (ω / 2)`. Its side lobes belong to the arguments below 1 of the polynomial; the one which is measured by the option
`"latt"` belongs to the smallest positive extremum of the polynomial, the last one below half of the sampling frequency.
-/

namespace Panda.FirDesign

/-- Gegenbauer polynomial `C_m^{(mu)} (x)` -/
noncomputable def gegen (mu : ℝ) : ℕ → ℝ → ℝ
  | 0, _ => 1
  | 1, x => 2 * mu * x
  | m + 2, x => (2 * (m + 1 + mu) * x * gegen mu (m + 1) x - (m + 2 * mu) * gegen mu m x) / (m + 2)

/-- `y` is the smallest positive extremum of the polynomial of degree `2 n`, that is the smallest positive zero of its derivative. -/
def LastLobe (n : ℕ) (mu y : ℝ) : Prop :=
  0 < y ∧ deriv (gegen mu (2 * n)) y = 0 ∧ ∀ z, 0 < z → z < y → deriv (gegen mu (2 * n)) z ≠ 0

/-- Parameter `x` of the window which attenuates the last side lobe by `latt` decibels (relative to the frequency 0) -/
def Atten (n : ℕ) (mu latt x : ℝ) : Prop :=
  1 ≤ x ∧ ∃ y, LastLobe n mu y ∧ 20 * Real.logb 10 (gegen mu (2 * n) x / |gegen mu (2 * n) y|) = latt

/-- `win 0, …, win (2 n)` is the ultraspherical window with the parameters `mu` and `x`, with the value 1 in the middle. -/
structure IsUltraspherical (n : ℕ) (mu x : ℝ) (win : ℕ → ℝ) : Prop where
  /-- even -/
  symm : ∀ i ≤ 2 * n, win (2 * n - i) = win i
  /-- 1 in the middle -/
  one : win n = 1
  /-- the frequency response of the window (relative to its middle) at the frequency `ω`, up to a constant factor -/
  response : ∃ c : ℝ, ∀ ω : ℝ,
    ∑ i ∈ Finset.range (2 * n + 1), win i * Real.cos (((i : ℝ) - n) * ω) = c * gegen mu (2 * n) (x * Real.cos (ω / 2))

/-- `win` is the result of `ultrwin (2 n + 1, mu, latt, "latt")`. -/
def IsUltrwin (n : ℕ) (mu latt : ℝ) (win : ℕ → ℝ) : Prop := ∃ x, Atten n mu latt x ∧ IsUltraspherical n mu x win

end Panda.FirDesign
