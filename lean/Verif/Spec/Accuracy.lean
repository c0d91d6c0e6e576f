import Mathlib.Algebra.Order.Field.Basic
import Mathlib.Algebra.Order.Ring.Abs
import Mathlib.Data.Rat.Cast.Order
import Verif.Spec.Config

/-!
# Constants that are accurate, and numbers computed from the coefficient tables
-/

namespace Panda

/-- `0.5f` is one half and conversions have a relative error of at most `2^-24` (as conversions to binary32 in the
normal range have; exact constants qualify as well). -/
class Accurate (K : Type) [Field K] [LinearOrder K] [IsStrictOrderedRing K] [Sample K] : Prop where
  half : (Sample.half : K) = 1 / 2
  ofDouble : ∀ q : ℚ, |Sample.ofDouble q - (q : K)| ≤ 2⁻¹ ^ 24 * |(q : K)|

/-- Twice the sum of the absolute values of the coefficients. -/
def absSum (t : List Dec) : ℚ := (t.map fun d => |d.toRat * 2|).sum

/-- Twice the sum of the coefficients. -/
def dcSum (t : List Dec) : ℚ := (t.map fun d => d.toRat * 2).sum

/-- Bound for the gain of a FIR stage. -/
def stageGain (m : Mode) (t : List Dec) : ℚ :=
  match m with
  | .up => max 1 ((1 + 2⁻¹ ^ 24) * absSum t)
  | .down => (1 + 2⁻¹ ^ 24) * absSum t / 2 + 1 / 2

/-- Bound for the DC error of a FIR stage. -/
def stageErr (m : Mode) (t : List Dec) : ℚ :=
  match m with
  | .up => |dcSum t - 1| + 2⁻¹ ^ 24 * absSum t
  | .down => (|dcSum t - 1| + 2⁻¹ ^ 24 * absSum t) / 2

/-- The FIR tables of the stages, in the order of the signal path. -/
def Config.tables (cfg : Config) : List (List Dec) :=
  (match cfg.mode with
  | .up => [2, 4, 8].filter (· ≤ cfg.ratio)
  | .down => [8, 4, 2].filter (· ≤ cfg.ratio)).map fun k => (firTable k cfg.precision).getD []

/-- Bound for the gain of a FIR resampler. -/
def Config.gain (cfg : Config) : ℚ := (cfg.tables.map (stageGain cfg.mode)).prod

/-- Bound for the relative error of constant signals. -/
def Config.dcErr (cfg : Config) : ℚ := cfg.tables.foldl (fun δ t => stageGain cfg.mode t * δ + stageErr cfg.mode t) 0

end Panda
