import Mathlib.Analysis.SpecialFunctions.Trigonometric.Basic
import Verif.Model.TestPrograms

/-!
# What testmultidelay computes (tests/testmultidelay.cc)

Simplification: real numbers instead of `double` and `float`, exact `sin`.
-/

namespace Panda.Tool

open Panda

/-- testmultidelay.cc:41-42, 50-51: the test signal -/
noncomputable def delaySig (i : ℕ) : ℝ := Real.sin (i * 1000 / 44100 * 2 * Real.pi)

/-- testmultidelay.cc:60, 68, 77: `new_rate` -/
noncomputable def newRate (dir : Dir) (ratio : ℕ) : ℝ :=
  match dir with
  | .up => 44100 * ratio
  | .down => 44100 / ratio
  | .over => 44100

/-- testmultidelay.cc:89-93: `s` -/
noncomputable def expected (dir : Dir) (ratio : ℕ) (delay : ℚ) (i : ℕ) : ℝ :=
  if 0 ≤ (i : ℝ) - delay then Real.sin ((i - delay) * 1000 / newRate dir ratio * 2 * Real.pi) else 0

/-- testmultidelay.cc:86-99: `error` after the first `n` samples of `out` -/
noncomputable def delayError (dir : Dir) (ratio : ℕ) (delay : ℚ) (out : List ℝ) : ℕ → ℝ
  | 0 => 0
  | i + 1 =>
    if (delay : ℝ) < i - delay then max (delayError dir ratio delay out i) (expected dir ratio delay i - out.getD i 0)
    else delayError dir ratio delay out i

/-- testmultidelay.cc:30-103 `Test::run`: the value returned. The arrays `in`, `out` and `tmp` are at the given addresses. -/
noncomputable def delayRun [Sample ℝ] (t : Multi) (dir : Dir) (inAddr outAddr tmpAddr : ℕ) (stk : Stack ℝ × Stack ℝ) : Res ℝ := do
  let (out, d) ← multiDelay t dir delaySig inAddr outAddr tmpAddr stk
  pure (delayError dir t.ratio d out out.length)

/-- testmultidelay.cc:108-128: the tests run if there are no arguments -/
def delayTests (bld : Build) (al : Alloc) : List (Multi × Dir) :=
  [Dir.up, .down, .over].flatMap fun dir => [2, 4, 8].flatMap fun r => [16, 20, 24].map fun p => (⟨bld, al, r, p, .fir⟩, dir)

end Panda.Tool
