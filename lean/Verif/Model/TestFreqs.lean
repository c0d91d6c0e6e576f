import Verif.Model.Designer
import Verif.Model.Float

/-!
# The frequencies tested by tests/testdownmulti.cc

The loop variable is a `float` (binary32, with the rounding of the addition).
-/

namespace Panda.Tool

open Designer

/-- `freq < bound` (testdownmulti.cc:99) -/
def ltFl (a b : Fl binary32) : Bool :=
  match a, b with
  | some x, some y => decide (x < y)
  | _, _ => false

/-- testdownmulti.cc:99-100: `for (float freq = 100; freq < 22050 * ds; freq += 100)`, the values of `freq` in the calls of `check_amps`. `22050 * ds`
is an `int`, converted to `float`. -/
noncomputable def downFreqs (ds : ℕ) : Res (List (Fl binary32)) := do
  let b ← int32 (22050 * ds)
  let s ← whileU (fun s : Fl binary32 × List (Fl binary32) => ltFl s.1 (Fl.mk binary32 b)) (fun s => do
    let calls := s.2 ++ [s.1]
    pure (s.1 + Fl.fin 100, calls)) (Fl.fin 100, [])
  pure s.2

end Panda.Tool
