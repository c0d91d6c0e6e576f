import Mathlib.Algebra.BigOperators.Intervals
import Mathlib.Algebra.BigOperators.Ring.Finset
import Verif.Spec.Stage

/-!
# What the stages compute in exact arithmetic

Operators on sequences over a commutative ring; written down without reference to the model of the code. The constants
`Sample.half` and the taps may be anything (in particular taps rounded to `float`).
-/

namespace Panda

open Finset

variable {K : Type} [CommRing K]

/-- A signal that starts at time 0, as a function of all integer times. -/
def zext (x : ℕ → K) (z : ℤ) : K := if 0 ≤ z then x z.toNat else 0

/-- FIR interpolation by 2 with taps `t` (of length `O`): `y[2m] = ∑ t[i] x[m-(O-1)+i]`, `y[2m+1] = x[m-(O-1)+O/2]`. -/
def firUpOp (O : ℕ) (t x : ℕ → K) (n : ℕ) : K :=
  if n % 2 = 0 then ∑ i ∈ range O, t i * zext x ((n / 2 : ℕ) - ((O : ℤ) - 1) + i)
  else zext x ((n / 2 : ℕ) - ((O : ℤ) - 1) + (O / 2 : ℕ))

/-- FIR decimation by 2: `y[m] = ∑ t[i] x[2(m-(O-1)+i)] + h x[2(m-(O-1)+O/2-1)+1]`. -/
def firDownOp (O : ℕ) (t : ℕ → K) (h : K) (x : ℕ → K) (m : ℕ) : K :=
  ∑ i ∈ range O, t i * zext x (2 * (m - ((O : ℤ) - 1) + i)) + h * zext x (2 * (m - ((O : ℤ) - 1) + (O / 2 : ℕ) - 1) + 1)

/-- IIR interpolation by 2: the two all-pass branches alternate. -/
def iirUpOp (nc : ℕ) (c x : ℕ → K) (n : ℕ) : K := branchOut nc c (n % 2) x (n / 2)

/-- IIR decimation by 2: `h` times the sum of the two branches. -/
def iirDownOp (nc : ℕ) (c : ℕ → K) (h : K) (x : ℕ → K) (m : ℕ) : K :=
  h * (branchOut nc c 0 (odds x) m + branchOut nc c 1 (evens x) m)

variable [Sample K]

/-- What a stage computes. -/
def Stage.op : Stage K → (ℕ → K) → ℕ → K
  | .firUp _ t => firUpOp t.length (seq t)
  | .firDown _ t => firDownOp t.length (seq t) Sample.half
  | .iirUp _ c => iirUpOp c.length (seq c)
  | .iirDown _ c => iirDownOp c.length (seq c) Sample.half

/-- Stages one after the other. -/
def cascadeOp : List (Stage K) → (ℕ → K) → ℕ → K
  | [], x => x
  | s :: ss, x => cascadeOp ss (s.op x)

end Panda
