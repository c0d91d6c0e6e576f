/-!
# What a FIR stage is supposed to compute

Everything here is stated about plain sequences, without reference to the model of the code.
`O` is the filter order, `t` the taps, `X` the input preceded by `O - 1` zeros.
-/

namespace Panda

variable {F : Type}

/-- `((0 + x 0 * t 0) + x 1 * t 1) + ... + x (n-1) * t (n-1)`, in this order. -/
def firScalar [Zero F] [Add F] [Mul F] (x t : Nat → F) : Nat → F
  | 0 => 0
  | n + 1 => firScalar x t n + x n * t n

/-- Tap `j - k` of an order `O` filter, zero outside the filter: the taps delayed by `k`. -/
def delayedTap [Zero F] (t : Nat → F) (O k j : Nat) : F :=
  if k ≤ j ∧ j - k < O then t (j - k) else 0

/-- Vector lane `r` (of 4): `x r * t' r + x (r+4) * t' (r+4) + ...` (`n + 1` products),
`t'` the taps delayed by `k`. -/
def firLane [Zero F] [Add F] [Mul F] (x t : Nat → F) (O k r : Nat) : Nat → F
  | 0 => x r * delayedTap t O k r
  | n + 1 => firLane x t O k r n + x (4 * (n + 1) + r) * delayedTap t O k (4 * (n + 1) + r)

/-- The vectorised evaluation order: four lanes of `(O+6)/4` products each, then summed up. -/
def firVector [Zero F] [Add F] [Mul F] (x t : Nat → F) (O k : Nat) : F :=
  firLane x t O k 0 ((O + 6) / 4 - 1) + firLane x t O k 1 ((O + 6) / 4 - 1)
    + firLane x t O k 2 ((O + 6) / 4 - 1) + firLane x t O k 3 ((O + 6) / 4 - 1)

/-- `v` is the dot product of the taps with `X m, ..., X (m+O-1)`, evaluated in one of the two orders the
library uses: term by term, or as number `k` of a vectorised group of four starting at `m - k`.
`vec` says whether the second one is allowed; it touches samples up to (excluding) `N` only. -/
def FirVal [Zero F] [Add F] [Mul F] (vec : Bool) (t : Nat → F) (O : Nat) (X : Nat → F) (N m : Nat) (v : F) : Prop :=
  v = firScalar (fun i => X (m + i)) t O ∨
  (vec = true ∧ ∃ k < 4, k ≤ m ∧ m - k + 4 * ((O + 6) / 4) ≤ N ∧ v = firVector (fun i => X (m - k + i)) t O k)

/-- A sequence preceded by `O - 1` zeros: the virtual past of a fresh filter. -/
def padded [Zero F] (O : Nat) (x : Nat → F) (k : Nat) : F :=
  if k < O - 1 then 0 else x (k - (O - 1))

end Panda
