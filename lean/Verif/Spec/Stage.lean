import Verif.Spec.Fir
import Verif.Spec.Iir
import Verif.Model.Basic

/-!
# Input/output relations of resampler stages and cascades

A relation between everything fed into a resampler since it was created or reset (`xs`) and everything it
produced (`ys`); no reference to the model of the code, except for the constants of the sample type.
-/

namespace Panda

variable {F : Type} [Zero F] [One F] [Add F] [Sub F] [Mul F] [Sample F]

/-- A factor 2 stage. `vec` / `sse` select the vectorised variants. -/
inductive Stage (F : Type) where
  | firUp (vec : Bool) (taps : List F)
  | firDown (vec : Bool) (taps : List F)
  | iirUp (sse : Bool) (coefs : List F)
  | iirDown (sse : Bool) (coefs : List F)

/-- A list as a sequence, continued by zeros. -/
def seq (xs : List F) : Nat → F := fun i => xs.getD i 0

/-- Even-indexed elements of a sequence. -/
def evens (x : Nat → F) : Nat → F := fun i => x (2 * i)

/-- Odd-indexed elements of a sequence. -/
def odds (x : Nat → F) : Nat → F := fun i => x (2 * i + 1)

/-- Output of polyphase branch 1 (odd-indexed coefficients). The SSE variant of a filter with an odd number of
coefficients has one more section, with coefficient 1. -/
def iirBranch1 (sse : Bool) (nc : Nat) (c : Nat → F) (x : Nat → F) : Nat → F :=
  if sse = true ∧ nc % 2 = 1 then allpass 1 (branchOut nc c 1 x) else branchOut nc c 1 x

/-- `ys` is what the stage may output for the input `xs`.

* FIR up: output `2m` is the dot product of the taps with `order` consecutive samples of the zero-padded input
  starting at `m`; output `2m+1` is the padded input sample `m + order/2`.
* FIR down: output `m` is the dot product for the even-indexed samples plus one half times the odd-indexed
  (padded) sample `m + order/2 - 1`.
* IIR up: output `2m`, `2m+1` are the outputs of the two all-pass branches.
* IIR down: output `m` is the mean of branch 0 applied to the odd-indexed and branch 1 applied to the
  even-indexed samples. -/
def Stage.Rel (s : Stage F) (xs ys : List F) : Prop :=
  match s with
  | .firUp vec t =>
    ys.length = 2 * xs.length ∧
    ∀ m < xs.length,
      FirVal vec (seq t) t.length (padded t.length (seq xs)) (xs.length + (t.length - 1)) m (seq ys (2 * m)) ∧
      seq ys (2 * m + 1) = padded t.length (seq xs) (m + t.length / 2)
  | .firDown vec t =>
    xs.length = 2 * ys.length ∧
    ∀ m < ys.length, ∃ v,
      FirVal vec (seq t) t.length (padded t.length (evens (seq xs))) (ys.length + (t.length - 1)) m v ∧
      seq ys m = v + Sample.half * padded t.length (odds (seq xs)) (m + (t.length / 2 - 1))
  | .iirUp sse c =>
    ys.length = 2 * xs.length ∧
    ∀ m < xs.length,
      seq ys (2 * m) = branchOut c.length (seq c) 0 (seq xs) m ∧
      seq ys (2 * m + 1) = iirBranch1 sse c.length (seq c) (seq xs) m
  | .iirDown sse c =>
    xs.length = 2 * ys.length ∧
    ∀ m < ys.length,
      seq ys m =
        if sse then
          (iirBranch1 sse c.length (seq c) (evens (seq xs)) m + branchOut c.length (seq c) 0 (odds (seq xs)) m)
            * Sample.half
        else
          Sample.half * (branchOut c.length (seq c) 0 (odds (seq xs)) m
            + iirBranch1 sse c.length (seq c) (evens (seq xs)) m)

/-- Stages applied one after the other. -/
def CascadeRel : List (Stage F) → List F → List F → Prop
  | [], xs, ys => ys = xs
  | s :: ss, xs, zs => ∃ ys, s.Rel xs ys ∧ CascadeRel ss ys zs

end Panda
