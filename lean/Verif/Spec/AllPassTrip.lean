import Verif.Spec.Iir

/-!
# A chain of allpass sections
-/

namespace Panda

/-- First order allpass filters with the coefficients `l`, one after the other, all at the same rate. -/
def allpassChain {F : Type} [Zero F] [Add F] [Sub F] [Mul F] (l : List F) (x : Nat → F) : Nat → F :=
  l.foldl (fun x a => allpass a x) x

end Panda
