import Verif.Model.InPlaceApi

/-!
# `Resampler2::process_block` called with two pointers into one array
-/

namespace Panda

variable {F : Type} [Zero F] [One F] [Add F] [Sub F] [Mul F] [Sample F]

/-- pandaresampler.hh:195-251 `process_block (m + ioff, n_input_samples, m + ooff)`: as `Resampler.processInPlace`, with any
two offsets. `std::copy` of line 204 copies from the first sample to the last. -/
def Resampler.processShared (bld : Build) (st : Stack F) (r : Resampler F) (m : Buf F) (ioff n ooff : Nat) :
    Res (Resampler F × Buf F) :=
  if r.ratio = 2 then do
    let (i2, m) ← (← deref r.implX2).processBlockMem bld st m ioff n ooff
    pure ({ r with implX2 := some i2 }, m)
  else if r.ratio = 1 then do
    let m ← forN (fun i (m : Buf F) => do m.wr (ooff + i) (← m.rd (ioff + i))) n m
    pure (r, m)
  else do
    let s ← whileF (fun s : RLoop F => s.n ≠ 0) (fun s => Resampler.loopBody bld st s.output s) n
      { r := r, n := n, ioff := ioff, output := m, ooff := ooff }
    pure (s.r, s.output)

end Panda
