import Verif.Model.InPlace
import Verif.Proofs.Stage

/-!
# Histories of a hiir downsampler

Which states a `Downsampler2xFpu` / `Downsampler2xSse` object can be in after any calls of its member functions, together with
the input samples it has processed since construction or the last `clear_buffers`.
-/

namespace Panda

variable {F : Type} [Zero F] [One F] [Add F] [Sub F] [Mul F] [Sample F]

/-- Histories of the FPU version. Every call gets buffers of sufficient size and at least one sample. -/
inductive FpuFilter.Reach (cs : Buf F) : FpuFilter F → List F → Prop
  | new {f} : FpuFilter.new cs = .ok f → Reach cs f []
  | block {f xs bld input ioff n o ooff f' o'} : Reach cs f xs → 0 < n → ioff + 2 * n ≤ input.len → ooff + n ≤ o.len →
      f.downBlock bld input ioff n o ooff = .ok (f', o') → Reach cs f' (xs ++ input.slice ioff (2 * n))
  | split {f xs bld input ioff n l loff h hoff f' l' h'} : Reach cs f xs → 0 < n → ioff + 2 * n ≤ input.len →
      loff + n ≤ l.len → hoff + n ≤ h.len → f.splitBlock bld input ioff n l loff h hoff = .ok (f', l', h') →
      Reach cs f' (xs ++ input.slice ioff (2 * n))
  | clear {f xs f'} : Reach cs f xs → f.clearBuffers = .ok f' → Reach cs f' []

/-- Histories of the SSE version; the object is at an address divisible by 16, the input buffers extend two samples beyond the
samples to be processed. -/
inductive SseFilter.Reach (cs : Buf F) : SseFilter F → List F → Prop
  | new {addr f} : addr % 16 = 0 → SseFilter.new addr cs = .ok f → Reach cs f []
  | block {f xs bld input ioff n o ooff f' o'} : Reach cs f xs → 0 < n → ioff + 2 * n + 2 ≤ input.len → ooff + n ≤ o.len →
      f.downBlock bld input ioff n o ooff = .ok (f', o') → Reach cs f' (xs ++ input.slice ioff (2 * n))
  | split {f xs bld input ioff n l loff h hoff f' l' h'} : Reach cs f xs → 0 < n → ioff + 2 * n + 2 ≤ input.len →
      loff + n ≤ l.len → hoff + n ≤ h.len → f.splitBlock bld input ioff n l loff h hoff = .ok (f', l', h') →
      Reach cs f' (xs ++ input.slice ioff (2 * n))
  | clear {f xs f'} : Reach cs f xs → f.clearBuffers = .ok f' → Reach cs f' []

end Panda
