import Verif.Model.Iir

/-!
# hiir `process_block` with overlapping buffers

"Input and output blocks may overlap, see assert() for details." Here input and output are parts of one array `m`;
pointers are offsets into it. The code is the same as in `Verif.Model.Iir`, but reads see the samples already written.
-/

namespace Panda

variable {F : Type} [Zero F] [One F] [Add F] [Sub F] [Mul F] [Sample F]

/-- Upsampler2xFpuTpl.hpp:120-139 `process_block`, with the assert about overlap. -/
def FpuFilter.upBlockMem (bld : Build) (f : FpuFilter F) (m : Buf F) (ioff nbrSpl ooff : Nat) : Res (FpuFilter F × Buf F) := do
  bld.assert (ooff ≥ ioff + nbrSpl || ioff ≥ ooff + nbrSpl)
  bld.assert (nbrSpl > 0)
  doWhileN (fun pos (s : FpuFilter F × Buf F) => do
    let (o0, o1, f) ← s.1.upSample (← s.2.rd (ioff + pos))
    let m ← s.2.wr (ooff + pos * 2) o0
    let m ← m.wr (ooff + (pos * 2 + 1)) o1
    pure (f, m)) nbrSpl (f, m)

/-- Downsampler2xFpuTpl.hpp:118-133 `process_block`, with the assert about overlap. -/
def FpuFilter.downBlockMem (bld : Build) (f : FpuFilter F) (m : Buf F) (ioff nbrSpl ooff : Nat) : Res (FpuFilter F × Buf F) := do
  bld.assert (ooff ≤ ioff || ooff ≥ ioff + nbrSpl * 2)
  bld.assert (nbrSpl > 0)
  doWhileN (fun pos (s : FpuFilter F × Buf F) => do
    let in1 ← s.2.rd (ioff + (pos * 2 + 1))
    let in0 ← s.2.rd (ioff + pos * 2)
    let (o, f) ← s.1.downSample in0 in1
    let m ← s.2.wr (ooff + pos) o
    pure (f, m)) nbrSpl (f, m)

/-- Downsampler2xFpuTpl.hpp:199-221 `process_block_split`, with the asserts about overlap. -/
def FpuFilter.splitBlockMem (bld : Build) (f : FpuFilter F) (m : Buf F) (ioff nbrSpl loff hoff : Nat) :
    Res (FpuFilter F × Buf F) := do
  bld.assert (loff ≤ ioff || loff ≥ ioff + nbrSpl * 2)
  bld.assert (hoff ≤ ioff || hoff ≥ ioff + nbrSpl * 2)
  bld.assert (hoff ≠ loff)
  bld.assert (nbrSpl > 0)
  doWhileN (fun pos (s : FpuFilter F × Buf F) => do
    let in1 ← s.2.rd (ioff + (pos * 2 + 1))
    let in0 ← s.2.rd (ioff + pos * 2)
    let (l, h, f) ← s.1.splitSample in0 in1
    let m ← s.2.wr (loff + pos) l
    let m ← m.wr (hoff + pos) h
    pure (f, m)) nbrSpl (f, m)

/-- Upsampler2xSse.hpp:139-158 `process_block`, with the assert about overlap. -/
def SseFilter.upBlockMem (bld : Build) (f : SseFilter F) (m : Buf F) (ioff nbrSpl ooff : Nat) : Res (SseFilter F × Buf F) := do
  bld.assert (ooff ≥ ioff + nbrSpl || ioff ≥ ooff + nbrSpl)
  bld.assert (nbrSpl > 0)
  forN (fun pos (s : SseFilter F × Buf F) => do
    let v ← s.2.rd (ioff + pos)
    let (x, mem) ← stageProcSsePos s.1.addr s.1.coef (nbrStages s.1.nbrCoefs) ⟨v, v, v, v⟩ s.1.mem
    let m ← s.2.wr (ooff + pos * 2) x.x1
    let m ← m.wr (ooff + (pos * 2 + 1)) x.x0
    pure ({ s.1 with mem := mem }, m)) nbrSpl (f, m)

/-- Downsampler2xSse.hpp:137-154 `process_block`, with the assert about overlap. -/
def SseFilter.downBlockMem (bld : Build) (f : SseFilter F) (m : Buf F) (ioff nbrSpl ooff : Nat) : Res (SseFilter F × Buf F) := do
  bld.assert (ooff ≤ ioff || ooff ≥ ioff + nbrSpl * 2)
  bld.assert (nbrSpl > 0)
  forN (fun pos (s : SseFilter F × Buf F) => do
    let x ← s.2.ld4u (ioff + pos * 2)
    let (x, mem) ← stageProcSsePos s.1.addr s.1.coef (nbrStages s.1.nbrCoefs) x s.1.mem
    let m ← s.2.wr (ooff + pos) ((x.x0 + x.x1) * Sample.half)
    pure ({ s.1 with mem := mem }, m)) nbrSpl (f, m)

/-- Downsampler2xSse.hpp:215-238 `process_block_split`, with the asserts about overlap. -/
def SseFilter.splitBlockMem (bld : Build) (f : SseFilter F) (m : Buf F) (ioff nbrSpl loff hoff : Nat) :
    Res (SseFilter F × Buf F) := do
  bld.assert (loff ≤ ioff || loff ≥ ioff + nbrSpl * 2)
  bld.assert (hoff ≤ ioff || hoff ≥ ioff + nbrSpl * 2)
  bld.assert (hoff ≠ loff)
  bld.assert (nbrSpl > 0)
  forN (fun pos (s : SseFilter F × Buf F) => do
    let x ← s.2.ld4u (ioff + pos * 2)
    let (x, mem) ← stageProcSsePos s.1.addr s.1.coef (nbrStages s.1.nbrCoefs) x s.1.mem
    let m ← s.2.wr (loff + pos) (x.x1 * Sample.half + x.x0 * Sample.half)
    let m ← m.wr (hoff + pos) (x.x1 * Sample.half - x.x0 * Sample.half)
    pure ({ s.1 with mem := mem }, m)) nbrSpl (f, m)

end Panda
