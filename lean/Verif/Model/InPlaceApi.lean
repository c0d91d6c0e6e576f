import Verif.Model.InPlace
import Verif.Model.Resampler

/-!
# `Resampler2::process_block` called with `output == input`

Neither the header nor the implementation says whether the output block may be the input block. Here both are one
array `m`; pointers are offsets into it, and every read sees what has been written before. The code is the same as in
`Verif.Model.Fir` and `Verif.Model.Resampler`.
-/

namespace Panda

variable {F : Type} [Zero F] [Add F] [Mul F]

/-! ## Upsampler2 -/

/-- pandaresampler.cc:361-374 `Upsampler2::process_4samples_aligned`, `input` and `output` in one array. -/
def Up2.process4SamplesMem (u : Up2 F) (m : Buf F) (ioff ooff : Nat) : Res (Buf F) := do
  let H := u.order / 2
  let m ← m.wr (ooff + 1) (← m.rd (ioff + H))
  let m ← m.wr (ooff + 3) (← m.rd (ioff + (H + 1)))
  let m ← m.wr (ooff + 5) (← m.rd (ioff + (H + 2)))
  let m ← m.wr (ooff + 7) (← m.rd (ioff + (H + 3)))
  let v ← firProcess4SamplesSse m ioff u.sseTaps u.order
  let m ← m.wr (ooff + 0) v.x0
  let m ← m.wr (ooff + 2) v.x1
  let m ← m.wr (ooff + 4) v.x2
  m.wr (ooff + 6) v.x3

/-- pandaresampler.cc:376-384 `Upsampler2::process_sample_unaligned`, `input` and `output` in one array. -/
def Up2.processSampleMem (u : Up2 F) (m : Buf F) (ioff ooff : Nat) : Res (Buf F) := do
  let H := u.order / 2
  let m ← m.wr ooff (← firProcessOneSample m ioff u.taps u.order)
  m.wr (ooff + 1) (← m.rd (ioff + H))

/-- pandaresampler.cc:385-408 `Upsampler2::process_block_aligned`, `input` and `output` in one array. -/
def Up2.processBlockAlignedMem (u : Up2 F) (m : Buf F) (ioff n ooff : Nat) : Res (Buf F) := do
  let (i, m) ← show Res (Nat × Buf F) from
    if u.useSse then
      whileF (fun s : Nat × Buf F => u32 (s.1 + 6) < n)
        (fun s => do
          let m ← u.process4SamplesMem s.2 (ioff + s.1) (ooff + u32 (s.1 * 2))
          pure (u32 (s.1 + 4), m)) n (0, m)
    else pure (0, m)
  let (_, m) ← whileF (fun s : Nat × Buf F => s.1 < n)
    (fun s => do
      let m ← u.processSampleMem s.2 (ioff + s.1) (ooff + u32 (2 * s.1))
      pure (u32 (s.1 + 1), m)) n (i, m)
  pure m

/-- pandaresampler.cc:409-425 `Upsampler2::process_block_unaligned`, `input` and `output` in one array. -/
def Up2.processBlockUnalignedMem (u : Up2 F) (m : Buf F) (ioff n ooff : Nat) : Res (Buf F) := do
  let (i, m) ← show Res (Nat × Buf F) from
    if u.useSse then
      whileF (fun s : Nat × Buf F => (s.2.addr + 4 * (ioff + s.1)) % 16 ≠ 0 && s.1 < n)
        (fun s => do
          let m ← u.processSampleMem s.2 (ioff + s.1) (ooff + u32 (2 * s.1))
          pure (u32 (s.1 + 1), m)) n (0, m)
    else pure (0, m)
  u.processBlockAlignedMem m (ioff + i) (n - i) (ooff + u32 (2 * i))

/-- pandaresampler.cc:443-465 `Upsampler2::process_block`, `input` and `output` in one array. The samples of the first
part go through `history`, which is an array of the object. -/
def Up2.processBlockMem (u : Up2 F) (m : Buf F) (ioff n ooff : Nat) : Res (Up2 F × Buf F) := do
  let historyTodo := min n (u.order - 1)
  let history ← copyN m ioff historyTodo u.history (u.order - 1)
  let m ← u.processBlockAligned history 0 historyTodo m ooff
  if n > historyTodo then
    let m ← u.processBlockUnalignedMem m ioff (n - historyTodo) (ooff + u32 (2 * historyTodo))
    let history ← copyN m (ioff + n - historyTodo) historyTodo history 0
    pure ({ u with history := history }, m)
  else
    let history ← memmoveDown history n (u.order - 1)
    pure ({ u with history := history }, m)

/-! ## Downsampler2 -/

variable [Sample F]

/-- pandaresampler.cc:505-519 `Downsampler2::process_4samples_aligned<ODD_STEPPING>`, `input_odd` and `output` in one
array; `input_even` is the block on the stack. -/
def Down2.process4SamplesMem (d : Down2 F) (step : Nat) (even : Buf F) (eoff : Nat) (m : Buf F) (doff ooff : Nat) :
    Res (Buf F) := do
  let H := d.order / 2 - 1
  let v ← firProcess4SamplesSse even eoff d.sseTaps d.order
  let m ← m.wr (ooff + 0) v.x0
  let m ← m.wr (ooff + 1) v.x1
  let m ← m.wr (ooff + 2) v.x2
  let m ← m.wr (ooff + 3) v.x3
  let m ← m.wr (ooff + 0) ((← m.rd (ooff + 0)) + Sample.half * (← m.rd (doff + H * step)))
  let m ← m.wr (ooff + 1) ((← m.rd (ooff + 1)) + Sample.half * (← m.rd (doff + (H + 1) * step)))
  let m ← m.wr (ooff + 2) ((← m.rd (ooff + 2)) + Sample.half * (← m.rd (doff + (H + 2) * step)))
  m.wr (ooff + 3) ((← m.rd (ooff + 3)) + Sample.half * (← m.rd (doff + (H + 3) * step)))

/-- pandaresampler.cc:530-554 `Downsampler2::process_block_aligned<ODD_STEPPING>`, `input_odd` and `output` in one array. -/
def Down2.processBlockAlignedMem (d : Down2 F) (step : Nat) (even : Buf F) (eoff : Nat) (m : Buf F) (doff ooff n : Nat) :
    Res (Buf F) := do
  let (i, m) ← show Res (Nat × Buf F) from
    if d.useSse then
      whileF (fun s : Nat × Buf F => s.1 + 6 < n)
        (fun s => do
          let m ← d.process4SamplesMem step even (eoff + s.1) s.2 (doff + s.1 * step) (ooff + s.1)
          pure (s.1 + 4, m)) n (0, m)
    else pure (0, m)
  let (_, m) ← whileF (fun s : Nat × Buf F => s.1 < n)
    (fun s => do
      let v ← d.processSampleUnaligned step even (eoff + s.1) s.2 (doff + s.1 * step)
      let m ← s.2.wr (ooff + s.1) v
      pure (s.1 + 1, m)) n (i, m)
  pure m

/-- pandaresampler.cc:555-572 `Downsampler2::process_block_unaligned<ODD_STEPPING>`, `input_odd` and `output` in one
array. -/
def Down2.processBlockUnalignedMem (d : Down2 F) (step : Nat) (even : Buf F) (eoff : Nat) (m : Buf F) (doff ooff n : Nat) :
    Res (Buf F) := do
  let (i, m) ← show Res (Nat × Buf F) from
    if d.useSse then
      whileF (fun s : Nat × Buf F => (even.addr + 4 * (eoff + s.1)) % 16 ≠ 0 && s.1 < n)
        (fun s => do
          let v ← d.processSampleUnaligned step even (eoff + s.1) s.2 (doff + s.1 * step)
          let m ← s.2.wr (ooff + s.1) v
          pure (s.1 + 1, m)) n (0, m)
    else pure (0, m)
  d.processBlockAlignedMem step even (eoff + i) m (doff + i * step) (ooff + i) n

/-- pandaresampler.cc:612-659: body of the loop of `Downsampler2::process_block`, `input` and `output` in one array
(`s.output`). The new odd history (line 648) is read after the output of the block has been written. -/
def Down2.loopBodyMem (st : Stack F) (s : DownLoop F) : Res (DownLoop F) := do
  let d := s.d
  let nInputTodo := min s.n (1024 * 2)
  let block : Buf F := { addr := 16 * st.block16, len := 1024, get := st.junk }
  let even ← deinterleave2 s.output s.ioff nInputTodo block 0
  let oddOff := s.ioff + 1
  let nOutputTodo := nInputTodo / 2
  let historyTodo := min nOutputTodo (d.order - 1)
  let hEven ← copyN even 0 historyTodo d.historyEven (d.order - 1)
  let hOdd ← deinterleave2 s.output oddOff (historyTodo * 2) d.historyOdd (d.order - 1)
  let m ← d.processBlockAligned 1 hEven 0 hOdd 0 s.output s.ooff historyTodo
  let (hEven, hOdd, m) ← show Res (Buf F × Buf F × Buf F) from
    if nOutputTodo > historyTodo then do
      let m ← d.processBlockUnalignedMem 2 even 0 m oddOff (s.ooff + historyTodo) (nOutputTodo - historyTodo)
      let hEven ← copyN even (nOutputTodo - historyTodo) historyTodo hEven 0
      let hOdd ← deinterleave2 m (oddOff + nInputTodo - historyTodo * 2) (historyTodo * 2) hOdd 0
      pure (hEven, hOdd, m)
    else do
      let hEven ← memmoveDown hEven nOutputTodo (d.order - 1)
      let hOdd ← memmoveDown hOdd nOutputTodo (d.order - 1)
      pure (hEven, hOdd, m)
  pure { d := { d with historyEven := hEven, historyOdd := hOdd },
         n := s.n - nInputTodo, ioff := s.ioff + nInputTodo,
         output := m, ooff := s.ooff + nOutputTodo }

/-- pandaresampler.cc:599-660 `Downsampler2::process_block`, `input` and `output` in one array. -/
def Down2.processBlockMem (st : Stack F) (d : Down2 F) (m : Buf F) (ioff n ooff : Nat) : Res (Down2 F × Buf F) :=
  if n % 2 = 1 then pure (d, m)
  else do
    let s ← whileF (fun s : DownLoop F => s.n ≠ 0) (Down2.loopBodyMem st) n
      { d := d, n := n, ioff := ioff, output := m, ooff := ooff }
    pure (s.d, s.output)

variable [One F] [Sub F]

/-- Virtual `Impl::process_block` as in `Impl.processBlock` (pandaresampler.cc:443-465, 599-660, 1085-1091, 1122-1126,
1162-1168, 1199-1203), `input` and `output` in one array. -/
def Impl.processBlockMem (bld : Build) (st : Stack F) (i : Impl F) (m : Buf F) (ioff n ooff : Nat) : Res (Impl F × Buf F) :=
  match i with
  | .firUp u => do
    let (u, o) ← u.processBlockMem m ioff n ooff
    pure (.firUp u, o)
  | .firDown d => do
    let (d, o) ← d.processBlockMem st m ioff n ooff
    pure (.firDown d, o)
  | .iirUp f dl => do
    let (f, o) ← f.upBlockMem bld m ioff n ooff
    pure (.iirUp f dl, o)
  | .iirDown f dl => do
    let (f, o) ← f.downBlockMem bld m ioff (n / 2) ooff
    pure (.iirDown f dl, o)
  | .iirUpSse f dl => do
    let (f, o) ← f.upBlockMem bld m ioff n ooff
    pure (.iirUpSse f dl, o)
  | .iirDownSse f dl => do
    let (f, o) ← f.downBlockMem bld m ioff (n / 2) ooff
    pure (.iirDownSse f dl, o)

/-- pandaresampler.hh:195-251 `process_block (m, n_input_samples, m)`. The loop for ratios 4 and 8 reads each block of
at most 1024 samples from the array as the blocks before have left it; inside the loop body the caller's array is read
by the first stage and written by the last one, with temporary blocks between them. For ratio 1 each sample is copied
onto itself (formally `std::copy` requires `output` to lie outside of the input range). -/
def Resampler.processInPlace (bld : Build) (st : Stack F) (r : Resampler F) (m : Buf F) (n : Nat) :
    Res (Resampler F × Buf F) :=
  if r.ratio = 2 then do
    let (i2, m) ← (← deref r.implX2).processBlockMem bld st m 0 n 0
    pure ({ r with implX2 := some i2 }, m)
  else if r.ratio = 1 then do
    let m ← forN (fun i (m : Buf F) => do m.wr i (← m.rd i)) n m
    pure (r, m)
  else do
    let s ← whileF (fun s : RLoop F => s.n ≠ 0) (fun s => Resampler.loopBody bld st s.output s) n
      { r := r, n := n, ioff := 0, output := m, ooff := 0 }
    pure (s.r, s.output)

end Panda
