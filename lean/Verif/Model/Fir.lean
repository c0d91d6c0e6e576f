import Verif.Model.Basic

/-!
# Model of the FIR code of `include/pandaresampler/pandaresampler.cc`

Pointer arguments such as `const float *input` are modelled as a buffer together with an offset
(`&input[i]` is the same buffer with the offset increased by `i`).  Different pointer arguments of one
call denote different buffers (no overlap between caller input and output).
-/

namespace Panda

variable {F : Type} [Zero F] [Add F] [Mul F]

/-- pandaresampler.cc:181-191 `fir_process_one_sample<float>`:
`Accumulator out = 0; for (i < order) out += input[i] * taps[i];` -/
def firProcessOneSample (input : Buf F) (off : Nat) (taps : Buf F) (order : Nat) : Res F :=
  forN (fun i out => do
    let x ← input.rd (off + i)
    let t ← taps.rd i
    pure (out + x * t)) order 0

/-- `_mm_mul_ps` (pandaresampler.cc:36-39 for NEON) -/
def V4.mul (a b : V4 F) : V4 F := ⟨a.x0 * b.x0, a.x1 * b.x1, a.x2 * b.x2, a.x3 * b.x3⟩
/-- `_mm_add_ps` (pandaresampler.cc:42-45 for NEON) -/
def V4.add (a b : V4 F) : V4 F := ⟨a.x0 + b.x0, a.x1 + b.x1, a.x2 + b.x2, a.x3 + b.x3⟩
/-- `v.f[0] + v.f[1] + v.f[2] + v.f[3]` (left associative), pandaresampler.cc:232-235 -/
def V4.hsum (a : V4 F) : F := a.x0 + a.x1 + a.x2 + a.x3

/-- One of the four accumulators of `fir_process_4samples_sse`, pandaresampler.cc:219-230: accumulator number
`k` (`out0_v`..`out3_v`).  `input_v[i]` is the aligned 4-vector at `input + 4*i`, `sse_taps_v[j]` the one
at `sse_taps + 4*j`.  The first product is not added to zero; the loop runs for `1 <= i < (order+6)/4`.
Simplification: the C++ code advances the four accumulators together; they do not interact, so the
model computes them one after the other. -/
def firSseAcc (input : Buf F) (off : Nat) (sseTaps : Buf F) (order k : Nat) : Res (V4 F) := do
  let a ← input.ld4a off
  let t ← sseTaps.ld4a (4 * k)
  forN (fun j acc => do
    let i := j + 1
    let a ← input.ld4a (off + 4 * i)
    let t ← sseTaps.ld4a (4 * (i * 4 + k))
    pure (acc.add (a.mul t))) ((order + 6) / 4 - 1) (a.mul t)

/-- pandaresampler.cc:203-239 `fir_process_4samples_sse` (the branch compiled with SSE or NEON):
the four output values. -/
def firProcess4SamplesSse (input : Buf F) (off : Nat) (sseTaps : Buf F) (order : Nat) : Res (V4 F) := do
  let o0 ← firSseAcc input off sseTaps order 0
  let o1 ← firSseAcc input off sseTaps order 1
  let o2 ← firSseAcc input off sseTaps order 2
  let o3 ← firSseAcc input off sseTaps order 3
  pure ⟨o0.hsum, o1.hsum, o2.hsum, o3.hsum⟩

/-- pandaresampler.cc:260-274 `fir_compute_sse_taps`: a zero-initialised vector of
`(order+6)/4*16` floats, `sse_taps[(k/4)*16 + (k%4) + j*4] = taps[i]` for `k = i+j`, `j < 4`, `i < order`.
`addr` is the address at which the vector's contents end up (see `AlignedArray`). -/
def firComputeSseTaps (addr : Nat) (taps : Buf F) : Res (Buf F) :=
  let order := taps.len
  let init : Buf F := { addr := addr, len := (order + 6) / 4 * 16, get := fun _ => 0 }
  forN (fun j s =>
    forN (fun i s => do
      let k := i + j
      let t ← taps.rd i
      s.wr ((k / 4) * 16 + (k % 4) + j * 4) t) order s) 4 init

/-! ## Upsampler2 -/

/-- pandaresampler.cc:354-358 `Upsampler2<ORDER, USE_SSE>`: its template arguments and members. -/
structure Up2 (F : Type) where
  order : Nat
  useSse : Bool
  taps : Buf F
  history : Buf F
  sseTaps : Buf F

/-- pandaresampler.cc:361-374 `Upsampler2::process_4samples_aligned` -/
def Up2.process4SamplesAligned (u : Up2 F) (input : Buf F) (ioff : Nat) (output : Buf F) (ooff : Nat) :
    Res (Buf F) := do
  let H := u.order / 2
  let output ← output.wr (ooff + 1) (← input.rd (ioff + H))
  let output ← output.wr (ooff + 3) (← input.rd (ioff + (H + 1)))
  let output ← output.wr (ooff + 5) (← input.rd (ioff + (H + 2)))
  let output ← output.wr (ooff + 7) (← input.rd (ioff + (H + 3)))
  let v ← firProcess4SamplesSse input ioff u.sseTaps u.order
  let output ← output.wr (ooff + 0) v.x0
  let output ← output.wr (ooff + 2) v.x1
  let output ← output.wr (ooff + 4) v.x2
  output.wr (ooff + 6) v.x3

/-- pandaresampler.cc:376-384 `Upsampler2::process_sample_unaligned` -/
def Up2.processSampleUnaligned (u : Up2 F) (input : Buf F) (ioff : Nat) (output : Buf F) (ooff : Nat) :
    Res (Buf F) := do
  let H := u.order / 2
  let output ← output.wr ooff (← firProcessOneSample input ioff u.taps u.order)
  output.wr (ooff + 1) (← input.rd (ioff + H))

/-- pandaresampler.cc:385-408 `Upsampler2::process_block_aligned`; `i`, `i*2`, `i + 6` are `uint` expressions. -/
def Up2.processBlockAligned (u : Up2 F) (input : Buf F) (ioff : Nat) (n : Nat) (output : Buf F) (ooff : Nat) :
    Res (Buf F) := do
  let (i, output) ← show Res (Nat × Buf F) from
    if u.useSse then
      whileF (fun s : Nat × Buf F => u32 (s.1 + 6) < n)
        (fun s => do
          let output ← u.process4SamplesAligned input (ioff + s.1) s.2 (ooff + u32 (s.1 * 2))
          pure (u32 (s.1 + 4), output)) n (0, output)
    else pure (0, output)
  let (_, output) ← whileF (fun s : Nat × Buf F => s.1 < n)
    (fun s => do
      let output ← u.processSampleUnaligned input (ioff + s.1) s.2 (ooff + u32 (2 * s.1))
      pure (u32 (s.1 + 1), output)) n (i, output)
  pure output

/-- pandaresampler.cc:409-425 `Upsampler2::process_block_unaligned`: scalar steps until `&input[i]` is 16-byte
aligned, then `process_block_aligned` on the rest. -/
def Up2.processBlockUnaligned (u : Up2 F) (input : Buf F) (ioff : Nat) (n : Nat) (output : Buf F) (ooff : Nat) :
    Res (Buf F) := do
  let (i, output) ← show Res (Nat × Buf F) from
    if u.useSse then
      whileF (fun s : Nat × Buf F => (input.addr + 4 * (ioff + s.1)) % 16 ≠ 0 && s.1 < n)
        (fun s => do
          let output ← u.processSampleUnaligned input (ioff + s.1) s.2 (ooff + u32 (2 * s.1))
          pure (u32 (s.1 + 1), output)) n (0, output)
    else pure (0, output)
  u.processBlockAligned input (ioff + i) (n - i) output (ooff + u32 (2 * i))

/-- `std::copy` of `n` samples from `src[soff..]` to `dst[doff..]` (distinct buffers). (pandaresampler.cc:59 and pandaresampler.hh:205) -/
def copyN (src : Buf F) (soff : Nat) (n : Nat) (dst : Buf F) (doff : Nat) : Res (Buf F) :=
  forN (fun i d => do d.wr (doff + i) (← src.rd (soff + i))) n dst

/-- `memmove (&b[0], &b[src], n * sizeof (float))` inside one buffer (overlap allowed). (pandaresampler.cc:463, 652-653) -/
def memmoveDown (b : Buf F) (src n : Nat) : Res (Buf F) :=
  if src + n ≤ b.len then
    if n ≤ b.len then .ok { b with get := fun j => if j < n then b.get (src + j) else b.get j }
    else .error .oobWrite
  else .error .oobRead

/-- pandaresampler.cc:443-465 `Upsampler2::process_block`. Returns the updated object and output. -/
def Up2.processBlock (u : Up2 F) (input : Buf F) (ioff : Nat) (n : Nat) (output : Buf F) (ooff : Nat) :
    Res (Up2 F × Buf F) := do
  let historyTodo := min n (u.order - 1)
  let history ← copyN input ioff historyTodo u.history (u.order - 1)
  let output ← u.processBlockAligned history 0 historyTodo output ooff
  if n > historyTodo then
    let output ← u.processBlockUnaligned input ioff (n - historyTodo) output (ooff + u32 (2 * historyTodo))
    let history ← copyN input (ioff + n - historyTodo) historyTodo history 0
    pure ({ u with history := history }, output)
  else
    let history ← memmoveDown history n (u.order - 1)
    pure ({ u with history := history }, output)

/-- pandaresampler.cc:479-483 `Upsampler2::reset` -/
def Up2.reset (u : Up2 F) : Up2 F := { u with history := { u.history with get := fun _ => 0 } }

/-! ## Downsampler2 -/

variable [Sample F]

/-- pandaresampler.cc:498-503 `Downsampler2<ORDER, USE_SSE>`: its template arguments and members. -/
structure Down2 (F : Type) where
  order : Nat
  useSse : Bool
  taps : Buf F
  historyEven : Buf F
  historyOdd : Buf F
  sseTaps : Buf F

/-- pandaresampler.cc:505-519 `Downsampler2::process_4samples_aligned<ODD_STEPPING>`.
`output[j] += 0.5f * input_odd[...]` reads back the value just written by the FIR routine. -/
def Down2.process4SamplesAligned (d : Down2 F) (step : Nat) (even : Buf F) (eoff : Nat) (odd : Buf F) (doff : Nat)
    (output : Buf F) (ooff : Nat) : Res (Buf F) := do
  let H := d.order / 2 - 1
  let v ← firProcess4SamplesSse even eoff d.sseTaps d.order
  let output ← output.wr (ooff + 0) v.x0
  let output ← output.wr (ooff + 1) v.x1
  let output ← output.wr (ooff + 2) v.x2
  let output ← output.wr (ooff + 3) v.x3
  let output ← output.wr (ooff + 0) ((← output.rd (ooff + 0)) + Sample.half * (← odd.rd (doff + H * step)))
  let output ← output.wr (ooff + 1) ((← output.rd (ooff + 1)) + Sample.half * (← odd.rd (doff + (H + 1) * step)))
  let output ← output.wr (ooff + 2) ((← output.rd (ooff + 2)) + Sample.half * (← odd.rd (doff + (H + 2) * step)))
  output.wr (ooff + 3) ((← output.rd (ooff + 3)) + Sample.half * (← odd.rd (doff + (H + 3) * step)))

/-- pandaresampler.cc:520-529 `Downsampler2::process_sample_unaligned<ODD_STEPPING>` -/
def Down2.processSampleUnaligned (d : Down2 F) (step : Nat) (even : Buf F) (eoff : Nat) (odd : Buf F) (doff : Nat) :
    Res F := do
  let H := d.order / 2 - 1
  let v ← firProcessOneSample even eoff d.taps d.order
  let o ← odd.rd (doff + H * step)
  pure (v + Sample.half * o)

/-- pandaresampler.cc:530-554 `Downsampler2::process_block_aligned<ODD_STEPPING>`.
`uint` wrap-around is not modelled here: `process_block` calls it with at most 1024 samples. -/
def Down2.processBlockAligned (d : Down2 F) (step : Nat) (even : Buf F) (eoff : Nat) (odd : Buf F) (doff : Nat)
    (output : Buf F) (ooff : Nat) (n : Nat) : Res (Buf F) := do
  let (i, output) ← show Res (Nat × Buf F) from
    if d.useSse then
      whileF (fun s : Nat × Buf F => s.1 + 6 < n)
        (fun s => do
          let output ← d.process4SamplesAligned step even (eoff + s.1) odd (doff + s.1 * step) s.2 (ooff + s.1)
          pure (s.1 + 4, output)) n (0, output)
    else pure (0, output)
  let (_, output) ← whileF (fun s : Nat × Buf F => s.1 < n)
    (fun s => do
      let v ← d.processSampleUnaligned step even (eoff + s.1) odd (doff + s.1 * step)
      let output ← s.2.wr (ooff + s.1) v
      pure (s.1 + 1, output)) n (i, output)
  pure output

/-- pandaresampler.cc:555-572 `Downsampler2::process_block_unaligned<ODD_STEPPING>`.  Note that, unlike in the
upsampler, the remaining count passed on at line 571 is `n_output_samples`, not `n_output_samples - i`. -/
def Down2.processBlockUnaligned (d : Down2 F) (step : Nat) (even : Buf F) (eoff : Nat) (odd : Buf F) (doff : Nat)
    (output : Buf F) (ooff : Nat) (n : Nat) : Res (Buf F) := do
  let (i, output) ← show Res (Nat × Buf F) from
    if d.useSse then
      whileF (fun s : Nat × Buf F => (even.addr + 4 * (eoff + s.1)) % 16 ≠ 0 && s.1 < n)
        (fun s => do
          let v ← d.processSampleUnaligned step even (eoff + s.1) odd (doff + s.1 * step)
          let output ← s.2.wr (ooff + s.1) v
          pure (s.1 + 1, output)) n (0, output)
    else pure (0, output)
  d.processBlockAligned step even (eoff + i) odd (doff + i * step) output (ooff + i) n

/-- pandaresampler.cc:573-580 `Downsampler2::deinterleave2`: `for (i = 0; i < n; i += 2) output[i/2] = data[i]`,
written with `j = i/2`. -/
def deinterleave2 (data : Buf F) (doff : Nat) (n : Nat) (output : Buf F) (ooff : Nat) : Res (Buf F) :=
  forN (fun j o => do o.wr (ooff + j) (← data.rd (doff + 2 * j))) ((n + 1) / 2) output

/-- Where the compiler put the stack arrays of one call, and what they contained before.  The arrays are
uninitialised in C++; the theorems hold for every `Stack`. `block` (pandaresampler.cc:609) is an array of
`F4Vector` and therefore 16-byte aligned: its address is `16 * block16`. -/
structure Stack (F : Type) where
  block16 : Nat
  tmpAddr : Nat
  tmp2Addr : Nat
  junk : Nat → F

/-- State of the `while (n_input_samples)` loop of `Downsampler2::process_block`. (pandaresampler.cc:609-656) -/
structure DownLoop (F : Type) where
  d : Down2 F
  n : Nat
  ioff : Nat
  output : Buf F
  ooff : Nat

/-- pandaresampler.cc:612-659: body of that loop; `BLOCKSIZE = 1024`.
Simplification: `block` is re-created with the same garbage in every iteration. -/
def Down2.loopBody (st : Stack F) (input : Buf F) (s : DownLoop F) : Res (DownLoop F) := do
  let d := s.d
  let nInputTodo := min s.n (1024 * 2)
  let block : Buf F := { addr := 16 * st.block16, len := 1024, get := st.junk }
  let even ← deinterleave2 input s.ioff nInputTodo block 0
  let oddOff := s.ioff + 1
  let nOutputTodo := nInputTodo / 2
  let historyTodo := min nOutputTodo (d.order - 1)
  let hEven ← copyN even 0 historyTodo d.historyEven (d.order - 1)
  let hOdd ← deinterleave2 input oddOff (historyTodo * 2) d.historyOdd (d.order - 1)
  let output ← d.processBlockAligned 1 hEven 0 hOdd 0 s.output s.ooff historyTodo
  let (hEven, hOdd, output) ← show Res (Buf F × Buf F × Buf F) from
    if nOutputTodo > historyTodo then do
      let output ← d.processBlockUnaligned 2 even 0 input oddOff output (s.ooff + historyTodo) (nOutputTodo - historyTodo)
      let hEven ← copyN even (nOutputTodo - historyTodo) historyTodo hEven 0
      let hOdd ← deinterleave2 input (oddOff + nInputTodo - historyTodo * 2) (historyTodo * 2) hOdd 0
      pure (hEven, hOdd, output)
    else do
      let hEven ← memmoveDown hEven nOutputTodo (d.order - 1)
      let hOdd ← memmoveDown hOdd nOutputTodo (d.order - 1)
      pure (hEven, hOdd, output)
  pure { d := { d with historyEven := hEven, historyOdd := hOdd },
         n := s.n - nInputTodo, ioff := s.ioff + nInputTodo,
         output := output, ooff := s.ooff + nOutputTodo }

/-- pandaresampler.cc:599-660 `Downsampler2::process_block`: an odd `n_input_samples` is rejected (the check
only prints a message) and nothing else happens. -/
def Down2.processBlock (st : Stack F) (d : Down2 F) (input : Buf F) (ioff : Nat) (n : Nat) (output : Buf F) (ooff : Nat) :
    Res (Down2 F × Buf F) :=
  if n % 2 = 1 then pure (d, output)
  else do
    let s ← whileF (fun s : DownLoop F => s.n ≠ 0) (Down2.loopBody st input) n
      { d := d, n := n, ioff := ioff, output := output, ooff := ooff }
    pure (s.d, s.output)

/-- pandaresampler.cc:674-679 `Downsampler2::reset` -/
def Down2.reset (d : Down2 F) : Down2 F :=
  { d with historyEven := { d.historyEven with get := fun _ => 0 },
           historyOdd := { d.historyOdd with get := fun _ => 0 } }

end Panda
