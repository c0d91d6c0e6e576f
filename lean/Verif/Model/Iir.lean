import Verif.Model.Basic

/-!
# Model of the IIR code in `include/pandaresampler/hiir/`

Asserts on pointers being non-null are not modelled (a `Buf` is never null). The asserts on overlapping
buffers hold trivially for the distinct buffers used here; overlapping buffers are treated in
`Verif.Model.InPlace`.  Only the classes instantiated by pandaresampler.cc are modelled
(`process_sample_neg` of the stage processors is not used).
-/

namespace Panda

variable {F : Type} [Zero F] [One F] [Add F] [Sub F] [Mul F] [Sample F]

/-! ## FPU version -/

/-- StageDataFpu.h:41-50 and `Filter` in Upsampler2xFpuTpl.h:83, Downsampler2xFpuTpl.h:89:
an array of `NBR_COEFS + 2` pairs `_coef`, `_mem` (kept as two arrays). -/
structure FpuFilter (F : Type) where
  nbrCoefs : Nat
  coef : Buf F
  mem : Buf F

/-- Default member initialisers (`_coef = 0`, `_mem = 0`, StageDataFpu.h:45-46) followed by `set_coefs`
(Upsampler2xFpuTpl.hpp:61-70, Downsampler2xFpuTpl.hpp:61-70): `_filter[i + 2]._coef = coef_arr[i]`.
`cs` are the coefficients already converted to the sample type. -/
def FpuFilter.new (cs : Buf F) : Res (FpuFilter F) := do
  let nc := cs.len
  let coef ← forN (fun i (coef : Buf F) => do coef.wr (i + 2) (← cs.rd i)) nc
    { addr := 0, len := nc + 2, get := fun _ => 0 }
  pure { nbrCoefs := nc, coef := coef, mem := { addr := 0, len := nc + 2, get := fun _ => 0 } }

/-- StageProcFpu.hpp:47-100 `StageProcFpu<REMAINING, DT>::process_sample_pos`, by recursion on `REMAINING`
(template recursion with the specialisations for 1 and 0). Returns `spl_0`, `spl_1` and the memories. -/
def stageProcFpuPos (nc : Nat) (coef : Buf F) : Nat → F → F → Buf F → Res (F × F × Buf F)
  | 0, spl0, spl1, mem => do
    let cnt := nc + 2
    let mem ← mem.wr (cnt - 2) spl0
    let mem ← mem.wr (cnt - 1) spl1
    pure (spl0, spl1, mem)
  | 1, spl0, spl1, mem => do
    let cnt := nc + 2 - 1
    let tmp0 := (spl0 - (← mem.rd cnt)) * (← coef.rd cnt) + (← mem.rd (cnt - 2))
    let mem ← mem.wr (cnt - 2) spl0
    let mem ← mem.wr (cnt - 1) spl1
    let mem ← mem.wr cnt tmp0
    pure (tmp0, spl1, mem)
  | rem + 2, spl0, spl1, mem => do
    let cnt := nc + 2 - (rem + 2)
    let tmp0 := (spl0 - (← mem.rd cnt)) * (← coef.rd cnt) + (← mem.rd (cnt - 2))
    let tmp1 := (spl1 - (← mem.rd (cnt + 1))) * (← coef.rd (cnt + 1)) + (← mem.rd (cnt - 1))
    let mem ← mem.wr (cnt - 2) spl0
    let mem ← mem.wr (cnt - 1) spl1
    stageProcFpuPos nc coef rem tmp0 tmp1 mem

/-- Upsampler2xFpuTpl.hpp:88-101 `process_sample`: both branches get the input sample. -/
def FpuFilter.upSample (f : FpuFilter F) (input : F) : Res (F × F × FpuFilter F) := do
  let (even, odd, mem) ← stageProcFpuPos f.nbrCoefs f.coef f.nbrCoefs input input f.mem
  pure (even, odd, { f with mem := mem })

/-- Upsampler2xFpuTpl.hpp:120-139 `process_block` (do-while loop). -/
def FpuFilter.upBlock (bld : Build) (f : FpuFilter F) (input : Buf F) (ioff : Nat) (nbrSpl : Nat)
    (output : Buf F) (ooff : Nat) : Res (FpuFilter F × Buf F) := do
  bld.assert (nbrSpl > 0)
  doWhileN (fun pos (s : FpuFilter F × Buf F) => do
    let (o0, o1, f) ← s.1.upSample (← input.rd (ioff + pos))
    let output ← s.2.wr (ooff + pos * 2) o0
    let output ← output.wr (ooff + (pos * 2 + 1)) o1
    pure (f, output)) nbrSpl (f, output)

/-- Downsampler2xFpuTpl.hpp:86-99 `process_sample`: branch 0 gets the second sample of the pair. -/
def FpuFilter.downSample (f : FpuFilter F) (in0 in1 : F) : Res (F × FpuFilter F) := do
  let (spl0, spl1, mem) ← stageProcFpuPos f.nbrCoefs f.coef f.nbrCoefs in1 in0 f.mem
  pure (Sample.half * (spl0 + spl1), { f with mem := mem })

/-- Downsampler2xFpuTpl.hpp:118-133 `process_block` (do-while loop). `process_sample` reads `in_ptr[1]` first. -/
def FpuFilter.downBlock (bld : Build) (f : FpuFilter F) (input : Buf F) (ioff : Nat) (nbrSpl : Nat)
    (output : Buf F) (ooff : Nat) : Res (FpuFilter F × Buf F) := do
  bld.assert (nbrSpl > 0)
  doWhileN (fun pos (s : FpuFilter F × Buf F) => do
    let in1 ← input.rd (ioff + (pos * 2 + 1))
    let in0 ← input.rd (ioff + pos * 2)
    let (o, f) ← s.1.downSample in0 in1
    let output ← s.2.wr (ooff + pos) o
    pure (f, output)) nbrSpl (f, output)

/-- Downsampler2xFpuTpl.hpp:157-171 `process_sample_split` -/
def FpuFilter.splitSample (f : FpuFilter F) (in0 in1 : F) : Res (F × F × FpuFilter F) := do
  let (spl0, spl1, mem) ← stageProcFpuPos f.nbrCoefs f.coef f.nbrCoefs in1 in0 f.mem
  let low := (spl0 + spl1) * Sample.half
  let high := spl0 - low
  pure (low, high, { f with mem := mem })

/-- Downsampler2xFpuTpl.hpp:199-221 `process_block_split` (do-while loop) -/
def FpuFilter.splitBlock (bld : Build) (f : FpuFilter F) (input : Buf F) (ioff : Nat) (nbrSpl : Nat)
    (outL : Buf F) (loff : Nat) (outH : Buf F) (hoff : Nat) : Res (FpuFilter F × Buf F × Buf F) := do
  bld.assert (nbrSpl > 0)
  doWhileN (fun pos (s : FpuFilter F × Buf F × Buf F) => do
    let in1 ← input.rd (ioff + (pos * 2 + 1))
    let in0 ← input.rd (ioff + pos * 2)
    let (l, h, f) ← s.1.splitSample in0 in1
    let outL ← s.2.1.wr (loff + pos) l
    let outH ← s.2.2.wr (hoff + pos) h
    pure (f, outL, outH)) nbrSpl (f, outL, outH)

/-- Upsampler2xFpuTpl.hpp:153-160, Downsampler2xFpuTpl.hpp:235-242 `clear_buffers` -/
def FpuFilter.clearBuffers (f : FpuFilter F) : Res (FpuFilter F) := do
  let mem ← forN (fun i (mem : Buf F) => mem.wr i 0) (f.nbrCoefs + 2) f.mem
  pure { f with mem := mem }

/-! ## SSE version -/

/-- StageDataSse.h:43-52 and `Filter` in Upsampler2xSse.h:99, Downsampler2xSse.h:101: an array of
`_nbr_stages + 1` entries of two 4-vectors (`_coef`, `_mem`, 32 bytes together), kept as two arrays;
`addr` is the byte address of the first entry. `_nbr_stages = (NBR_COEFS + 1) / 2`. -/
structure SseFilter (F : Type) where
  nbrCoefs : Nat
  addr : Nat
  coef : Buf (V4 F)
  mem : Buf (V4 F)

/-- Upsampler2xSse.h:95-96, Downsampler2xSse.h:98 -/
def nbrStages (nc : Nat) : Nat := (nc + 2 - 1) / 2

/-- `_mm_load_ps (stage_arr[i]._mem)`: the byte address is `addr + 32*i + 16`. (hiir/StageProcSseV2.hpp:61-65, hiir/StageDataSse.h:47-50) -/
def ldStage (addr : Nat) (b : Buf (V4 F)) (i : Nat) : Res (V4 F) :=
  if (addr + 32 * i + 16) % 16 = 0 then b.rd i else .error .misaligned

/-- `_mm_store_ps (stage_arr[i]._mem, v)` (hiir/StageProcSseV2.hpp:42, 62) -/
def stStage (addr : Nat) (b : Buf (V4 F)) (i : Nat) (v : V4 F) : Res (Buf (V4 F)) :=
  if (addr + 32 * i + 16) % 16 = 0 then b.wr i v else .error .misaligned

/-- `v` with lane `pos` replaced (`_coef[pos] = x`; only `pos = 0, 1` occur, `pos` is masked with 1). (hiir/Upsampler2xSse.hpp:61, 92, hiir/Downsampler2xSse.hpp:58, 89) -/
def V4.set (v : V4 F) (pos : Nat) (x : F) : V4 F :=
  if pos = 0 then { v with x0 := x } else { v with x1 := x }

/-- Upsampler2xSse.hpp:51-65 / Downsampler2xSse.hpp:49-62 (constructor: zero coefficients, `_coef[0] = 1` in the
last stage if `NBR_COEFS` is odd, zero memories) followed by `set_coefs` (Upsampler2xSse.hpp:83-94 /
Downsampler2xSse.hpp:80-91): coefficient `i` goes to stage `i/2 + 1`, lane `(i ^ 1) & 1`. -/
def SseFilter.new (addr : Nat) (cs : Buf F) : Res (SseFilter F) := do
  let nc := cs.len
  let ns := nbrStages nc
  let zero : V4 F := ⟨0, 0, 0, 0⟩
  let coef ← forN (fun i coef => stStage addr coef i zero) (ns + 1)
    { addr := 0, len := ns + 1, get := fun _ => zero }
  let coef ← show Res (Buf (V4 F)) from
    if nc < ns * 2 then do
      let v ← coef.rd ns
      coef.wr ns (v.set 0 1)
    else pure coef
  let mem ← forN (fun i mem => stStage addr mem i zero) (ns + 1)
    { addr := 0, len := ns + 1, get := fun _ => zero }
  let coef ← forN (fun i (coef : Buf (V4 F)) => do
    let stage := i / 2 + 1
    let pos := (i ^^^ 1) % 2
    let v ← coef.rd stage
    coef.wr stage (v.set pos (← cs.rd i))) nc coef
  pure { nbrCoefs := nc, addr := addr, coef := coef, mem := mem }

/-- `_mm_sub_ps`, `_mm_mul_ps`, `_mm_add_ps` applied as in one all-pass stage:
`(x - y) * c + z` in every lane. (hiir/StageProcSseV2.hpp:64-66) -/
def V4.stage (x y c z : V4 F) : V4 F :=
  ⟨(x.x0 - y.x0) * c.x0 + z.x0, (x.x1 - y.x1) * c.x1 + z.x1,
   (x.x2 - y.x2) * c.x2 + z.x2, (x.x3 - y.x3) * c.x3 + z.x3⟩

/-- StageProcSseV2.hpp:56-73 `StageProcSseV2<CUR>::process_sample_pos_rec`, by recursion on `CUR`. -/
def stageProcSsePosRec (addr : Nat) (coef : Buf (V4 F)) : Nat → V4 F → Buf (V4 F) → Res (V4 F × Buf (V4 F))
  | 0, x, mem => pure (x, mem)
  | cur + 1, x, mem => do
    let (x, mem) ← stageProcSsePosRec addr coef cur x mem
    let tmp ← ldStage addr mem cur
    let mem ← stStage addr mem cur x
    let y ← ldStage addr mem (cur + 1)
    let c ← ldStage addr coef (cur + 1)
    pure (x.stage y c tmp, mem)

/-- StageProcSseV2.hpp:39-43 `StageProcSseV2<CUR>::process_sample_pos` -/
def stageProcSsePos (addr : Nat) (coef : Buf (V4 F)) (cur : Nat) (x : V4 F) (mem : Buf (V4 F)) :
    Res (V4 F × Buf (V4 F)) := do
  let (x, mem) ← stageProcSsePosRec addr coef cur x mem
  let mem ← stStage addr mem cur x
  pure (x, mem)

/-- Upsampler2xSse.hpp:139-158 `process_block`: broadcast, filter, swap lanes 0 and 1, store both. -/
def SseFilter.upBlock (bld : Build) (f : SseFilter F) (input : Buf F) (ioff : Nat) (nbrSpl : Nat)
    (output : Buf F) (ooff : Nat) : Res (SseFilter F × Buf F) := do
  bld.assert (nbrSpl > 0)
  forN (fun pos (s : SseFilter F × Buf F) => do
    let v ← input.rd (ioff + pos)
    let (x, mem) ← stageProcSsePos s.1.addr s.1.coef (nbrStages s.1.nbrCoefs) ⟨v, v, v, v⟩ s.1.mem
    let output ← s.2.wr (ooff + pos * 2) x.x1
    let output ← output.wr (ooff + (pos * 2 + 1)) x.x0
    pure ({ s.1 with mem := mem }, output)) nbrSpl (f, output)

/-- Downsampler2xSse.hpp:137-154 `process_block`: the unaligned load at `in_ptr + pos*2` reads four samples,
two more than the pair being processed. -/
def SseFilter.downBlock (bld : Build) (f : SseFilter F) (input : Buf F) (ioff : Nat) (nbrSpl : Nat)
    (output : Buf F) (ooff : Nat) : Res (SseFilter F × Buf F) := do
  bld.assert (nbrSpl > 0)
  forN (fun pos (s : SseFilter F × Buf F) => do
    let x ← input.ld4u (ioff + pos * 2)
    let (x, mem) ← stageProcSsePos s.1.addr s.1.coef (nbrStages s.1.nbrCoefs) x s.1.mem
    let output ← s.2.wr (ooff + pos) ((x.x0 + x.x1) * Sample.half)
    pure ({ s.1 with mem := mem }, output)) nbrSpl (f, output)

/-- Downsampler2xSse.hpp:215-238 `process_block_split` -/
def SseFilter.splitBlock (bld : Build) (f : SseFilter F) (input : Buf F) (ioff : Nat) (nbrSpl : Nat)
    (outL : Buf F) (loff : Nat) (outH : Buf F) (hoff : Nat) : Res (SseFilter F × Buf F × Buf F) := do
  bld.assert (nbrSpl > 0)
  forN (fun pos (s : SseFilter F × Buf F × Buf F) => do
    let x ← input.ld4u (ioff + pos * 2)
    let (x, mem) ← stageProcSsePos s.1.addr s.1.coef (nbrStages s.1.nbrCoefs) x s.1.mem
    let outL ← s.2.1.wr (loff + pos) (x.x1 * Sample.half + x.x0 * Sample.half)
    let outH ← s.2.2.wr (hoff + pos) (x.x1 * Sample.half - x.x0 * Sample.half)
    pure ({ s.1 with mem := mem }, outL, outH)) nbrSpl (f, outL, outH)

/-- Upsampler2xSse.hpp:172-178, Downsampler2xSse.hpp:252-259 `clear_buffers` -/
def SseFilter.clearBuffers (f : SseFilter F) : Res (SseFilter F) := do
  let mem ← forN (fun i mem => stStage f.addr mem i ⟨0, 0, 0, 0⟩) (nbrStages f.nbrCoefs + 1) f.mem
  pure { f with mem := mem }

end Panda
