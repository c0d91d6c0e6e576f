import Verif.Model.Fir
import Verif.Model.Iir
import Verif.Model.AlignedArray
import Verif.Model.Tables

/-!
# Model of `Resampler2` (pandaresampler.hh:112-357 and pandaresampler.cc)

`PANDA_RESAMPLER_CHECK` only prints a message and returns its argument; the printing is not modelled.
-/

namespace Panda

variable {F : Type} [Zero F] [One F] [Add F] [Sub F] [Mul F] [Sample F]

/-- pandaresampler.hh:144-147 -/
inductive Mode where
  | up
  | down
  deriving DecidableEq, Repr

/-- pandaresampler.hh:159-162 -/
inductive Filter where
  | iir
  | fir
  deriving DecidableEq, Repr

/-- Addresses handed out by the allocator while a resampler is constructed:
`malloc i` for the `i`-th `AlignedArray`, `16 * new16 i` for the `i`-th object created with `new`
(`operator new` returns memory aligned for `alignas (16)` members). (pandaresampler.hh:58, 332) -/
structure Alloc where
  malloc : Nat → Nat
  new16 : Nat → Nat

/-- Classes derived from `Resampler2::Impl` (pandaresampler.hh:113-125). The IIR classes carry `delay_`
(pandaresampler.cc:1074-1226). Simplification: `double` delays are modelled by exact rationals. -/
inductive Impl (F : Type) where
  /-- `Upsampler2<ORDER, USE_SSE>` -/
  | firUp (u : Up2 F)
  /-- `Downsampler2<ORDER, USE_SSE>` -/
  | firDown (d : Down2 F)
  /-- `IIRUpsampler2<ORDER>` -/
  | iirUp (f : FpuFilter F) (delay : Rat)
  /-- `IIRDownsampler2<ORDER>` -/
  | iirDown (f : FpuFilter F) (delay : Rat)
  /-- `IIRUpsampler2SSE<ORDER>` -/
  | iirUpSse (f : SseFilter F) (delay : Rat)
  /-- `IIRDownsampler2SSE<ORDER>` -/
  | iirDownSse (f : SseFilter F) (delay : Rat)

/-- Virtual `process_block`: pandaresampler.cc:443-465 (FIR up), 599-660 (FIR down), 1085-1091 and 1162-1168
(IIR down: `n_input_samples / 2` output samples), 1122-1126 and 1199-1203 (IIR up). -/
def Impl.processBlock (bld : Build) (st : Stack F) (i : Impl F) (input : Buf F) (ioff n : Nat)
    (output : Buf F) (ooff : Nat) : Res (Impl F × Buf F) :=
  match i with
  | .firUp u => do
    let (u, o) ← u.processBlock input ioff n output ooff
    pure (.firUp u, o)
  | .firDown d => do
    let (d, o) ← d.processBlock st input ioff n output ooff
    pure (.firDown d, o)
  | .iirUp f dl => do
    let (f, o) ← f.upBlock bld input ioff n output ooff
    pure (.iirUp f dl, o)
  | .iirDown f dl => do
    let (f, o) ← f.downBlock bld input ioff (n / 2) output ooff
    pure (.iirDown f dl, o)
  | .iirUpSse f dl => do
    let (f, o) ← f.upBlock bld input ioff n output ooff
    pure (.iirUpSse f dl, o)
  | .iirDownSse f dl => do
    let (f, o) ← f.downBlock bld input ioff (n / 2) output ooff
    pure (.iirDownSse f dl, o)

/-- Virtual `order()`: pandaresampler.cc:469-473, 664-668, 1092-1096, 1127-1131, 1169-1173, 1204-1208 -/
def Impl.order : Impl F → Nat
  | .firUp u => u.order
  | .firDown d => d.order
  | .iirUp f _ => f.nbrCoefs
  | .iirDown f _ => f.nbrCoefs
  | .iirUpSse f _ => f.nbrCoefs
  | .iirDownSse f _ => f.nbrCoefs

/-- Virtual `delay()`: pandaresampler.cc:474-478 (`order() - 1`, an unsigned subtraction), 669-673
(`order() / 2 - 0.5`), and `delay_` for the IIR classes. -/
def Impl.delay : Impl F → Rat
  | .firUp u => ((u.order - 1 : Nat) : Rat)
  | .firDown d => ((d.order / 2 : Nat) : Rat) - 1 / 2
  | .iirUp _ dl => dl
  | .iirDown _ dl => dl
  | .iirUpSse _ dl => dl
  | .iirDownSse _ dl => dl

/-- Virtual `reset()`: pandaresampler.cc:479-483, 674-679, 1102-1106, 1137-1141, 1179-1183, 1214-1218 -/
def Impl.reset : Impl F → Res (Impl F)
  | .firUp u => pure (.firUp u.reset)
  | .firDown d => pure (.firDown d.reset)
  | .iirUp f dl => do pure (.iirUp (← f.clearBuffers) dl)
  | .iirDown f dl => do pure (.iirDown (← f.clearBuffers) dl)
  | .iirUpSse f dl => do pure (.iirUpSse (← f.clearBuffers) dl)
  | .iirDownSse f dl => do pure (.iirDownSse (← f.clearBuffers) dl)

/-- Virtual `sse_enabled()`: pandaresampler.cc:484-488, 680-684, 1107-1111, 1142-1146, 1184-1188, 1219-1223 -/
def Impl.sseEnabled : Impl F → Bool
  | .firUp u => u.useSse
  | .firDown d => d.useSse
  | .iirUp _ _ => false
  | .iirDown _ _ => false
  | .iirUpSse _ _ => true
  | .iirDownSse _ _ => true

/-- pandaresampler.cc:432-438: constructor of `Upsampler2`. `k` numbers the stage (to pick addresses). -/
def Up2.new (al : Alloc) (k : Nat) (useSse : Bool) (taps : List F) : Res (Up2 F) := do
  let order := taps.length
  let tapsB := Buf.ofList 0 0 taps
  let sse ← firComputeSseTaps (aaAlign (al.malloc (4 * k + 1))) tapsB
  pure { order := order, useSse := useSse, taps := tapsB,
         history := { addr := aaAlign (al.malloc (4 * k)), len := 2 * order, get := fun _ => 0 },
         sseTaps := sse }

/-- pandaresampler.cc:587-594: constructor of `Downsampler2`. -/
def Down2.new (al : Alloc) (k : Nat) (useSse : Bool) (taps : List F) : Res (Down2 F) := do
  let order := taps.length
  let tapsB := Buf.ofList 0 0 taps
  let sse ← firComputeSseTaps (aaAlign (al.malloc (4 * k + 2))) tapsB
  pure { order := order, useSse := useSse, taps := tapsB,
         historyEven := { addr := aaAlign (al.malloc (4 * k)), len := 2 * order, get := fun _ => 0 },
         historyOdd := { addr := aaAlign (al.malloc (4 * k + 1)), len := 2 * order, get := fun _ => 0 },
         sseTaps := sse }

/-- pandaresampler.hh:323-337 `create_impl_with_coeffs`: `taps[i] = d[i] * scaling`, a `double` product
converted to `float`. -/
def firTaps (d : List Dec) (scaling : Rat) : List F := d.map fun c => Sample.ofDouble (c.toRat * scaling)

/-- pandaresampler.cc:687-1072 `create_impl`: which table is used for a stage and a precision. -/
def firTable (stageRatio precision : Nat) : Option (List Dec) :=
  if stageRatio = 2 ∧ precision = 24 then some fir2x24
  else if stageRatio = 4 ∧ precision = 24 then some fir4x24
  else if stageRatio = 8 ∧ precision = 24 then some fir8x24
  else if stageRatio = 2 ∧ precision = 20 then some fir2x20
  else if stageRatio = 4 ∧ precision = 20 then some fir4x20
  else if stageRatio = 8 ∧ precision = 20 then some fir8x20
  else if stageRatio = 2 ∧ precision = 16 then some fir2x16
  else if stageRatio = 4 ∧ precision = 16 then some fir4x16
  else if stageRatio = 8 ∧ precision = 16 then some fir8x16
  else if stageRatio = 2 ∧ precision = 12 then some fir2x12
  else if stageRatio = 4 ∧ precision = 12 then some fir4x12
  else if stageRatio = 8 ∧ precision = 12 then some fir8x12
  else if stageRatio = 2 ∧ precision = 8 then some fir2x8
  else if stageRatio = 4 ∧ precision = 8 then some fir4x8
  else if stageRatio = 8 ∧ precision = 8 then some fir8x8
  else if precision = 1 then some firLinear
  else none

/-- pandaresampler.cc:687-1072 `create_impl<USE_SSE>`: scaling 2.0 for UP, 1.0 for DOWN; null if no table matches. -/
def createImpl (al : Alloc) (k : Nat) (useSse : Bool) (mode : Mode) (precision stageRatio : Nat) :
    Res (Option (Impl F)) :=
  match firTable stageRatio precision with
  | none => pure none
  | some t =>
    match mode with
    | .up => do
      let u ← Up2.new al k useSse (firTaps t 2)
      pure (some (.firUp u))
    | .down => do
      let d ← Down2.new al k useSse (firTaps t 1)
      pure (some (.firDown d))

/-- pandaresampler.cc:1228-1367 `create_impl_iir`: which coefficients and group delay are used. -/
def iirTable (stageRatio precision : Nat) : Option (List Dec × Dec) :=
  if stageRatio = 2 ∧ precision = 8 then some (iir2x8, gd2x8)
  else if stageRatio = 4 ∧ precision = 8 then some (iir4x8, gd4x8)
  else if stageRatio = 8 ∧ precision = 8 then some (iir8x8, gd8x8)
  else if stageRatio = 2 ∧ precision = 12 then some (iir2x12, gd2x12)
  else if stageRatio = 4 ∧ precision = 12 then some (iir4x12, gd4x12)
  else if stageRatio = 8 ∧ precision = 12 then some (iir8x12, gd8x12)
  else if stageRatio = 2 ∧ precision = 16 then some (iir2x16, gd2x16)
  else if stageRatio = 4 ∧ precision = 16 then some (iir4x16, gd4x16)
  else if stageRatio = 8 ∧ precision = 16 then some (iir8x16, gd8x16)
  else if stageRatio = 2 ∧ precision = 20 then some (iir2x20, gd2x20)
  else if stageRatio = 4 ∧ precision = 20 then some (iir4x20, gd4x20)
  else if stageRatio = 8 ∧ precision = 20 then some (iir8x20, gd8x20)
  else if stageRatio = 2 ∧ precision = 24 then some (iir2x24, gd2x24)
  else if stageRatio = 4 ∧ precision = 24 then some (iir4x24, gd4x24)
  else if stageRatio = 8 ∧ precision = 24 then some (iir8x24, gd8x24)
  else none

/-- pandaresampler.cc:1369-1391 `create_impl_iir_with_coeffs`: the SSE classes exist only if `__SSE__` is
defined. Constructors: pandaresampler.cc:1079-1083, 1117-1121, 1156-1160, 1194-1198 with
`delay_ = group_delay` (up) and `(group_delay - 1) / 2` (down). -/
def createImplIirWithCoeffs (bld : Build) (al : Alloc) (k : Nat) (useSseIfAvailable : Bool) (mode : Mode)
    (cs : List Dec) (gd : Dec) : Res (Impl F) :=
  let coefs : Buf F := Buf.ofList 0 0 (cs.map fun c => Sample.ofDouble c.toRat)
  if bld.sse && useSseIfAvailable then do
    let f ← SseFilter.new (16 * al.new16 k) coefs
    match mode with
    | .up => pure (.iirUpSse f gd.toRat)
    | .down => pure (.iirDownSse f ((gd.toRat - 1) / 2))
  else do
    let f ← FpuFilter.new coefs
    match mode with
    | .up => pure (.iirUp f gd.toRat)
    | .down => pure (.iirDown f ((gd.toRat - 1) / 2))

/-- pandaresampler.cc:1228-1367 `create_impl_iir` -/
def createImplIir (bld : Build) (al : Alloc) (k : Nat) (useSseIfAvailable : Bool) (mode : Mode)
    (precision stageRatio : Nat) : Res (Option (Impl F)) :=
  match iirTable stageRatio precision with
  | none => pure none
  | some (cs, gd) => do
    let i ← createImplIirWithCoeffs bld al k useSseIfAvailable mode cs gd
    pure (some i)

/-- pandaresampler.cc:116-125 `sse_available` -/
def sseAvailable (bld : Build) : Bool := bld.sse || bld.neon

/-- pandaresampler.hh:126-129, 164-167: data members. A null `unique_ptr` is `none`; `ratio` and `precision` are
the numeric values (`precision` of the enumerator, e.g. `PREC_96DB = 16`). -/
structure Resampler (F : Type) where
  implX2 : Option (Impl F)
  implX4 : Option (Impl F)
  implX8 : Option (Impl F)
  ratio : Nat
  mode : Mode
  precision : Nat
  useSseIfAvailable : Bool
  filter : Filter

/-- pandaresampler.cc:83-114 `init_stage`, for a stage pointer that is still null. -/
def initStage (bld : Build) (al : Alloc) (mode : Mode) (ratio precision : Nat) (useSse : Bool) (filter : Filter)
    (k stageRatio : Nat) : Res (Option (Impl F)) :=
  if stageRatio > ratio then pure none
  else
    match filter with
    | .fir => createImpl al k (sseAvailable bld && useSse) mode precision stageRatio
    | .iir => createImplIir bld al k useSse mode precision stageRatio

/-- pandaresampler.cc:63-81: constructor. -/
def Resampler.new (bld : Build) (al : Alloc) (mode : Mode) (ratio precision : Nat) (useSse : Bool)
    (filter : Filter) : Res (Resampler F) := do
  let x2 ← initStage bld al mode ratio precision useSse filter 0 2
  let x4 ← initStage bld al mode ratio precision useSse filter 1 4
  let x8 ← initStage bld al mode ratio precision useSse filter 2 8
  pure { implX2 := x2, implX4 := x4, implX8 := x8, ratio := ratio, mode := mode, precision := precision,
         useSseIfAvailable := useSse, filter := filter }

/-- dereference of a `unique_ptr<Impl>` (pandaresampler.hh:126-128, 201) -/
def deref (p : Option (Impl F)) : Res (Impl F) :=
  match p with
  | some i => pure i
  | none => .error .nullDeref

/-- State of the loop in `Resampler2::process_block` (pandaresampler.hh:207-250) -/
structure RLoop (F : Type) where
  r : Resampler F
  n : Nat
  ioff : Nat
  output : Buf F
  ooff : Nat

/-- pandaresampler.hh:208-248: body of the `while (n_input_samples)` loop, `block_size = 1024`;
`tmp` and `tmp2` are uninitialised stack arrays of 4096 floats. -/
def Resampler.loopBody (bld : Build) (st : Stack F) (input : Buf F) (s : RLoop F) : Res (RLoop F) := do
  let r := s.r
  let nTodo := min 1024 s.n
  let tmp : Buf F := { addr := st.tmpAddr, len := 1024 * 4, get := st.junk }
  let tmp2 : Buf F := { addr := st.tmp2Addr, len := 1024 * 4, get := st.junk }
  match r.mode with
  | .up =>
    if r.ratio = 4 then do
      let (i2, tmp) ← (← deref r.implX2).processBlock bld st input s.ioff nTodo tmp 0
      let (i4, output) ← (← deref r.implX4).processBlock bld st tmp 0 (nTodo * 2) s.output s.ooff
      pure { r := { r with implX2 := some i2, implX4 := some i4 }, n := s.n - nTodo, ioff := s.ioff + nTodo,
             output := output, ooff := s.ooff + u32 (nTodo * r.ratio) }
    else do
      let (i2, tmp) ← (← deref r.implX2).processBlock bld st input s.ioff nTodo tmp 0
      let (i4, tmp2) ← (← deref r.implX4).processBlock bld st tmp 0 (nTodo * 2) tmp2 0
      let (i8, output) ← (← deref r.implX8).processBlock bld st tmp2 0 (nTodo * 4) s.output s.ooff
      pure { r := { r with implX2 := some i2, implX4 := some i4, implX8 := some i8 }, n := s.n - nTodo,
             ioff := s.ioff + nTodo, output := output, ooff := s.ooff + u32 (nTodo * r.ratio) }
  | .down =>
    if r.ratio = 4 then do
      let (i4, tmp) ← (← deref r.implX4).processBlock bld st input s.ioff nTodo tmp 0
      let (i2, output) ← (← deref r.implX2).processBlock bld st tmp 0 (nTodo / 2) s.output s.ooff
      pure { r := { r with implX2 := some i2, implX4 := some i4 }, n := s.n - nTodo, ioff := s.ioff + nTodo,
             output := output, ooff := s.ooff + nTodo / r.ratio }
    else do
      let (i8, tmp) ← (← deref r.implX8).processBlock bld st input s.ioff nTodo tmp 0
      let (i4, tmp2) ← (← deref r.implX4).processBlock bld st tmp 0 (nTodo / 2) tmp2 0
      let (i2, output) ← (← deref r.implX2).processBlock bld st tmp2 0 (nTodo / 4) s.output s.ooff
      pure { r := { r with implX2 := some i2, implX4 := some i4, implX8 := some i8 }, n := s.n - nTodo,
             ioff := s.ioff + nTodo, output := output, ooff := s.ooff + nTodo / r.ratio }

/-- pandaresampler.hh:195-251 `process_block (input, n_input_samples, output)`. -/
def Resampler.processBlock (bld : Build) (st : Stack F) (r : Resampler F) (input : Buf F) (n : Nat)
    (output : Buf F) : Res (Resampler F × Buf F) :=
  if r.ratio = 2 then do
    let (i2, output) ← (← deref r.implX2).processBlock bld st input 0 n output 0
    pure ({ r with implX2 := some i2 }, output)
  else if r.ratio = 1 then do
    let output ← copyN input 0 n output 0
    pure (r, output)
  else do
    let s ← whileF (fun s : RLoop F => s.n ≠ 0) (Resampler.loopBody bld st input) n
      { r := r, n := n, ioff := 0, output := output, ooff := 0 }
    pure (s.r, s.output)

/-- pandaresampler.hh:255-259 `order()` -/
def Resampler.order (r : Resampler F) : Res Nat := do
  let i ← deref r.implX2
  pure i.order

/-- pandaresampler.hh:272-295 `delay()`; `d += d + x` doubles the delay of the earlier stages. -/
def Resampler.delay (r : Resampler F) : Res Rat := do
  let d : Rat := 0
  match r.mode with
  | .up => do
    let d ← show Res Rat from if r.ratio ≥ 2 then do pure (d + (← deref r.implX2).delay) else pure d
    let d ← show Res Rat from if r.ratio ≥ 4 then do pure (d + (d + (← deref r.implX4).delay)) else pure d
    if r.ratio ≥ 8 then do pure (d + (d + (← deref r.implX8).delay)) else pure d
  | .down => do
    let d ← show Res Rat from if r.ratio ≥ 2 then do pure (d + (← deref r.implX2).delay) else pure d
    let d ← show Res Rat from if r.ratio ≥ 4 then do pure (d + (← deref r.implX4).delay / 2) else pure d
    if r.ratio ≥ 8 then do pure (d + (← deref r.implX8).delay / 4) else pure d

/-- `if (cond) p->reset();` (pandaresampler.hh:302-307) -/
def resetStage (cond : Bool) (p : Option (Impl F)) : Res (Option (Impl F)) :=
  if cond then do
    let i ← deref p
    let i ← i.reset
    pure (some i)
  else pure p

/-- pandaresampler.hh:299-308 `reset()` -/
def Resampler.reset (r : Resampler F) : Res (Resampler F) := do
  let x2 ← resetStage (r.ratio ≥ 2) r.implX2
  let x4 ← resetStage (r.ratio ≥ 4) r.implX4
  let x8 ← resetStage (r.ratio ≥ 8) r.implX8
  pure { r with implX2 := x2, implX4 := x4, implX8 := x8 }

/-- pandaresampler.hh:312-316 `sse_enabled()` -/
def Resampler.sseEnabled (r : Resampler F) : Res Bool := do
  let i ← deref r.implX2
  pure i.sseEnabled

/-- pandaresampler.cc:127-146 `find_precision_for_bits` (`bits` is a `uint`); the result is the value of the
enumerator. -/
def findPrecisionForBits (bits : Nat) : Nat :=
  if bits ≤ 1 then 1
  else if bits ≤ 8 then 8
  else if bits ≤ 12 then 12
  else if bits ≤ 16 then 16
  else if bits ≤ 20 then 20
  else 24

/-- pandaresampler.cc:148-162 `precision_name` -/
def precisionName (precision : Nat) : String :=
  match precision with
  | 1 => "linear interpolation"
  | 8 => "8 bit (48dB)"
  | 12 => "12 bit (72dB)"
  | 16 => "16 bit (96dB)"
  | 20 => "20 bit (120dB)"
  | 24 => "24 bit (144dB)"
  | _ => "unknown precision enum value"

end Panda
