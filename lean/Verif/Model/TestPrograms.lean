import Verif.Model.Session

/-!
# The smaller test programs (/repo/tests)

testaddr.cc, testsimple.cc, testmultiperf.cc, testmultidelay.cc, testdownmulti.cc, testdistort.cc, testsawquality.cc: resamplers, arrays
and calls. Not modelled: text output, measurement of time, Fourier transforms, the comparison with another library (zita-resampler). The
numbers on the command lines (`atoi`) are natural numbers. `vector`s and arrays are buffers of their size, at any address.
-/

namespace Panda.Tool

open Panda

variable {F : Type} [Zero F] [One F] [Add F] [Sub F] [Mul F] [Sample F]

/-! ## testaddr.cc -/

/-- testaddr.cc:18-32: the body of the innermost loop. State: `in`, `out`. -/
def addrStep (bld : Build) (al : Alloc) (m over : Nat) (stk : Nat → Stack F × Stack F) (s : Buf F × Buf F) (p : Nat) :
    Res (Buf F × Buf F) := do
  let ups ← Config.new ⟨bld, al, .up, over, findPrecisionForBits p, true, .fir⟩
  let downs ← Config.new ⟨bld, al, .down, over, findPrecisionForBits p, true, .fir⟩
  let (_, out) ← ups.processBlock bld (stk p).1 s.1 m s.2
  let (_, inp) ← downs.processBlock bld (stk p).2 out (u32 (m * over)) s.1
  pure (inp, out)

/-- testaddr.cc:14-18: `in` and `out` for `M` and `over`, then the loop over the precisions. `addr`: where the vectors are. -/
def addrRatio (bld : Build) (al : Alloc) (m : Nat) (addr : Nat → Nat × Nat) (stk : Nat → Nat → Stack F × Stack F) (over : Nat) : Res Unit := do
  let _ ← [1, 8, 12, 16, 20, 24].foldlM (addrStep bld al m over (stk over))
    (⟨(addr over).1, m, fun _ => 0⟩, ⟨(addr over).2, u32 (m * over), fun _ => 0⟩)
  pure ()

/-- testaddr.cc:9-37 `main`; in the source `limit` is 100. -/
def addr (bld : Build) (al : Alloc) (limit : Nat) (addr : Nat → Nat → Nat × Nat) (stk : Nat → Nat → Nat → Stack F × Stack F) : Res Unit :=
  forN (fun m _ => do
    let _ ← [1, 2, 4, 8].foldlM (fun _ over => addrRatio bld al m (addr m) (stk m) over) ()
    pure ()) limit ()

/-! ## testmultiperf.cc, testmultidelay.cc -/

/-- The last argument: `fir`, `iir` or `iir-sse`. (testmultiperf.cc:44-45, testmultidelay.cc:140-141) -/
inductive Kind where
  | fir
  | iir
  | iirSse
  deriving DecidableEq, Repr

/-- What the tests depend on: how the library is built, the allocator, the arguments. (testmultiperf.cc:39-45, testmultidelay.cc:136-141) -/
structure Multi where
  bld : Build
  al : Alloc
  ratio : Nat
  bits : Nat
  kind : Kind

/-- testmultiperf.cc:39-51, testmultidelay.cc:36-39: `ups` and `downs` -/
def Multi.cfg (t : Multi) (m : Mode) : Config :=
  ⟨t.bld, t.al, m, t.ratio, findPrecisionForBits t.bits, t.kind = .fir ∨ t.kind = .iirSse, if t.kind = .fir then .fir else .iir⟩

/-- State of the loop of testmultiperf.cc. -/
structure PerfSt (F : Type) where
  ups : Resampler F
  downs : Resampler F
  inp : Buf F
  out : Buf F

/-- testmultiperf.cc:65-66: `if (up)` -/
def perfUp (t : Multi) (up : Bool) (st : Stack F) (s : PerfSt F) : Res (PerfSt F) :=
  if up then do
    let (r, o) ← s.ups.processBlock t.bld st s.inp 128 s.out
    pure { s with ups := r, out := o }
  else pure s

/-- testmultiperf.cc:68-69: `if (down)` -/
def perfDown (t : Multi) (down : Bool) (st : Stack F) (s : PerfSt F) : Res (PerfSt F) :=
  if down then do
    let (r, o) ← s.downs.processBlock t.bld st s.out (128 * t.ratio) s.inp
    pure { s with downs := r, inp := o }
  else pure s

/-- testmultiperf.cc:64-71: body of the loop -/
def multiPerfStep (t : Multi) (up down : Bool) (stk : Nat → Stack F × Stack F) (i : Nat) (s : PerfSt F) : Res (PerfSt F) := do
  perfDown t down (stk i).2 (← perfUp t up (stk i).1 s)

/-- testmultiperf.cc:50-71 `main` after the arguments; in the source `iters` is 1000000. `over` sets both `up` and `down`
(testmultiperf.cc:33-37). -/
def multiPerf (t : Multi) (up down : Bool) (inAddr outAddr : Nat) (stk : Nat → Stack F × Stack F) (iters : Nat) : Res (PerfSt F) := do
  let ups ← (t.cfg .up).new
  let downs ← (t.cfg .down).new
  t.bld.assert (t.ratio ≤ 8)
  forN (multiPerfStep t up down stk) iters ⟨ups, downs, ⟨inAddr, 128, fun _ => 0⟩, ⟨outAddr, 128 * 8, fun _ => 0⟩⟩

/-- testmultidelay.cc:19-21 `up`, `down`, `over` -/
inductive Dir where
  | up
  | down
  | over
  deriving DecidableEq, Repr

/-- Reads `out[0]` ... `out[n-1]` (testmultidelay.cc:87-99). -/
def readAll (out : Buf F) (n : Nat) : Res (List F) := forN (fun i l => do pure (l ++ [← out.rd i])) n []

/-- testmultidelay.cc:30-99 `Test::run`; returns the outputs that are looked at and `delay`. `sig`: the test signal. -/
def multiDelay (t : Multi) (dir : Dir) (sig : Nat → F) (inAddr outAddr tmpAddr : Nat) (stk : Stack F × Stack F) : Res (List F × Rat) := do
  let ups ← (t.cfg .up).new
  let downs ← (t.cfg .down).new
  t.bld.assert (t.ratio ≤ 8)
  let inp : Buf F := ⟨inAddr, 1024, sig⟩
  let out : Buf F := ⟨outAddr, 1024 * 8, fun _ => 0⟩
  match dir with
  | .up => do
    let (ups, out) ← ups.processBlock t.bld stk.1 inp 1024 out
    let d ← ups.delay
    pure (← readAll out (1024 * t.ratio), d)
  | .down => do
    let (downs, out) ← downs.processBlock t.bld stk.1 inp 1024 out
    let d ← downs.delay
    pure (← readAll out (1024 / t.ratio), d)
  | .over => do
    let d := (← ups.delay) / t.ratio + (← downs.delay)
    let tmp : Buf F := ⟨tmpAddr, 1024 * 8, fun _ => 0⟩
    let (_, tmp) ← ups.processBlock t.bld stk.1 inp 1024 tmp
    let (_, out) ← downs.processBlock t.bld stk.2 tmp (1024 * t.ratio) out
    pure (← readAll out 1024, d)

/-! ## testdownmulti.cc, testdistort.cc, testsawquality.cc, testsimple.cc -/

/-- testdownmulti.cc:37-54 `check_amps`: `in` is filled, `out` has `FFT_SIZE` samples; returns `out`. -/
def checkAmps (bld : Build) (al : Alloc) (ds bits : Nat) (fir : Bool) (sig : Nat → F) (inAddr outAddr : Nat) (st : Stack F) : Res (Buf F) := do
  let downs ← Config.new ⟨bld, al, .down, ds, findPrecisionForBits bits, false, if fir then .fir else .iir⟩
  let (_, out) ← downs.processBlock bld st ⟨inAddr, 8192 * ds, sig⟩ (8192 * ds) ⟨outAddr, 8192, fun _ => 0⟩
  pure out

/-- Applies a function to the first `n` samples of an array (testdistort.cc:95-98, testsawquality.cc:99-100). -/
def mapBuf (g : F → F) (n : Nat) (b : Buf F) : Res (Buf F) := forN (fun i b => do b.wr i (g (← b.rd i))) n b

/-- testdistort.cc:81-106 (`fir`: SSE if available, `iir`: not, testdistort.cc:62-73), testsawquality.cc:93-102 `Saturation::process`:
upsampling, a function `g` applied to every sample (`atan` or `tanh`), downsampling. The array in between has just the right size. -/
def saturate (cu cd : Config) (g : F → F) (n : Nat) (inp out : Buf F) (tmpAddr : Nat) (junk : Nat → F) (stk : Stack F × Stack F)
    (ups downs : Resampler F) : Res (Resampler F × Resampler F × Buf F) := do
  let (ups, tmp) ← ups.processBlock cu.bld stk.1 inp n ⟨tmpAddr, n * cu.ratio, junk⟩
  let tmp ← mapBuf g (n * cu.ratio) tmp
  let (downs, out) ← downs.processBlock cd.bld stk.2 tmp (n * cu.ratio) out
  pure (ups, downs, out)

/-- One call of `Saturation::process`: arguments, and what is on the stack. (testsawquality.cc:93-102) -/
structure SatCall (F : Type) where
  n : Nat
  inp : Buf F
  out : Buf F
  tmpAddr : Nat
  junk : Nat → F
  stk : Stack F × Stack F

/-- Calls of `Saturation::process` one after the other (testsawquality.cc:93-102); returns the output arrays. -/
def satRun (cu cd : Config) (g : F → F) : List (SatCall F) → Resampler F → Resampler F → Res (List (Buf F))
  | [], _, _ => pure []
  | c :: cs, ups, downs => do
    let (ups, downs, out) ← saturate cu cd g c.n c.inp c.out c.tmpAddr c.junk c.stk ups downs
    pure (out :: (← satRun cu cd g cs ups downs))

/-- The constructor (testsawquality.cc:68-73), and then calls of `process`. -/
def satSession (cu cd : Config) (g : F → F) (cs : List (SatCall F)) : Res (List (Buf F)) := do
  let ups ← cu.new
  let downs ← cd.new
  satRun cu cd g cs ups downs

/-- What can be done with an object of the class `Saturation`. (testsawquality.cc:74-102) -/
inductive SatOp (F : Type) where
  | process (c : SatCall F)
  | reset

/-- pandaresampler.hh:386-411 and testsawquality.cc:66-103: calls of `process` and `reset` one after the other; returns the output arrays. -/
def satOps (cu cd : Config) (g : F → F) : List (SatOp F) → Resampler F → Resampler F → Res (List (Option (Buf F)))
  | [], _, _ => pure []
  | .process c :: ops, ups, downs => do
    let (ups, downs, out) ← saturate cu cd g c.n c.inp c.out c.tmpAddr c.junk c.stk ups downs
    pure (some out :: (← satOps cu cd g ops ups downs))
  | .reset :: ops, ups, downs => do
    let ups ← ups.reset
    let downs ← downs.reset
    pure (none :: (← satOps cu cd g ops ups downs))

/-- The constructor (pandaresampler.hh:388-393), and then calls of `process` and `reset`. -/
def satOpSession (cu cd : Config) (g : F → F) (ops : List (SatOp F)) : Res (List (Option (Buf F))) := do
  let ups ← cu.new
  let downs ← cd.new
  satOps cu cd g ops ups downs

/-- pandaresampler.hh:386-393 (default arguments: pandaresampler.hh:172-176): `ups` and `downs` of the example in the documentation. -/
def docCfg (bld : Build) (al : Alloc) (m : Mode) : Config := ⟨bld, al, m, 8, 12, true, .fir⟩

/-- testdistort.cc:36-106 `main` for `fir` and `iir`, and an argument `over` that is not 0: 240000 samples (5 seconds). -/
def distort (bld : Build) (al : Alloc) (over : Nat) (fir : Bool) (g : F → F) (sig : Nat → F) (inAddr outAddr tmpAddr : Nat)
    (stk : Stack F × Stack F) : Res (Buf F) := do
  let cu : Config := ⟨bld, al, .up, over, 16, fir, if fir then .fir else .iir⟩
  let cd : Config := ⟨bld, al, .down, over, 16, fir, if fir then .fir else .iir⟩
  let ups ← cu.new
  let downs ← cd.new
  let (_, _, out) ← saturate cu cd g 240000 ⟨inAddr, 240000, sig⟩ ⟨outAddr, 240000, fun _ => 0⟩ tmpAddr (fun _ => 0) stk ups downs
  pure out

/-- testsawquality.cc:68-73 `Saturation::ups`, `downs` -/
def satCfg (bld : Build) (al : Alloc) (m : Mode) : Config := ⟨bld, al, m, 8, 16, true, .fir⟩

/-- testsawquality.cc:116-130 `main` in mode `panda`, up to the Fourier transform: `Saturation::process` once, 8192 samples. `tmp` is an
array on the stack. -/
def sawQuality (bld : Build) (al : Alloc) (g : F → F) (sig : Nat → F) (inAddr outAddr tmpAddr : Nat) (junk : Nat → F)
    (stk : Stack F × Stack F) : Res (Buf F) := do
  let ups ← (satCfg bld al .up).new
  let downs ← (satCfg bld al .down).new
  let (_, _, out) ← saturate (satCfg bld al .up) (satCfg bld al .down) g 8192 ⟨inAddr, 8192, sig⟩ ⟨outAddr, 8192, fun _ => 0⟩ tmpAddr junk stk
    ups downs
  pure out

/-- testsimple.cc:8-18 `main`; returns `out` -/
def simple (bld : Build) (al : Alloc) (sig : Nat → F) (inAddr outAddr : Nat) (st : Stack F) : Res (Buf F) := do
  let ups ← Config.new ⟨bld, al, .up, 2, 16, true, .fir⟩
  let (_, out) ← ups.processBlock bld st ⟨inAddr, 256, sig⟩ 256 ⟨outAddr, 512, fun _ => 0⟩
  pure out

end Panda.Tool
