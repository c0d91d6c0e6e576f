import Verif.Model.Session
import Verif.Model.TestArgs

/-!
# The tests run by the test program (tests/testresampler.cc:375-670 `perform_test`)

Modelled: the two resamplers, the three arrays, every call of `process_block`, and what is compared with the expected output. The
test signal is a sequence of samples, `sin` and the computations of the phases (`double`) are not modelled. The values returned by
`rand()` are a sequence of numbers. Text output and the measurement of time are not modelled, nor is the computation of the error
spectrum. An array is modelled by a buffer of the requested size; a failure of `malloc` is not modelled.
-/

namespace Panda.Tool

open Panda

variable {F : Type} [Zero F] [One F] [Add F] [Sub F] [Mul F] [Sample F]

/-- `p + off` for a pointer `p` to the start of a buffer (`input + misalign`, testresampler.cc:495, 501). -/
def from_ (b : Buf F) (off : Nat) : Buf F := { addr := b.addr + 4 * off, len := b.len - off, get := fun i => b.get (off + i) }

/-- The value of an `int` expression (testresampler.cc:503, 516): overflow is undefined. -/
def int32 (x : Nat) : Res Nat := if x < 2 ^ 31 then pure x else .error .overflow

/-- What the tests depend on: how the library is built, what the allocator does, the options (testresampler.cc:107-121, 378). -/
structure Setup where
  bld : Build
  al : Alloc
  type : ResampleType
  precision : Nat
  useSse : Bool
  blockSize : Nat
  /-- the addresses of the three arrays (testresampler.cc:397) -/
  inAddr : Nat
  outAddr : Nat
  out2Addr : Nat

/-- testresampler.cc:391 `ups` -/
def Setup.ups (su : Setup) : Config := ⟨su.bld, su.al, .up, 2, su.precision, su.useSse, .fir⟩

/-- testresampler.cc:392 `downs` -/
def Setup.downs (su : Setup) : Config := ⟨su.bld, su.al, .down, 2, su.precision, su.useSse, .fir⟩

/-- Local variables of `perform_test` (testresampler.cc:391-398). -/
structure St (F : Type) where
  ups : Resampler F
  downs : Resampler F
  input : Buf F
  output : Buf F
  output2 : Buf F

/-- testresampler.cc:391-398: constructors, `assert`s, arrays (of zeros). -/
def start (su : Setup) : Res (St F) := do
  let ups ← su.ups.new
  let downs ← su.downs.new
  su.bld.assert (su.useSse == (← ups.sseEnabled))
  su.bld.assert (su.useSse == (← downs.sseEnabled))
  let arr (addr : Nat) : Buf F := ⟨addr, u32 (su.blockSize * 2), fun _ => 0⟩
  pure ⟨ups, downs, arr su.inAddr, arr su.outAddr, arr su.out2Addr⟩

/-- testresampler.cc:411-422, 493-504, 648-659: the calls of `process_block`, for `n` samples from `input + off`. `n2`: the number
`n * 2` of samples for the downsampler, as computed by the caller. `st`: the stack during the first and the second call. -/
def callBoth (su : Setup) (st : Stack F × Stack F) (off n : Nat) (n2 : Res Nat) (s : St F) : Res (St F) :=
  match su.type with
  | .down => do
    let (d, o) ← s.downs.processBlock su.bld st.1 (from_ s.input off) n s.output
    pure { s with downs := d, output := o }
  | .sub => do
    let (d, o) ← s.downs.processBlock su.bld st.1 (from_ s.input off) n s.output
    let (u, o2) ← s.ups.processBlock su.bld st.2 o (n / 2) s.output2
    pure { s with downs := d, ups := u, output := o, output2 := o2 }
  | .up => do
    let (u, o) ← s.ups.processBlock su.bld st.1 (from_ s.input off) n s.output
    pure { s with ups := u, output := o }
  | .over => do
    let (u, o) ← s.ups.processBlock su.bld st.1 (from_ s.input off) n s.output
    let (d, o2) ← s.downs.processBlock su.bld st.2 o (← n2) s.output2
    pure { s with downs := d, ups := u, output := o, output2 := o2 }

/-- testresampler.cc:509, 528, 536, 661-663: `check` -/
def St.check (s : St F) (t : ResampleType) : Buf F :=
  match t with
  | .up | .down => s.output
  | .sub | .over => s.output2

/-- testresampler.cc:400-424 `TEST_PERFORMANCE`: the input array is filled once, then there are `reps` iterations. -/
def perf (su : Setup) (sig : Nat → F) (stk : Nat → Stack F × Stack F) (reps : Nat) (s : St F) : Res (St F) := do
  let input ← forN (fun i (b : Buf F) => b.wr i (sig i)) su.blockSize s.input
  forN (fun i s => callBoth su (stk i) 0 su.blockSize (pure (u32 (su.blockSize * 2))) s) reps { s with input := input }

/-- testresampler.cc:638-667 `TEST_IMPULSE` (`block_size` is 150); returns the values printed. -/
def impulse (su : Setup) (st : Stack F × Stack F) (s : St F) : Res (List F) := do
  let input ← s.input.wr 0 1
  let s ← forN (fun i (s : St F) => do
    let a ← s.input.wr (i + 1) 0
    let b ← s.output.wr (i + 1) 0
    let c ← s.output2.wr (i + 1) 0
    pure { s with input := a, output := b, output2 := c }) (su.blockSize - 1) { s with input := input }
  let s ← callBoth su st 0 su.blockSize (pure (u32 (su.blockSize * 2))) s
  forN (fun i l => do pure (l ++ [← (s.check su.type).rd i])) su.blockSize []

/-- State of the loop `while (k < 20000)` (testresampler.cc:466-472): `k`; the number of samples generated so far (for the phase); the
number of values taken from `rand()`; the number of blocks processed; the values compared, with their `k`. -/
structure Acc (F : Type) where
  s : St F
  k : Nat
  phase : Nat
  r : Nat
  blocks : Nat
  log : List (Nat × F)

/-- testresampler.cc:515, 521-522, 529, 537: `out_bs` -/
def outBs (t : ResampleType) (bs : Nat) : Res Nat :=
  match t with
  | .up => int32 (bs * 2)
  | .down => pure (bs / 2)
  | .sub | .over => pure bs

/-- testresampler.cc:482-483: an even number of samples for the downsampler. -/
def blockLen (t : ResampleType) (bs : Nat) : Nat :=
  match t with
  | .down | .sub => bs - bs % 2
  | .up | .over => bs

/-- testresampler.cc:541-573: body of the loop over the outputs. State: `k`, the values compared. -/
def validate (ups : Resampler F) (check : Buf F) (i : Nat) (q : Nat × List (Nat × F)) : Res (Nat × List (Nat × F)) := do
  if q.1 > (← ups.order) * 4 then do
    let y ← check.rd i
    pure (q.1 + 1, q.2 ++ [(q.1, y)])
  else pure (q.1 + 1, q.2)

/-- testresampler.cc:473-574: one iteration of the loop. -/
def accIter (su : Setup) (sig : Nat → F) (stk : Nat → Stack F × Stack F) (rand : Nat → Nat) (a : Acc F) : Res (Acc F) := do
  let misalign := rand a.r % 4
  if su.blockSize ≤ misalign then pure { a with r := a.r + 1 }
  else
    let bs := rand (a.r + 1) % u32 (su.blockSize + 1 - misalign)
    if bs < 2 then pure { a with r := a.r + 2 }
    else do
      let bs := blockLen su.type bs
      let input ← forN (fun i (b : Buf F) => b.wr (i + misalign) (sig (a.phase + i))) bs a.s.input
      let s ← callBoth su (stk a.blocks) misalign bs (int32 (bs * 2)) { a.s with input := input }
      let n ← outBs su.type bs
      let q ← forN (validate s.ups (s.check su.type)) n (a.k, a.log)
      pure ⟨s, q.1, a.phase + bs, a.r + 2, a.blocks + 1, q.2⟩

/-- testresampler.cc:472-574: the first `n` iterations of the loop (fewer if it ends before). -/
def accRun (su : Setup) (sig : Nat → F) (stk : Nat → Stack F × Stack F) (rand : Nat → Nat) : Nat → Acc F → Res (Acc F)
  | 0, a => pure a
  | n + 1, a => if a.k < 20000 then accIter su sig stk rand a >>= accRun su sig stk rand n else pure a

/-- testresampler.cc:466-580: the loop over the test frequencies; one signal and a number of iterations for each. The resamplers and the
arrays are used again, everything else starts anew. Returns for each frequency the final state of its loop. -/
def accFreqs (su : Setup) (stk : Nat → Stack F × Stack F) (rand : Nat → Nat) :
    List ((Nat → F) × Nat) → St F → Nat → Nat → Res (List (Acc F))
  | [], _, _, _ => pure []
  | (sig, n) :: l, s, r, blocks => do
    let a ← accRun su sig stk rand n ⟨s, 0, 0, r, blocks, []⟩
    let as ← accFreqs su stk rand l a.s a.r a.blocks
    pure (a :: as)

/-- testresampler.cc:375-580: the accuracy test up to the computation of the errors. -/
def accuracy (su : Setup) (stk : Nat → Stack F × Stack F) (rand : Nat → Nat) (sigs : List ((Nat → F) × Nat)) : Res (List (Acc F)) := do
  accFreqs su stk rand sigs (← start su) 0 0

/-- testresampler.cc:461, 563-567: `max_diff`, for the values compared (with their `k`) and the expected values. -/
def maxDiff {D : Type} [Zero D] [Sub D] [Max D] (toD : F → D) (correct : Nat → D) (log : List (Nat × F)) (m : D) : D :=
  log.foldl (fun m p => max m (toD p.2 - correct p.1)) m

end Panda.Tool
