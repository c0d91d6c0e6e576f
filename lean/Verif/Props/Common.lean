import Verif.Proofs.Session

/-!
# Sample data for the concrete cases shown beside the theorems
-/

namespace Panda.Examples

/-- Rational numbers as sample type: exact arithmetic, constants taken literally. -/
scoped instance : Sample Rat := ⟨1 / 2, id⟩

/-- An x86 release build with asserts disabled. -/
def x86 : Build := { sse := true, neon := false, ndebug := true }

/-- Some allocator; the addresses are not aligned. -/
def someAlloc : Alloc := { malloc := fun i => 1000 * i + 8, new16 := fun i => i + 7 }

/-- Some stack with garbage in it. -/
def someStack : Stack Rat := { block16 := 5, tmpAddr := 4, tmp2Addr := 8, junk := fun i => i * 1000 + 3 }

/-- A configuration. -/
def cfg (mode : Mode) (ratio precision : Nat) (useSse : Bool) (filter : Filter) : Config :=
  { bld := x86, al := someAlloc, mode := mode, ratio := ratio, precision := precision, useSse := useSse, filter := filter }

/-- An unaligned input buffer with exactly `n` samples `1, 2, ..., n`. -/
def ramp (n : Nat) : Buf Rat := { addr := 4, len := n, get := fun i => i + 1 }

/-- An output buffer of exactly `n` samples, filled with `-1`. -/
def outBuf (n : Nat) : Buf Rat := { addr := 100, len := n, get := fun _ => -1 }

/-- A call with exactly sized buffers. -/
def call (n m : Nat) : Call Rat := { st := someStack, input := ramp n, n := n, output := outBuf m }

end Panda.Examples
