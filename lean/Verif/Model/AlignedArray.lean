import Verif.Model.Basic

/-!
# Model of `AlignedArray` (pandaresampler.hh:44-107)

Addresses are byte addresses. `size_t` arithmetic is modulo `2^64`. Memory keeps track of the blocks obtained from
`malloc`, of the objects that are alive and of the order in which objects are destroyed and blocks are freed.
-/

namespace Panda

/-- pandaresampler.hh:58: number of bytes requested from `malloc`, `cache_line_size = 64`
(`size_t` expression). -/
def aaRequest (nElements sizeofT : Nat) : Nat := (nElements * sizeofT + 2 * (64 - 1)) % 2 ^ 64

/-- pandaresampler.hh:59-63: the aligned start inside the block that `malloc` returned. -/
def aaAlign (unaligned : Nat) : Nat :=
  if unaligned % 64 ≠ 0 then unaligned + (64 - unaligned % 64) else unaligned

/-- What can be observed of a destructor (pandaresampler.hh:78-84): the end of an element's lifetime, the release of a
block. -/
inductive MemEvent where
  | dtor (addr : Nat)
  | free (addr : Nat)
  deriving DecidableEq, Repr

/-- Memory as far as `AlignedArray` (pandaresampler.hh:44-107) is concerned: start and size of the live `malloc` blocks, the
objects (of the element type) that are alive, by address, and what happened so far (latest first). -/
structure Mem (T : Type) where
  live : List (Nat × Nat)
  obj : Nat → Option T
  trace : List MemEvent

variable {T : Type}

/-- Is `[a, a + size)` part of a live block? (pandaresampler.hh:58, 71, 82) -/
def Mem.inBlock (m : Mem T) (a size : Nat) : Bool := m.live.any fun b => b.1 ≤ a && a + size ≤ b.1 + b.2

/-- `malloc (size)` (pandaresampler.hh:58), when the allocator returns `p`; a null pointer (`p = 0`) means failure. -/
def Mem.malloc (m : Mem T) (p size : Nat) : Mem T := if p = 0 then m else { m with live := (p, size) :: m.live }

/-- `free (p)` (pandaresampler.hh:83): undefined unless `p` is null or the start of a live block. -/
def Mem.free (m : Mem T) (p : Nat) : Res (Mem T) :=
  if p = 0 then pure m
  else if m.live.any (fun b => b.1 == p) then
    pure { m with live := m.live.eraseP (fun b => b.1 == p), trace := .free p :: m.trace }
  else .error .badFree

/-- `new (a) T()` (pandaresampler.hh:71): the storage has to be inside a live block. -/
def Mem.construct (m : Mem T) (a sizeofT : Nat) (v : T) : Res (Mem T) :=
  if m.inBlock a sizeofT then pure { m with obj := fun b => if b = a then some v else m.obj b } else .error .oobWrite

/-- `*a = v` for an existing element (pandaresampler.hh:76). -/
def Mem.assign (m : Mem T) (a : Nat) (v : T) : Res (Mem T) :=
  match m.obj a with
  | some _ => pure { m with obj := fun b => if b = a then some v else m.obj b }
  | none => .error .oobWrite

/-- `*a` for an existing element (pandaresampler.hh:85-94). -/
def Mem.load (m : Mem T) (a : Nat) : Res T :=
  match m.obj a with
  | some v => pure v
  | none => .error .oobRead

/-- `a->~T()` (pandaresampler.hh:82): undefined unless there is an object. -/
def Mem.destroy (m : Mem T) (a : Nat) : Res (Mem T) :=
  match m.obj a with
  | some _ => pure { m with obj := fun b => if b = a then none else m.obj b, trace := .dtor a :: m.trace }
  | none => .error .badFree

/-- pandaresampler.hh:45-47: members `unaligned_mem`, `data`, `n_elements`; `sizeofT` is `sizeof (T)`. -/
structure AlignedArr where
  unalignedMem : Nat
  data : Nat
  nElements : Nat
  sizeofT : Nat
  deriving DecidableEq, Repr

/-- Address of `data[i]` (pandaresampler.hh:71, 82, 85-94). -/
def AlignedArr.at (a : AlignedArr) (i : Nat) : Nat := a.data + i * a.sizeofT

/-- pandaresampler.hh:50-64 `allocate_aligned_data` and 66-72: constructor; `p` is the address returned by `malloc`, `init`
the value of `T()`. -/
def AlignedArr.new (m : Mem T) (p nElements sizeofT : Nat) (init : T) : Res (Mem T × AlignedArr) := do
  let m := m.malloc p (aaRequest nElements sizeofT)
  let a : AlignedArr := { unalignedMem := p, data := aaAlign p, nElements := nElements, sizeofT := sizeofT }
  let m ← forN (fun i (m : Mem T) => m.construct (a.at i) sizeofT init) nElements m
  pure (m, a)

/-- pandaresampler.hh:73-77: constructor from a vector. -/
def AlignedArr.ofVector (m : Mem T) (p sizeofT : Nat) (init : T) (elements : List T) : Res (Mem T × AlignedArr) := do
  let (m, a) ← AlignedArr.new m p elements.length sizeofT init
  let m ← forN (fun i (m : Mem T) => m.assign (a.at i) (elements.getD i init)) elements.length m
  pure (m, a)

/-- pandaresampler.hh:85-94 `operator[]`, reading. -/
def AlignedArr.read (m : Mem T) (a : AlignedArr) (i : Nat) : Res T := m.load (a.at i)

/-- pandaresampler.hh:85-89 `operator[]`, writing. -/
def AlignedArr.write (m : Mem T) (a : AlignedArr) (i : Nat) (v : T) : Res (Mem T) := m.assign (a.at i) v

/-- The compiler-generated copy constructor / assignment copies the three members
(no user-declared copy operations in pandaresampler.hh:44-107). -/
def AlignedArr.copy (a : AlignedArr) : AlignedArr := a

/-- pandaresampler.hh:78-84: destructor. -/
def AlignedArr.destroy (m : Mem T) (a : AlignedArr) : Res (Mem T) := do
  let (m, _) ← whileF (fun s : Mem T × Nat => s.2 ≠ 0) (fun s => do
    let m ← s.1.destroy (a.at (s.2 - 1))
    pure (m, s.2 - 1)) a.nElements (m, a.nElements)
  m.free a.unalignedMem

end Panda
