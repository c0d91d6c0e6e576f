import Verif.Model.Session

/-!
# Dynamic memory and the life of `Resampler2` objects

What `Resampler2` objects own, when it is allocated and when it is released: constructors (also when an allocation
fails and the exception unwinds the objects built so far), the implicitly declared move operations and destructor.

Blocks are numbered in the order of the allocation attempts; addresses play no role here (see `Alloc`). Simplifications:
an exception thrown by a destructor does not occur in this code, so `onThrow` treats it as undefined; the values of the
`malloc` blocks are in `Verif.Model.AlignedArray`.
-/

namespace Panda

/-- How a block was obtained: `operator new` (also the storage of a `std::vector`), or `malloc` (pandaresampler.hh:58). -/
inductive BlockKind where
  | opNew
  | malloc
  deriving DecidableEq, Repr

/-- A live block: number and origin. (pandaresampler.hh:58, 332) -/
abbrev Block := Nat × BlockKind

/-- The live blocks, and the number of the next allocation attempt. (pandaresampler.hh:58, 83, 332) -/
structure Heap where
  live : List Block
  next : Nat
  deriving DecidableEq, Repr

/-- Which allocation attempts fail: `operator new` then throws `std::bad_alloc`, `malloc` returns null. (pandaresampler.hh:58, 332) -/
structure AllocFail where
  opNew : Nat → Bool
  malloc : Nat → Bool

/-- How a piece of code ends: with a value, with an exception, or undefined. (pandaresampler.hh:332) -/
inductive Out (α : Type) where
  | val (a : α) (h : Heap)
  | thrown (h : Heap)
  | ub (u : UB)
  deriving DecidableEq, Repr

/-- Code that allocates and releases memory. (pandaresampler.hh:58, 83, 332) -/
def HM (α : Type) : Type := AllocFail → Heap → Out α

instance : Monad HM where
  pure a := fun _ h => .val a h
  bind x f := fun af h =>
    match x af h with
    | .val a h => f a af h
    | .thrown h => .thrown h
    | .ub u => .ub u

/-- Undefined behaviour. (pandaresampler.hh:83) -/
def HM.ub {α : Type} (u : UB) : HM α := fun _ _ => .ub u

/-- Stack unwinding: when `x` throws, `cleanup` runs and the exception propagates. (pandaresampler.hh:332) -/
def HM.onThrow {α : Type} (x : HM α) (cleanup : HM Unit) : HM α := fun af h =>
  match x af h with
  | .thrown h =>
    match cleanup af h with
    | .val _ h => .thrown h
    | .thrown _ => .ub .badFree
    | .ub u => .ub u
  | o => o

/-- `operator new` (pandaresampler.hh:332) -/
def opNew : HM Nat := fun af h =>
  if af.opNew h.next then .thrown { h with next := h.next + 1 }
  else .val h.next { live := (h.next, .opNew) :: h.live, next := h.next + 1 }

/-- `operator delete` of a non-null pointer: undefined unless it came from `operator new` and is still live. (pandaresampler.hh:126-128) -/
def opDelete (p : Nat) : HM Unit := fun _ h =>
  if (p, BlockKind.opNew) ∈ h.live then .val () { h with live := h.live.erase (p, .opNew) } else .ub .badFree

/-- `malloc` (pandaresampler.hh:58); null (`none`) on failure -/
def cMalloc : HM (Option Nat) := fun af h =>
  if af.malloc h.next then .val none { h with next := h.next + 1 }
  else .val (some h.next) { live := (h.next, .malloc) :: h.live, next := h.next + 1 }

/-- `free` (pandaresampler.hh:83) -/
def cFree : Option Nat → HM Unit
  | none => pure ()
  | some p => fun _ h =>
    if (p, BlockKind.malloc) ∈ h.live then .val () { h with live := h.live.erase (p, .malloc) } else .ub .badFree

/-- Storage of a `std::vector<float>` with `n` elements (pandaresampler.cc:264, 433, 588): empty vectors own nothing. -/
def vecNew (n : Nat) : HM (Option Nat) := if n = 0 then pure none else do pure (some (← opNew))

/-- Destructor of a `std::vector<float>`. (pandaresampler.cc:356, 500) -/
def vecDelete : Option Nat → HM Unit
  | none => pure ()
  | some p => opDelete p

/-- Constructors of `AlignedArray<float>` (pandaresampler.hh:50-77) with `n` elements: the result of `malloc` is not
checked, elements are constructed even in a null block. -/
def arrNew (n : Nat) : HM (Option Nat) := do
  let p ← cMalloc
  if p.isNone && n != 0 then HM.ub .oobWrite else pure p

/-- Destructor of `AlignedArray<float>` (pandaresampler.hh:78-84); destroying a `float` has no effect. -/
def arrDelete (p : Option Nat) : HM Unit := cFree p

/-- What an object derived from `Resampler2::Impl` occupies: its own storage, the vector `taps` and the `AlignedArray`
members in the order of their declaration (pandaresampler.cc:356-358, 500-503); the IIR classes have no such members
(pandaresampler.cc:1075-1077, 1113-1115, 1151-1154, 1189-1192). -/
structure ImplMem where
  obj : Nat
  taps : Option Nat
  arrays : List (Option Nat)
  deriving DecidableEq, Repr

/-- `sse_taps (fir_compute_sse_taps (taps))` (pandaresampler.cc:435, 591): a temporary vector (pandaresampler.cc:264), copied to an
`AlignedArray` (pandaresampler.hh:73-77) and destroyed at the end of the initializer. -/
def sseTapsNew (order : Nat) : HM (Option Nat) := do
  let tmp ← vecNew ((order + 6) / 4 * 16)
  let a ← HM.onThrow (arrNew ((order + 6) / 4 * 16)) (vecDelete tmp)
  vecDelete tmp
  pure a

/-- `new Upsampler2<ORDER, USE_SSE> (taps)` (pandaresampler.hh:332, pandaresampler.cc:432-438): members are built in order and, if
a later one throws, destroyed in reverse order; then the storage of the object is released. -/
def firUpMem (order : Nat) : HM ImplMem := do
  let obj ← opNew
  HM.onThrow (do
    let taps ← vecNew order
    HM.onThrow (do
      let history ← arrNew (2 * order)
      HM.onThrow (do
        let sseTaps ← sseTapsNew order
        pure { obj := obj, taps := taps, arrays := [history, sseTaps] })
        (arrDelete history))
      (vecDelete taps))
    (opDelete obj)

/-- `new Downsampler2<ORDER, USE_SSE> (taps)` (pandaresampler.hh:332, pandaresampler.cc:587-594). -/
def firDownMem (order : Nat) : HM ImplMem := do
  let obj ← opNew
  HM.onThrow (do
    let taps ← vecNew order
    HM.onThrow (do
      let even ← arrNew (2 * order)
      HM.onThrow (do
        let odd ← arrNew (2 * order)
        HM.onThrow (do
          let sseTaps ← sseTapsNew order
          pure { obj := obj, taps := taps, arrays := [even, odd, sseTaps] })
          (arrDelete odd))
        (arrDelete even))
      (vecDelete taps))
    (opDelete obj)

/-- `new IIRUpsampler2<ORDER> (...)` and the other three IIR classes (pandaresampler.cc:1369-1391): one block, the
constructors do not throw. -/
def iirMem : HM ImplMem := do
  let obj ← opNew
  pure { obj := obj, taps := none, arrays := [] }

/-- Destroy the `AlignedArray` members given in the order of destruction (pandaresampler.hh:78-84). -/
def arraysDelete : List (Option Nat) → HM Unit
  | [] => pure ()
  | a :: as => do
    arrDelete a
    arraysDelete as

/-- `delete impl` (virtual destructor, pandaresampler.hh:122-124): the members in reverse order, then the storage. -/
def implDelete (m : ImplMem) : HM Unit := do
  arraysDelete m.arrays.reverse
  vecDelete m.taps
  opDelete m.obj

/-- Destructor of a `unique_ptr<Impl>` (pandaresampler.hh:126-128). -/
def ptrDelete : Option ImplMem → HM Unit
  | none => pure ()
  | some m => implDelete m

/-- `create_impl` / `create_impl_iir` (pandaresampler.cc:687-1072, 1228-1367): null if there is no table. -/
def createMem (cfg : Config) (stageRatio : Nat) : HM (Option ImplMem) :=
  match cfg.filter with
  | .fir =>
    match firTable stageRatio cfg.precision with
    | none => pure none
    | some t =>
      match cfg.mode with
      | .up => do pure (some (← firUpMem t.length))
      | .down => do pure (some (← firDownMem t.length))
  | .iir =>
    match iirTable stageRatio cfg.precision with
    | none => pure none
    | some _ => do pure (some (← iirMem))

/-- `init_stage` (pandaresampler.cc:83-114); `impl.reset (p)` stores `p`, then deletes the old pointer. -/
def initStageMem (cfg : Config) (impl : Option ImplMem) (stageRatio : Nat) : HM (Option ImplMem) :=
  if stageRatio > cfg.ratio ∨ impl.isSome then pure impl
  else do
    let p ← createMem cfg stageRatio
    ptrDelete impl
    pure p

/-- What a `Resampler2` owns: `impl_x2`, `impl_x4`, `impl_x8` (pandaresampler.hh:126-128). -/
structure Own where
  x2 : Option ImplMem
  x4 : Option ImplMem
  x8 : Option ImplMem
  deriving DecidableEq, Repr

/-- Destructor of `Resampler2` (implicit): the members in reverse order (pandaresampler.hh:126-128). -/
def Own.delete (o : Own) : HM Unit := do
  ptrDelete o.x8
  ptrDelete o.x4
  ptrDelete o.x2

/-- Constructor of `Resampler2` (pandaresampler.cc:63-81): an exception destroys the members. -/
def Own.new (cfg : Config) : HM Own := do
  let x2 ← HM.onThrow (initStageMem cfg none 2) (Own.delete ⟨none, none, none⟩)
  let x4 ← HM.onThrow (initStageMem cfg none 4) (Own.delete ⟨x2, none, none⟩)
  let x8 ← HM.onThrow (initStageMem cfg none 8) (Own.delete ⟨x2, x4, none⟩)
  pure ⟨x2, x4, x8⟩

variable {F : Type} [Zero F] [One F] [Add F] [Sub F] [Mul F] [Sample F]

/-- A `Resampler2` object (pandaresampler.hh:112-357): its value and what it owns. -/
structure Var (F : Type) where
  r : Resampler F
  own : Own

/-- What is left of the source of a move (implicit move operations of pandaresampler.hh:112-357): the `unique_ptr` members are
null, the other members are copied, not changed. -/
def Var.movedFrom (v : Var F) : Var F :=
  { r := { v.r with implX2 := none, implX4 := none, implX8 := none }, own := ⟨none, none, none⟩ }

/-- The `Resampler2` objects of a program, by name (`none`: no object), and the heap. (pandaresampler.hh:112-357) -/
structure World (F : Type) where
  vars : Nat → Option (Var F)
  heap : Heap

/-- Replace the object with name `k`. (pandaresampler.hh:112-357) -/
def setVar (w : Nat → Option (Var F)) (k : Nat) (v : Option (Var F)) : Nat → Option (Var F) :=
  fun j => if j = k then v else w j

/-- What a program can do with `Resampler2` objects (pandaresampler.hh:112-357). Copying does not compile. -/
inductive Stmt (F : Type) where
  /-- `Resampler2 k (...);` -/
  | construct (k : Nat) (cfg : Config)
  /-- `Resampler2 k (std::move (j));` -/
  | moveInit (k j : Nat)
  /-- `k = std::move (j);` -/
  | moveAssign (k j : Nat)
  /-- end of the life of `k` -/
  | destroy (k : Nat)
  /-- `k.process_block (...);` or `k.reset();` -/
  | use (k : Nat) (op : Op F)

/-- What a statement yields: it threw, or it was completed (with the output buffer of a call of `process_block`). (pandaresampler.hh:112-357) -/
inductive Outcome (F : Type) where
  | threw
  | done (out : Option (Buf F))

/-- The object with name `k`; to use an object that does not exist is undefined. (pandaresampler.hh:112-357) -/
def World.get (w : World F) (k : Nat) : Res (Var F) :=
  match w.vars k with
  | some v => pure v
  | none => .error .nullDeref

/-- One statement. Constructor: pandaresampler.cc:63-81 (an exception leaves no object behind). Move construction,
move assignment and destruction are implicit (pandaresampler.hh:112-357): assignment of a `unique_ptr` takes over the pointer of the
source and deletes the old one, member by member; for `k = std::move (k)` it is its own pointer that it takes over, so
that nothing changes. Uses: pandaresampler.hh:195-251, 299-308. A name that is given to a new object
although its old object was not destroyed is simply reused. -/
def World.step (bld : Build) (af : AllocFail) (w : World F) : Stmt F → Res (World F × Outcome F)
  | .construct k cfg =>
    match Own.new cfg af w.heap with
    | .ub u => .error u
    | .thrown h => pure ({ w with heap := h }, .threw)
    | .val own h => do
      let r ← cfg.new
      pure ({ vars := setVar w.vars k (some { r := r, own := own }), heap := h }, .done none)
  | .moveInit k j => do
    let b ← w.get j
    pure ({ w with vars := setVar (setVar w.vars j (some b.movedFrom)) k (some b) }, .done none)
  | .moveAssign k j => do
    let a ← w.get k
    let b ← w.get j
    if k = j then pure (w, .done none)
    else
      match (do ptrDelete a.own.x2; ptrDelete a.own.x4; ptrDelete a.own.x8 : HM Unit) af w.heap with
      | .val _ h =>
        pure ({ vars := setVar (setVar w.vars j (some b.movedFrom)) k (some b), heap := h }, .done none)
      | .thrown _ => .error .badFree
      | .ub u => .error u
  | .destroy k => do
    let a ← w.get k
    match a.own.delete af w.heap with
    | .val _ h => pure ({ vars := setVar w.vars k none, heap := h }, .done none)
    | .thrown _ => .error .badFree
    | .ub u => .error u
  | .use k (.process c) => do
    let a ← w.get k
    let (r, o) ← a.r.processBlock bld c.st c.input c.n c.output
    pure ({ w with vars := setVar w.vars k (some { a with r := r }) }, .done (some o))
  | .use k .reset => do
    let a ← w.get k
    let r ← a.r.reset
    pure ({ w with vars := setVar w.vars k (some { a with r := r }) }, .done none)

/-- A program: statement after statement; exceptions are caught where they occur (pandaresampler.hh:112-357). -/
def World.run (bld : Build) (af : AllocFail) (w : World F) : List (Stmt F) → Res (World F × List (Outcome F))
  | [] => pure (w, [])
  | s :: ss => do
    let (w, o) ← w.step bld af s
    let (w, os) ← World.run bld af w ss
    pure (w, o :: os)

/-- Before anything happens. (pandaresampler.hh:112-357) -/
def World.start : World F := { vars := fun _ => none, heap := { live := [], next := 0 } }

end Panda
