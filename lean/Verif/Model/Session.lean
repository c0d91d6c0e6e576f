import Verif.Model.Resampler

/-!
# Clients of the library

Not code of the repository: how a program uses one `Resampler2` object. A call of `process_block` is described by
the caller's input buffer, the number of samples, the caller's output buffer, and by what the stack
happens to look like.
-/

namespace Panda

variable {F : Type} [Zero F] [One F] [Add F] [Sub F] [Mul F] [Sample F]

/-- How the library was built and the arguments of the constructor (pandaresampler.hh:172-176); `al` are the addresses
the allocator hands out. -/
structure Config where
  bld : Build
  al : Alloc
  mode : Mode
  ratio : Nat
  precision : Nat
  useSse : Bool
  filter : Filter

/-- `Resampler2 r (mode, ratio, precision, use_sse_if_available, filter)` (pandaresampler.cc:63-81) -/
def Config.new (cfg : Config) : Res (Resampler F) :=
  Resampler.new cfg.bld cfg.al cfg.mode cfg.ratio cfg.precision cfg.useSse cfg.filter

/-- One call `process_block (input, n, output)` (pandaresampler.hh:195-251). -/
structure Call (F : Type) where
  st : Stack F
  input : Buf F
  n : Nat
  output : Buf F

/-- The samples passed in. (pandaresampler.hh:197) -/
def Call.samples (c : Call F) : List F := (List.range c.n).map c.input.get

/-- A sequence of calls of `process_block` (pandaresampler.hh:195-251); returns the object and the output buffers. -/
def Resampler.run (bld : Build) (r : Resampler F) : List (Call F) → Res (Resampler F × List (Buf F))
  | [] => pure (r, [])
  | c :: cs => do
    let (r, o) ← r.processBlock bld c.st c.input c.n c.output
    let (r, os) ← Resampler.run bld r cs
    pure (r, o :: os)

/-- Operations that change the object: `process_block` and `reset`. (pandaresampler.hh:196-197, 299-300) -/
inductive Op (F : Type) where
  | process (c : Call F)
  | reset

/-- A sequence of `process_block` (pandaresampler.hh:195-251) and `reset` (pandaresampler.hh:299-308) calls; one entry
in the list of results per operation (`none` for `reset`). -/
def Resampler.runOps (bld : Build) (r : Resampler F) : List (Op F) → Res (Resampler F × List (Option (Buf F)))
  | [] => pure (r, [])
  | .process c :: ops => do
    let (r, o) ← r.processBlock bld c.st c.input c.n c.output
    let (r, os) ← Resampler.runOps bld r ops
    pure (r, some o :: os)
  | .reset :: ops => do
    let r ← r.reset
    let (r, os) ← Resampler.runOps bld r ops
    pure (r, none :: os)

/-- Construct a resampler, then use it (pandaresampler.cc:63-81, pandaresampler.hh:195-251, 299-308). -/
def Config.session (cfg : Config) (ops : List (Op F)) : Res (Resampler F × List (Option (Buf F))) := do
  let r ← cfg.new
  r.runOps cfg.bld ops

/-- Several resamplers, numbered; `update w k r` replaces number `k`. (There is no mutable global or static state in
pandaresampler.hh / pandaresampler.cc, so a program's resamplers are just a family of objects.) -/
def update (w : Nat → Resampler F) (k : Nat) (r : Resampler F) : Nat → Resampler F := fun j => if j = k then r else w j

/-- A program that uses several resamplers in turn (pandaresampler.hh:195-251, 299-308): operation `(k, op)` is applied to
number `k`. -/
def runMany (bld : Build) (w : Nat → Resampler F) :
    List (Nat × Op F) → Res ((Nat → Resampler F) × List (Nat × Option (Buf F)))
  | [] => pure (w, [])
  | (k, .process c) :: ops => do
    let (r, o) ← (w k).processBlock bld c.st c.input c.n c.output
    let (w, os) ← runMany bld (update w k r) ops
    pure (w, (k, some o) :: os)
  | (k, .reset) :: ops => do
    let r ← (w k).reset
    let (w, os) ← runMany bld (update w k r) ops
    pure (w, (k, none) :: os)

end Panda
