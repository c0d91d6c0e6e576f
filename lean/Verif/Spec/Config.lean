import Verif.Spec.Stage
import Verif.Model.Session

/-!
# Which configurations and calls are supported, and what they should compute
-/

namespace Panda

variable {F : Type} [Zero F] [One F] [Add F] [Sub F] [Mul F] [Sample F]

/-- Supported constructor arguments: ratio 1, 2, 4, 8; one of the precision enumerators; linear interpolation
(precision 1) only exists as FIR filter. -/
structure Config.Valid (cfg : Config) : Prop where
  ratio : cfg.ratio ∈ [1, 2, 4, 8]
  precision : cfg.precision ∈ [1, 8, 12, 16, 20, 24]
  iir : cfg.filter = .iir → cfg.precision ≠ 1

/-- Are the vectorised FIR routines used? -/
def Config.vec (cfg : Config) : Bool := (cfg.bld.sse || cfg.bld.neon) && cfg.useSse

/-- Are the SSE IIR classes used? -/
def Config.iirSse (cfg : Config) : Bool := cfg.bld.sse && cfg.useSse

/-- The filter for going between sample rates `k/2` and `k` (`k = 2, 4, 8`), from the coefficient tables. -/
def Config.stage (cfg : Config) (k : Nat) : List (Stage F) :=
  match cfg.filter, cfg.mode with
  | .fir, .up => (firTable k cfg.precision).toList.map fun t => .firUp cfg.vec (t.map fun d => Sample.ofDouble (d.toRat * 2))
  | .fir, .down =>
    (firTable k cfg.precision).toList.map fun t => .firDown cfg.vec (t.map fun d => Sample.ofDouble (d.toRat * 1))
  | .iir, .up => (iirTable k cfg.precision).toList.map fun t => .iirUp cfg.iirSse (t.1.map fun d => Sample.ofDouble d.toRat)
  | .iir, .down =>
    (iirTable k cfg.precision).toList.map fun t => .iirDown cfg.iirSse (t.1.map fun d => Sample.ofDouble d.toRat)

/-- The factor 2 stages the signal passes, in order: rates 1 → 2 → 4 → 8 or back. -/
def Config.stages (cfg : Config) : List (Stage F) :=
  match cfg.mode with
  | .up => (([2, 4, 8].filter (· ≤ cfg.ratio)).map cfg.stage).flatten
  | .down => (([8, 4, 2].filter (· ≤ cfg.ratio)).map cfg.stage).flatten

/-- Number of output samples for `n` input samples. -/
def Config.outLen (cfg : Config) (n : Nat) : Nat :=
  match cfg.mode with
  | .up => n * cfg.ratio
  | .down => n / cfg.ratio

/-- The caller's obligations for one call of `process_block`. -/
structure Config.CallOk (cfg : Config) (c : Call F) : Prop where
  /-- `n_input_samples` is a `uint` -/
  uint : c.n < 2 ^ 32
  /-- the input buffer holds the samples -/
  input : c.n ≤ c.input.len
  /-- the output buffer is large enough -/
  output : cfg.outLen c.n ≤ c.output.len
  /-- DOWN: a whole number of output samples -/
  mul : cfg.mode = .down → c.n % cfg.ratio = 0
  /-- FIR UP with ratio 2: less than `2^31` samples -/
  large : cfg.filter = .fir → cfg.mode = .up → cfg.ratio = 2 → c.n < 2 ^ 31
  /-- IIR with ratio 2: not zero samples (but the SSE version without asserts accepts it) -/
  nonempty : cfg.filter = .iir → cfg.ratio = 2 → (cfg.iirSse = true ∧ cfg.bld.ndebug = true) ∨ 0 < c.n
  /-- IIR DOWN with SSE: two more readable samples behind the input -/
  behind : cfg.filter = .iir → cfg.mode = .down → cfg.iirSse = true → c.n ≠ 0 → 2 ≤ cfg.ratio → c.n + 2 ≤ c.input.len

/-- All samples passed in, over several calls. -/
def inputs (cs : List (Call F)) : List F := cs.flatMap Call.samples

/-- All samples produced: the first `outLen n` of every output buffer. -/
def Config.outputs (cfg : Config) (cs : List (Call F)) (os : List (Buf F)) : List F :=
  (cs.zip os).flatMap fun p => p.2.toList (cfg.outLen p.1.n)

/-- Nothing but the first `outLen n` samples of an output buffer has changed. -/
def Config.Framed (cfg : Config) (cs : List (Call F)) (os : List (Buf F)) : Prop :=
  os.length = cs.length ∧
  ∀ p ∈ cs.zip os, p.2.len = p.1.output.len ∧ p.2.addr = p.1.output.addr ∧
    ∀ j, cfg.outLen p.1.n ≤ j → p.2.get j = p.1.output.get j

/-- The caller's obligations for an operation; `reset` has none. -/
def Config.OpOk (cfg : Config) : Op F → Prop
  | .process c => cfg.CallOk c
  | .reset => True

/-- The samples passed in and the samples produced since the last `reset`; `acc` are those from before. -/
def Config.streams (cfg : Config) : List (Op F) → List (Option (Buf F)) → List F × List F → List F × List F
  | .process c :: ops, some o :: os, acc =>
    Config.streams cfg ops os (acc.1 ++ c.samples, acc.2 ++ o.toList (cfg.outLen c.n))
  | .reset :: ops, _ :: os, _ => Config.streams cfg ops os ([], [])
  | _, _, acc => acc

/-- The samples passed in since the last `reset`, after one more operation. -/
def fedStep (acc : List F) : Op F → List F
  | .process c => acc ++ c.samples
  | .reset => []

/-- The samples passed in since the last `reset`. -/
def fed (ops : List (Op F)) : List F := ops.foldl fedStep []

/-- The samples produced since the last `reset`, after one more operation. -/
def Config.producedStep (cfg : Config) (acc : List F) : Op F × Option (Buf F) → List F
  | (.process c, some o) => acc ++ o.toList (cfg.outLen c.n)
  | (.process _, none) => acc
  | (.reset, _) => []

/-- The samples produced since the last `reset`: the first `outLen n` samples of each output buffer. -/
def Config.produced (cfg : Config) (ops : List (Op F)) (os : List (Option (Buf F))) : List F :=
  (ops.zip os).foldl cfg.producedStep []

/-- One result per operation; `process_block` returns the caller's output buffer in which nothing but the first
`outLen n` samples has changed. -/
def Config.FramedOps (cfg : Config) : List (Op F) → List (Option (Buf F)) → Prop
  | .process c :: ops, some o :: os =>
    (o.len = c.output.len ∧ o.addr = c.output.addr ∧ ∀ j, cfg.outLen c.n ≤ j → o.get j = c.output.get j) ∧
    Config.FramedOps cfg ops os
  | .reset :: ops, none :: os => Config.FramedOps cfg ops os
  | [], [] => True
  | _, _ => False

/-- Two calls that agree in the samples passed in, in the number of samples and in the place and size of the buffers.
They may differ in everything else: the contents of the output buffer, what is on the stack, what lies behind the input
samples. -/
structure SameCall (c d : Call F) : Prop where
  n : d.n = c.n
  samples : ∀ i < c.n, d.input.get i = c.input.get i
  inAddr : d.input.addr = c.input.addr
  inLen : d.input.len = c.input.len
  outAddr : d.output.addr = c.output.addr
  outLen : d.output.len = c.output.len
  block16 : d.st.block16 = c.st.block16
  tmpAddr : d.st.tmpAddr = c.st.tmpAddr
  tmp2Addr : d.st.tmp2Addr = c.st.tmp2Addr

/-- The same operations in this sense. -/
def SameOps : List (Op F) → List (Op F) → Prop
  | .process c :: l, .process d :: m => SameCall c d ∧ SameOps l m
  | .reset :: l, .reset :: m => SameOps l m
  | [], [] => True
  | _, _ => False

end Panda
