/-!
# Machine layer of the model: undefined behaviour, buffers, loops, `uint`

The C++ code is modelled in a small monad `Res` in which every operation that C++ leaves undefined
is a distinct outcome.  Nothing in this file models a particular function of the repository; it is the
vocabulary the other model files are written in.
-/

namespace Panda

/-- Outcomes that the C++ standard leaves undefined (or a loop that never ends). (Examples of the operations: pandaresampler.hh:201 (null pointer), 205 (array access), 83 (`free`), 209 (loop); pandaresampler.cc:215-217 (vector access); hiir/fnc.hpp:60 (`assert`)) -/
inductive UB where
  /-- read outside a buffer -/
  | oobRead
  /-- write outside a buffer -/
  | oobWrite
  /-- a 16-byte vector access at an address that is not a multiple of 16 -/
  | misaligned
  /-- a call through a null `unique_ptr` -/
  | nullDeref
  /-- a failed `assert` (builds without `NDEBUG`) -/
  | assertFail
  /-- freeing memory that is not (or no longer) allocated -/
  | badFree
  /-- a loop that does not terminate -/
  | nonterm
  /-- a floating point value converted to an `int` that cannot represent it -/
  | convert
  /-- signed integer overflow -/
  | overflow
  /-- not undefined in C++, but yields NaN (or an infinity): a mathematical function or a division outside of its domain -/
  | domain
  deriving DecidableEq, Repr

/-- Result of running a piece of C++: a value, or undefined behaviour. (All functions of pandaresampler.hh:112-357 and pandaresampler.cc:1-1409 are modelled with this type) -/
abbrev Res (α : Type) := Except UB α

instance {α : Type} [DecidableEq α] : DecidableEq (Res α) := fun a b =>
  match a, b with
  | .ok x, .ok y => if h : x = y then isTrue (by rw [h]) else isFalse (by intro e; cases e; exact h rfl)
  | .error x, .error y =>
    if h : x = y then isTrue (by rw [h]) else isFalse (by intro e; cases e; exact h rfl)
  | .ok _, .error _ => isFalse (by intro e; cases e)
  | .error _, .ok _ => isFalse (by intro e; cases e)

/-- A block of memory holding `len` samples; `addr` is the byte address of element 0.
A sample occupies 4 bytes. `get i` is meaningful for `i < len` only; every access checks that. (`float *` arguments and arrays as in pandaresampler.hh:197, 214-215 and pandaresampler.cc:356-358) -/
structure Buf (F : Type) where
  addr : Nat
  len : Nat
  get : Nat → F

namespace Buf
variable {F : Type}

/-- `b[i]` as an rvalue. (pandaresampler.cc:189 and all other reads of array elements) -/
def rd (b : Buf F) (i : Nat) : Res F :=
  if i < b.len then .ok (b.get i) else .error .oobRead

/-- contents after `b[i] = v`, without the bounds check. (pandaresampler.hh:330 and all other writes to array elements) -/
def upd (b : Buf F) (i : Nat) (v : F) : Buf F :=
  { b with get := fun j => if j = i then v else b.get j }

/-- `b[i] = v`. (pandaresampler.hh:330 and all other writes to array elements) -/
def wr (b : Buf F) (i : Nat) (v : F) : Res (Buf F) :=
  if i < b.len then .ok (b.upd i v) else .error .oobWrite

/-- A buffer holding the elements of a list (`dflt` is never observable: reads are bounds-checked). (constant arrays as in pandaresampler.cc:687-1065, 1228-1370) -/
def ofList (addr : Nat) (dflt : F) (l : List F) : Buf F :=
  { addr := addr, len := l.length, get := fun i => l.getD i dflt }

/-- First `n` elements as a list. (pandaresampler.hh:205) -/
def toList (b : Buf F) (n : Nat) : List F := (List.range n).map b.get

end Buf

/-- A vector register of four samples (`__m128`, `F4Vector`). (pandaresampler.cc:49-55) -/
structure V4 (F : Type) where
  x0 : F
  x1 : F
  x2 : F
  x3 : F

/-- An aligned 16-byte load of the four samples starting at `b[off]`
(dereferencing `F4Vector *` or `_mm_load_ps`): the byte address must be a multiple of 16. (pandaresampler.cc:215-217; hiir/StageProcSseV2.hpp:61-65) -/
def Buf.ld4a {F : Type} (b : Buf F) (off : Nat) : Res (V4 F) :=
  if (b.addr + 4 * off) % 16 = 0 then do
    let x0 ← b.rd off
    let x1 ← b.rd (off + 1)
    let x2 ← b.rd (off + 2)
    let x3 ← b.rd (off + 3)
    pure ⟨x0, x1, x2, x3⟩
  else .error .misaligned

/-- An unaligned 16-byte load (`_mm_loadu_ps`) of the four samples starting at `b[off]`. (hiir/Downsampler2xSse.hpp:112, 148) -/
def Buf.ld4u {F : Type} (b : Buf F) (off : Nat) : Res (V4 F) := do
  let x0 ← b.rd off
  let x1 ← b.rd (off + 1)
  let x2 ← b.rd (off + 2)
  let x3 ← b.rd (off + 3)
  pure ⟨x0, x1, x2, x3⟩

/-- Value of an `unsigned int` (32 bit) expression whose mathematical value is `x`. (`uint`, pandaresampler.hh:23) -/
def u32 (x : Nat) : Nat := x % 2 ^ 32

/-- `for (i = 0; i < n; i++) s = body (i, s)` (pandaresampler.hh:329 and other `for` loops) -/
def forN {σ : Type} (body : Nat → σ → Res σ) : Nat → σ → Res σ
  | 0, s => pure s
  | n + 1, s => forN body n s >>= body n

/-- `while (cond s) s = body s`, giving up with `UB.nonterm` after `fuel` iterations. (pandaresampler.hh:209, pandaresampler.cc:612) -/
def whileF {σ : Type} (cond : σ → Bool) (body : σ → Res σ) : Nat → σ → Res σ
  | 0, s => if cond s then .error .nonterm else pure s
  | fuel + 1, s => if cond s then body s >>= whileF cond body fuel else pure s

/-- How the library was compiled. (pandaresampler.cc:5-33, 52, 120, 213, 1150, 1375) -/
structure Build where
  /-- `__SSE__` is defined -/
  sse : Bool
  /-- `PANDA_RESAMPLER_NEON` is defined (pandaresampler.cc:23-27) -/
  neon : Bool
  /-- `NDEBUG` is defined: `assert` expands to nothing -/
  ndebug : Bool
  deriving DecidableEq, Repr

/-- `assert (c)` (hiir/fnc.hpp:60, hiir/PolyphaseIir2Designer.cpp:70-72 and others) -/
def Build.assert (b : Build) (c : Bool) : Res Unit :=
  if b.ndebug || c then pure () else .error .assertFail

/-- `pos = 0; do { s = body (pos, s); ++pos; } while (pos < n);`: the body runs at least once. (hiir/Upsampler2xFpuTpl.hpp:138, hiir/Downsampler2xFpuTpl.hpp:132, 220) -/
def doWhileN {σ : Type} (body : Nat → σ → Res σ) (n : Nat) (s : σ) : Res σ :=
  forN body (max n 1) s

/-- Constants and conversions of the sample type, without any law. (pandaresampler.cc:515, 528; pandaresampler.hh:330) -/
class Sample (F : Type) where
  /-- `0.5f` -/
  half : F
  /-- the `float` obtained from a `double` expression of (exact) value `q` -/
  ofDouble : Rat → F

end Panda
