import Verif.Model.Float
import Verif.Model.Resampler

/-!
# The self test of the library (pandaresampler.cc:276-342 `fir_test_filter_sse`, 1393-1407 `test_filter_impl`)

Output (`printf`) is not modelled, so `verbose` has no effect here.
-/

namespace Panda

/-- The computations the self test does with `double` (`D`), on samples of type `float` (`F`). (pandaresampler.cc:286-336) -/
structure Wide (F D : Type) where
  /-- conversion of a `float` to `double` -/
  ofF : F → D
  zero : D
  add : D → D → D
  sub : D → D → D
  /-- `fabs` -/
  abs : D → D
  /-- division by an integer -/
  divN : D → ℕ → D
  /-- `avg_diff > 0.00001` -/
  tooBig : D → Bool

variable {F D : Type} [Zero F] [Add F] [Mul F] [Sample F]

/-- pandaresampler.cc:181-191 `fir_process_one_sample<double>`: the products are computed as `float`, and added as `double`. -/
def firProcessOneSampleWide (w : Wide F D) (input : Buf F) (off : ℕ) (taps : Buf F) (order : ℕ) : Res D :=
  forN (fun i out => do
    let x ← input.rd (off + i)
    let t ← taps.rd i
    pure (w.add out (w.ofF (x * t)))) order w.zero

/-- Element `i` of `float out[4]` (pandaresampler.cc:321). -/
def V4.lane (v : V4 F) (i : ℕ) : F := if i = 0 then v.x0 else if i = 1 then v.x1 else if i = 2 then v.x2 else v.x3

/-- pandaresampler.cc:295-336: one order, the result is `is_error`. `rand i`: what is stored in `random_mem[i]`. `k`: number of the
allocation. -/
def firTestOrder (al : Alloc) (k : ℕ) (w : Wide F D) (rand : ℕ → F) (order : ℕ) : Res Bool := do
  let taps : Buf F := ⟨0, order, fun i => Sample.ofDouble ((i + 1 : ℕ) : ℚ)⟩
  let sseTaps ← firComputeSseTaps (aaAlign (al.malloc (2 * k))) taps
  let mem ← forN (fun i (m : Buf F) => m.wr i (rand i)) (order + 6) ⟨aaAlign (al.malloc (2 * k + 1)), order + 6, fun _ => 0⟩
  let out ← firProcess4SamplesSse mem 0 sseTaps order
  let sum ← forN (fun i s => do
    let d ← firProcessOneSampleWide w mem i taps order
    pure (w.add s (w.abs (w.sub d (w.ofF (out.lane i)))))) 4 w.zero
  pure (w.tooBig (w.divN sum (order + 1)))

/-- pandaresampler.cc:285-341 `fir_test_filter_sse`. `rand`: the random samples in the order in which they are generated. State: the
number of samples generated so far, `errors`. -/
def firTestFilterSse (al : Alloc) (w : Wide F D) (rand : ℕ → F) (maxOrder : ℕ) : Res Bool := do
  let s ← forN (fun order (s : ℕ × ℕ) => do
    let isError ← firTestOrder al order w (fun i => rand (s.1 + i)) order
    pure (s.1 + (order + 6), if isError then s.2 + 1 else s.2)) maxOrder (0, 0)
  pure (s.2 == 0)

/-- pandaresampler.cc:1393-1407 `Resampler2::test_filter_impl` -/
def testFilterImpl (bld : Build) (al : Alloc) (w : Wide F D) (rand : ℕ → F) : Res Bool :=
  if sseAvailable bld then firTestFilterSse al w rand 64 else pure true

/-! ## `double` -/

/-- Exponent of the last place of the binary64 number next to `q`. (`double`, pandaresampler.cc:324-331) -/
def ulpExp64 (q : ℚ) : ℤ := max (ilog2 q - 52) (-1074)

/-- IEEE 754 binary64, round to nearest, ties to even; without the limit on the exponent. (`double`, pandaresampler.cc:324-331) -/
def rnd64 (q : ℚ) : ℚ := if q = 0 then 0 else (rne (q / 2 ^ ulpExp64 q) : ℤ) * 2 ^ ulpExp64 q

/-- binary64. (`double`, pandaresampler.cc:324-331) -/
def binary64 : Format := { rnd := rnd64, fits := fun q => decide (|q| < (2 ^ 128) ^ 8) }

/-- `float` and `double` as in IEEE 754. An infinity or NaN compares as no error here, which only makes failures rarer. (`double`, pandaresampler.cc:324-331) -/
def wide64 : Wide (Fl binary32) (Fl binary64) where
  ofF x := (show Option ℚ from x)
  zero := 0
  add a b := a + b
  sub a b := a - b
  abs a := Option.map (fun q : ℚ => |q|) a
  divN a n := Fl.op (· / ·) a (Fl.fin n)
  tooBig a := match a with
    | some q => decide (rnd64 (1 / 100000) < q)
    | none => false

/-- pandaresampler.cc:315 `1.0 - rand() / (0.5 * RAND_MAX)`, converted to `float`. -/
def randSample (randMax r : ℕ) : Fl binary32 :=
  Fl.mk binary32 (rnd64 (1 - rnd64 (r / rnd64 (1 / 2 * randMax))))

end Panda
