import Verif.Model.SelfTest

/-!
# What the code computes in `double`: constants and `delay()`

The rest of the model takes the constants of the source and the results of `delay()` as exact rational numbers. Here they are `double` (`binary64`, Model/SelfTest).
-/

namespace Panda

/-- `double` (pandaresampler.hh:272, 324-326) -/
abbrev F64 := Fl binary64

/-- A `double` literal of the source. (pandaresampler.cc:687-1065, 1228-1370) -/
def lit64 (d : Dec) : F64 := Fl.mk binary64 d.toRat

/-- A `double` as a `float` (assignment to a `float`). (pandaresampler.hh:330) -/
def toFloat : F64 → Fl binary32
  | some q => Fl.mk binary32 q
  | none => none

/-- `a / b` in `double` (pandaresampler.hh:290, 292) -/
def div64 (a b : F64) : F64 := Fl.op (· / ·) a b

/-- pandaresampler.hh:323-337 `create_impl_with_coeffs`: `taps[i] = d[i] * scaling` with `double` `d[i]` and `scaling`, stored in a `float`. -/
def firTap64 (c : Dec) (scaling : ℕ) : Fl binary32 := toFloat (lit64 c * Fl.fin (scaling : ℚ))

/-- hiir/Upsampler2xFpuTpl.hpp:62-70 (and the SSE and downsampling classes) `set_coefs`: the `double` coefficient is stored in a `DataType`,
that is `float`. -/
def iirCoef64 (c : Dec) : Fl binary32 := toFloat (lit64 c)

/-- Virtual `delay()` of one stage in `double`: pandaresampler.cc:474-478, 669-673, and the constructors 1079-1080, 1118-1119, 1156-1157,
1195-1196. -/
def stageDelay64 (mode : Mode) (filter : Filter) (k p : ℕ) : F64 :=
  match filter, mode with
  | .fir, .up => Fl.mk binary64 ((((firTable k p).getD []).length - 1 : ℕ) : ℚ)
  | .fir, .down => Fl.mk binary64 ((((firTable k p).getD []).length / 2 : ℕ) : ℚ) - Fl.fin (1 / 2)
  | .iir, .up => lit64 ((iirTable k p).getD ([], ⟨0, 0⟩)).2
  | .iir, .down => div64 (lit64 ((iirTable k p).getD ([], ⟨0, 0⟩)).2 - Fl.fin 1) (Fl.fin 2)

/-- pandaresampler.hh:272-295 `delay()` in `double` -/
def delay64 (mode : Mode) (filter : Filter) (ratio p : ℕ) : F64 :=
  let d : F64 := 0
  match mode with
  | .up =>
    let d := if ratio ≥ 2 then d + stageDelay64 mode filter 2 p else d
    let d := if ratio ≥ 4 then d + (d + stageDelay64 mode filter 4 p) else d
    if ratio ≥ 8 then d + (d + stageDelay64 mode filter 8 p) else d
  | .down =>
    let d := if ratio ≥ 2 then d + stageDelay64 mode filter 2 p else d
    let d := if ratio ≥ 4 then d + div64 (stageDelay64 mode filter 4 p) (Fl.fin 2) else d
    if ratio ≥ 8 then d + div64 (stageDelay64 mode filter 8 p) (Fl.fin 4) else d

end Panda
