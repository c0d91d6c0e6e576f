import Mathlib.Analysis.SpecialFunctions.Complex.Arg
import Mathlib.Analysis.SpecialFunctions.Log.Base
import Mathlib.Analysis.SpecialFunctions.Pow.Real
import Mathlib.Analysis.SpecialFunctions.Trigonometric.Basic
import Verif.Model.Basic

/-!
# The filter designer (hiir/PolyphaseIir2Designer.cpp, hiir/fnc.hpp, filter-design/mkiir.cc)

`double` is modelled by `ℝ` and the functions of the C library by the exact functions: no rounding error, no overflow, no underflow.
`int` is modelled by `ℤ`; the conversion of a floating point value to `int` is checked, and so are the multiplications of `int`s in the
functions that compute coefficients and attenuation (`int32`). Where C++ would produce a NaN or an infinity
by evaluating a function outside of its domain, or by a division by zero, the outcome is `UB.domain`.
-/

namespace Panda.Designer

open Classical

/-- `while (cond s) s = body s` without any bound on the number of iterations. (hiir/PolyphaseIir2Designer.cpp:309, 559, 584; hiir/fnc.hpp:62) -/
noncomputable def whileU {σ : Type} (cond : σ → Bool) (body : σ → Res σ) (s : σ) : Res σ :=
  if h : ∃ fuel, whileF cond body fuel s ≠ .error .nonterm then whileF cond body (Nat.find h) s else .error .nonterm

/-- `assert (c)` for a proposition. (hiir/PolyphaseIir2Designer.cpp:70-72 and others) -/
noncomputable def assertP (bld : Build) (c : Prop) : Res Unit := bld.assert (decide c)

/-- `x / y`, which is an infinity or NaN for `y = 0`. (hiir/PolyphaseIir2Designer.cpp:474, 489, 533-534 and others) -/
noncomputable def divR (x y : ℝ) : Res ℝ := if y = 0 then .error .domain else pure (x / y)

/-- `log (x)` (hiir/PolyphaseIir2Designer.cpp:490, 511) -/
noncomputable def logR (x : ℝ) : Res ℝ := if 0 < x then pure (Real.log x) else .error .domain

/-- `log10 (x)` (hiir/PolyphaseIir2Designer.cpp:514) -/
noncomputable def log10R (x : ℝ) : Res ℝ := if 0 < x then pure (Real.logb 10 x) else .error .domain

/-- `sqrt (x)` (hiir/PolyphaseIir2Designer.cpp:533) -/
noncomputable def sqrtR (x : ℝ) : Res ℝ := if 0 ≤ x then pure (Real.sqrt x) else .error .domain

/-- `pow (x, y)` for `y > 0`. (hiir/PolyphaseIir2Designer.cpp:473, 528) -/
noncomputable def powR (x y : ℝ) : Res ℝ := if 0 ≤ x then pure (x ^ y) else .error .domain

/-- def.h:76 `PI` (the literal as written). -/
noncomputable def PI : ℝ := 3.1415926535897932384626433832795

/-- The result of an operation on `int`s. (hiir/PolyphaseIir2Designer.cpp:541-596) -/
def int32 (x : ℤ) : Res ℤ := if -2 ^ 31 ≤ x ∧ x < 2 ^ 31 then pure x else .error .overflow

/-- `assert (c < x)` where `x` is the result of an operation on `int`s. (hiir/PolyphaseIir2Designer.cpp:544, 569) -/
noncomputable def assertLt (bld : Build) (c x : ℤ) : Res Unit := if bld.ndebug then pure () else do assertP bld (c < (← int32 x))

/-- fnc.hpp:49-52 `ceil_int` -/
noncomputable def ceilInt (x : ℝ) : Res ℤ :=
  if -2 ^ 31 ≤ ⌈x⌉ ∧ ⌈x⌉ < 2 ^ 31 then pure ⌈x⌉ else .error .convert

/-- fnc.hpp:56-73 `ipowp`. State: `z`, `x`, `n`. -/
noncomputable def ipowp {T : Type} [One T] [Mul T] (bld : Build) (x : T) (n : ℤ) : Res T := do
  assertP bld (0 ≤ n)
  let s ← whileU (fun s : T × T × ℤ => s.2.2 != 0)
    (fun s => pure (if s.2.2 % 2 ≠ 0 then s.1 * s.2.1 else s.1, s.2.1 * s.2.1, s.2.2 / 2)) (1, x, n)
  pure s.1

/-- PolyphaseIir2Designer.cpp:464-479 `compute_transition_param`: `k` and `q`. -/
noncomputable def computeTransitionParam (bld : Build) (transition : ℝ) : Res (ℝ × ℝ) := do
  assertP bld (transition > 0)
  assertP bld (transition < 0.5)
  let k := Real.tan ((1 - transition * 2) * PI / 4)
  let k := k * k
  assertP bld (k < 1)
  assertP bld (k > 0)
  let kksqrt ← powR (1 - k * k) 0.25
  let e ← divR (0.5 * (1 - kksqrt)) (1 + kksqrt)
  let e2 := e * e
  let e4 := e2 * e2
  let q := e * (1 + e4 * (2 + e4 * (15 + 150 * e4)))
  assertP bld (q > 0)
  pure (k, q)

/-- PolyphaseIir2Designer.cpp:483-501 `compute_order` -/
noncomputable def computeOrder (bld : Build) (attenuation q : ℝ) : Res ℤ := do
  assertP bld (attenuation > 0)
  assertP bld (q > 0)
  let attnP2 := (10 : ℝ) ^ (-attenuation / 10)
  let a ← divR attnP2 (1 - attnP2)
  let order ← ceilInt (← divR (← logR (a * a / 16)) (← logR q))
  let order := if order % 2 = 0 then order + 1 else order
  pure (if order = 1 then 3 else order)

/-- PolyphaseIir2Designer.cpp:505-518 `compute_atten` -/
noncomputable def computeAtten (bld : Build) (q : ℝ) (order : ℤ) : Res ℝ := do
  assertP bld (q > 0)
  assertP bld (order > 0)
  assertP bld (order % 2 = 1)
  let a := 4 * Real.exp (order * 0.5 * (← logR q))
  assertP bld (a ≠ -1)
  let attnP2 ← divR a (1 + a)
  let attenuation := -10 * (← log10R attnP2)
  assertP bld (attenuation > 0)
  pure attenuation

/-- State of the loops of `compute_acc_num` and `compute_acc_den`. (hiir/PolyphaseIir2Designer.cpp:541-590) -/
structure Acc where
  i : ℤ
  j : ℤ
  acc : ℝ
  term : ℝ

/-- PolyphaseIir2Designer.cpp:541-562 `compute_acc_num`. The loop is a do-while loop. -/
noncomputable def computeAccNum (bld : Build) (q : ℝ) (order c : ℤ) : Res ℝ := do
  assertP bld (c ≥ 1)
  assertLt bld c (order * 2)
  let body := fun s : Acc => do
    let t ← ipowp bld q (← int32 (s.i * (s.i + 1)))
    let a ← int32 ((s.i * 2 + 1) * c)
    let t := t * (Real.sin (← divR (a * PI) order) * s.j)
    pure { i := s.i + 1, j := -s.j, acc := s.acc + t, term := t : Acc }
  let s ← whileU (fun s : Acc => decide (|s.term| > 1e-100)) body (← body ⟨0, 1, 0, 0⟩)
  pure s.acc

/-- PolyphaseIir2Designer.cpp:566-587 `compute_acc_den`. The loop is a do-while loop. -/
noncomputable def computeAccDen (bld : Build) (q : ℝ) (order c : ℤ) : Res ℝ := do
  assertP bld (c ≥ 1)
  assertLt bld c (order * 2)
  let body := fun s : Acc => do
    let t ← ipowp bld q (← int32 (s.i * s.i))
    let a ← int32 (s.i * 2 * c)
    let t := t * (Real.cos (← divR (a * PI) order) * s.j)
    pure { i := s.i + 1, j := -s.j, acc := s.acc + t, term := t : Acc }
  let s ← whileU (fun s : Acc => decide (|s.term| > 1e-100)) body (← body ⟨1, -1, 0, 0⟩)
  pure s.acc

/-- PolyphaseIir2Designer.cpp:522-537 `compute_coef` -/
noncomputable def computeCoef (bld : Build) (index : ℤ) (k q : ℝ) (order : ℤ) : Res ℝ := do
  assertP bld (index ≥ 0)
  assertP bld (index * 2 < order)
  let c := index + 1
  let num := (← computeAccNum bld q order c) * (← powR q 0.25)
  let den := (← computeAccDen bld q order c) + 0.5
  let ww ← divR num den
  let wwsq := ww * ww
  let x ← divR (← sqrtR ((1 - wwsq * k) * (1 - (← divR wwsq k)))) (1 + wwsq)
  divR (1 - x) (1 + x)

/-- PolyphaseIir2Designer.cpp:68-82 `compute_nbr_coefs_from_proto`. C++ division truncates. -/
noncomputable def computeNbrCoefsFromProto (bld : Build) (attenuation transition : ℝ) : Res ℤ := do
  assertP bld (attenuation > 0)
  assertP bld (transition > 0)
  assertP bld (transition < 0.5)
  let kq ← computeTransitionParam bld transition
  let order ← computeOrder bld attenuation kq.2
  pure ((order - 1).tdiv 2)

/-- PolyphaseIir2Designer.cpp:100-113 `compute_atten_from_order_tbw` -/
noncomputable def computeAttenFromOrderTbw (bld : Build) (nbrCoefs : ℤ) (transition : ℝ) : Res ℝ := do
  assertP bld (nbrCoefs > 0)
  assertP bld (transition > 0)
  assertP bld (transition < 0.5)
  let kq ← computeTransitionParam bld transition
  computeAtten bld kq.2 (← int32 (nbrCoefs * 2 + 1))

/-- The loops of PolyphaseIir2Designer.cpp:151-154 and 191-194. -/
noncomputable def coefLoop (bld : Build) (coefArr : Buf ℝ) (nbrCoefs : ℤ) (k q : ℝ) (order : ℤ) : Res (Buf ℝ) :=
  forN (fun index arr => do arr.wr index (← computeCoef bld index k q order)) nbrCoefs.toNat coefArr

/-- PolyphaseIir2Designer.cpp:136-157 `compute_coefs`: number of coefficients and the array. -/
noncomputable def computeCoefs (bld : Build) (coefArr : Buf ℝ) (attenuation transition : ℝ) : Res (ℤ × Buf ℝ) := do
  assertP bld (attenuation > 0)
  assertP bld (transition > 0)
  assertP bld (transition < 0.5)
  let kq ← computeTransitionParam bld transition
  let order ← computeOrder bld attenuation kq.2
  let nbrCoefs := (order - 1).tdiv 2
  let coefArr ← coefLoop bld coefArr nbrCoefs kq.1 kq.2 order
  pure (nbrCoefs, coefArr)

/-- PolyphaseIir2Designer.cpp:179-195 `compute_coefs_spec_order_tbw` -/
noncomputable def computeCoefsSpecOrderTbw (bld : Build) (coefArr : Buf ℝ) (nbrCoefs : ℤ) (transition : ℝ) : Res (Buf ℝ) := do
  assertP bld (nbrCoefs > 0)
  assertP bld (transition > 0)
  assertP bld (transition < 0.5)
  let kq ← computeTransitionParam bld transition
  coefLoop bld coefArr nbrCoefs kq.1 kq.2 (← int32 (nbrCoefs * 2 + 1))

/-- PolyphaseIir2Designer.cpp:402-416 `compute_group_delay` of a cell. -/
noncomputable def cellGroupDelay (bld : Build) (a fFs : ℝ) (phFlag : Bool) : Res ℝ := do
  assertP bld (a ≥ 0)
  assertP bld (a ≤ 1)
  assertP bld (fFs ≥ 0)
  assertP bld (fFs < 0.5)
  let w := 2 * PI * fFs
  let a2 := a * a
  let sig : ℝ := if phFlag then -2 else 2
  divR (2 * (1 - a2)) (a2 + sig * a * Real.cos (2 * w) + 1)

/-- PolyphaseIir2Designer.cpp:438-452 `compute_group_delay` of a filter: `k = 0, 2, 4, …` -/
noncomputable def computeGroupDelay (bld : Build) (coefArr : Buf ℝ) (nbrCoefs : ℤ) (fFs : ℝ) (phFlag : Bool) : Res ℝ := do
  assertP bld (nbrCoefs > 0)
  assertP bld (fFs ≥ 0)
  assertP bld (fFs < 0.5)
  forN (fun i dlyTotal => do
    let dly ← cellGroupDelay bld (← coefArr.rd (2 * i)) fFs phFlag
    pure (dlyTotal + dly)) ((nbrCoefs.toNat + 1) / 2) 0

/-- `atan2 (y, x)` (hiir/PolyphaseIir2Designer.cpp:370) -/
noncomputable def atan2 (y x : ℝ) : ℝ := Complex.arg ⟨x, y⟩

/-- PolyphaseIir2Designer.cpp:358-378 `compute_phase_delay` -/
noncomputable def computePhaseDelay (bld : Build) (a fFs : ℝ) : Res ℝ := do
  assertP bld (a ≥ 0)
  assertP bld (a ≤ 1)
  assertP bld (fFs ≥ 0)
  assertP bld (fFs < 0.5)
  let w := 2 * PI * fFs
  let c := Real.cos w
  let s := Real.sin w
  let x := a + c + a * (c * (a + c) + s * s)
  let y := a * a * s - s
  let ph := atan2 y x
  let ph := if ph < 0 then ph + 2 * PI else ph
  divR ph w

/-- PolyphaseIir2Designer.h:88-94 `ResCode` -/
inductive ResCode where
  | failConv
  | failAtten
  | failGdTbw
  | ok
  deriving DecidableEq

/-- Variables of the bisection in `compute_coefs_spec_order_gdly`. (hiir/PolyphaseIir2Designer.cpp:242-338) -/
structure Bisect where
  coefArr : Buf ℝ
  lbTbw : ℝ
  ubTbw : ℝ
  lbGdly : ℝ
  rsTbw : ℝ
  rsAttn : ℝ
  rsGdly : ℝ
  nbrIt : ℕ
  convFlag : Bool

/-- PolyphaseIir2Designer.cpp:288-309: body of the bisection loop. -/
noncomputable def bisectBody (bld : Build) (nbrCoefs : ℤ) (groupDelay fRel prec : ℝ) (s : Bisect) : Res Bisect := do
  let rsTbw := (s.ubTbw + s.lbTbw) * 0.5
  let rsAttn ← computeAttenFromOrderTbw bld nbrCoefs rsTbw
  let coefArr ← computeCoefsSpecOrderTbw bld s.coefArr nbrCoefs rsTbw
  let rsGdly ← computeGroupDelay bld coefArr nbrCoefs fRel false
  let upper := (groupDelay - s.lbGdly) * (groupDelay - rsGdly) < 0
  pure { coefArr := coefArr, ubTbw := if upper then rsTbw else s.ubTbw, lbTbw := if upper then s.lbTbw else rsTbw,
         lbGdly := if upper then s.lbGdly else rsGdly, rsTbw := rsTbw, rsAttn := rsAttn, rsGdly := rsGdly,
         nbrIt := s.nbrIt + 1, convFlag := decide (|rsGdly - groupDelay| > prec) }

/-- What `compute_coefs_spec_order_gdly` returns, and what it writes (attenuation and transition only on success). (hiir/PolyphaseIir2Designer.cpp:242-338) -/
structure GdlyResult where
  code : ResCode
  coefArr : Buf ℝ
  written : Option (ℝ × ℝ)

/-- PolyphaseIir2Designer.cpp:242-338 `compute_coefs_spec_order_gdly`. `stack1`, `stack2`: the uninitialised local arrays
(`_max_order` = 256 elements each). The loop is a do-while loop. -/
noncomputable def computeCoefsSpecOrderGdly (bld : Build) (stack1 stack2 : ℕ → ℝ) (coefArr : Buf ℝ) (nbrCoefs : ℤ)
    (groupDelay fRel prec attenLb attenUb transLb transUb : ℝ) : Res GdlyResult := do
  assertP bld (nbrCoefs > 0)
  assertP bld (nbrCoefs ≤ 256)
  assertP bld (groupDelay > 0)
  assertP bld (fRel ≥ 0)
  assertP bld (fRel < 1)
  assertP bld (prec > 0)
  assertP bld (attenLb > 0)
  assertP bld (attenLb < attenUb)
  assertP bld (transLb > 0)
  assertP bld (transLb < transUb)
  assertP bld (transUb < 0.5)
  let ubCoefArr ← computeCoefsSpecOrderTbw bld ⟨0, 256, stack2⟩ nbrCoefs transUb
  let lbCoefArr ← computeCoefsSpecOrderTbw bld ⟨0, 256, stack1⟩ nbrCoefs transLb
  let ubGdly ← computeGroupDelay bld ubCoefArr nbrCoefs fRel false
  let lbGdly ← computeGroupDelay bld lbCoefArr nbrCoefs fRel false
  if (ubGdly - groupDelay) * (groupDelay - lbGdly) ≤ 0 then
    pure ⟨.failGdTbw, coefArr, none⟩
  else do
    let body := bisectBody bld nbrCoefs groupDelay fRel prec
    let s ← whileU (fun s => s.convFlag && s.nbrIt < 1000) body (← body ⟨coefArr, transLb, transUb, lbGdly, 0, 0, 0, 0, false⟩)
    if s.nbrIt ≥ 1000 && !s.convFlag then pure ⟨.failConv, s.coefArr, none⟩
    else if s.rsAttn < attenLb ∨ s.rsAttn > attenUb then pure ⟨.failAtten, s.coefArr, none⟩
    else pure ⟨.ok, s.coefArr, some (s.rsAttn, s.rsTbw)⟩

/-- filter-design/mkiir.cc:8-14 `mk_group_delay` -/
noncomputable def mkGroupDelay (bld : Build) (stage : ℕ) (coeffs : Buf ℝ) (nCoeffs : ℤ) : Res ℝ :=
  computeGroupDelay bld coeffs nCoeffs (1000 / (44100 * stage)) false

/-- filter-design/mkiir.cc:65-69: number of coefficients of a filter for `bits`, `stage`. -/
noncomputable def mkNbrCoefs (bld : Build) (stage bits : ℕ) : Res ℤ :=
  let rate : ℝ := 44100 * stage / 2
  let tbw := (rate / 2 - 18000) / rate
  computeNbrCoefsFromProto bld ((bits * 6 : ℕ) : ℝ) tbw

/-- filter-design/mkiir.cc:59-79: what `main` prints for `bits` and `stage`: number of coefficients, coefficients and group delay.
`stack`: initial content of the local array `coeffs` (at `addr`). An array without elements is undefined. The conversions to text
(`printf`) are not modelled. -/
noncomputable def mkFilter (bld : Build) (addr : ℕ) (stack : ℕ → ℝ) (stage bits : ℕ) : Res (ℤ × Buf ℝ × ℝ) := do
  let nCoeffs ← mkNbrCoefs bld stage bits
  if nCoeffs ≤ 0 then .error .domain
  else do
    let rate : ℝ := 44100 * stage / 2
    let tbw := (rate / 2 - 18000) / rate
    let coeffs ← computeCoefsSpecOrderTbw bld ⟨addr, nCoeffs.toNat, stack⟩ nCoeffs tbw
    let gdelay ← mkGroupDelay bld stage coeffs nCoeffs
    pure (nCoeffs, coeffs, gdelay)

end Panda.Designer
