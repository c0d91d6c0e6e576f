import Verif.Spec.IirResponse

/-!
# How the group delay of the IIR filters differs from the delay constants

Frequencies are given for a (lower) sample rate of 44.1 kHz, delays in samples of the higher rate of the stage.
-/

namespace Panda

/-- Group delay of the stage for ratio `k` at `F` kHz (0, 1, 10 or 20) minus its delay constant, in millionths of a sample. -/
def devMicro : ℕ → ℕ → ℕ → ℤ
  | 0, 2, 8 => 7446 | 0, 2, 12 => -5628 | 0, 2, 16 => -7029 | 0, 2, 20 => -9262 | 0, 2, 24 => -10349
  | 0, 4, 8 => 1125 | 0, 4, 12 => -913 | 0, 4, 16 => -913 | 0, 4, 20 => -1249 | 0, 4, 24 => -1523
  | 0, 8, 8 => 9566 | 0, 8, 12 => -75 | 0, 8, 16 => -75 | 0, 8, 20 => -242 | 0, 8, 24 => -242
  | 1, 2, 8 => 11295 | 1, 2, 12 => 383 | 1, 2, 16 => 66 | 1, 2, 20 => 2 | 1, 2, 24 => 0
  | 1, 4, 8 => 1843 | 1, 4, 12 => 69 | 1, 4, 16 => 69 | 1, 4, 20 => 2 | 1, 4, 24 => 0
  | 1, 8, 8 => 9685 | 1, 8, 12 => 103 | 1, 8, 16 => 103 | 1, 8, 20 => 1 | 1, 8, 24 => 1
  | 10, 2, 8 => 475188 | 10, 2, 12 => 723078 | 10, 2, 16 => 852724 | 10, 2, 20 => 1113052 | 10, 2, 24 => 1243382
  | 10, 4, 8 => 75688 | 10, 4, 12 => 101022 | 10, 4, 16 => 101022 | 10, 4, 20 => 128572 | 10, 4, 24 => 156396
  | 10, 8, 8 => 21539 | 10, 8, 12 => 17878 | 10, 8, 16 => 17878 | 10, 8, 20 => 24253 | 10, 8, 24 => 24253
  | 20, 2, 8 => 5701819 | 20, 2, 12 => 8415482 | 20, 2, 16 => 9821486 | 20, 2, 20 => 12688372 | 20, 2, 24 => 14136394
  | 20, 4, 8 => 340843 | 20, 4, 12 => 460471 | 20, 4, 16 => 460471 | 20, 4, 20 => 585060 | 20, 4, 24 => 710950
  | 20, 8, 8 => 59458 | 20, 8, 12 => 73837 | 20, 8, 16 => 73837 | 20, 8, 20 => 100464 | 20, 8, 24 => 100464
  | _, _, _ => 0

/-- The same for a resampler, in samples of the lower rate. -/
def delayDev (F ratio p : ℕ) : ℚ := ((iirKeys ratio).map fun k => (devMicro F k p : ℚ) / k).sum / 10 ^ 6

end Panda
