import Verif.Proofs.IeeeFlush

/-!
# C118: the `float` and `double` of the model are those of IEEE 754

Every operation of the model is the exact result, rounded to the nearest representable number, ties to even; it is not a number exactly if the
rounded result is too large.
-/

namespace Panda

open Spec

/-- The results of `float` operations are rounded as in IEEE 754, and the conditions determine the result. -/
theorem C118_float (q : ℚ) : ∃ v, Rounds 24 (-149) q v ∧ (∀ w, Rounds 24 (-149) q w → w = v) ∧
    Fl.mk binary32 q = if |v| < 2 ^ 128 then Fl.fin v else none := by
  have h : Rounds 24 (-149) q (rnd32 q) := rndG_rounds (by norm_num) q
  refine ⟨rnd32 q, h, fun w hw => rounds_unique (by norm_num) hw h, ?_⟩
  unfold Fl.mk
  by_cases hb : |rnd32 q| < 2 ^ 128
  · exact (if_pos (decide_eq_true hb)).trans (if_pos hb).symm
  · exact (if_neg (by simpa [binary32] using hb)).trans (if_neg hb).symm

/-- The results of `double` operations are rounded as in IEEE 754, and the conditions determine the result. -/
theorem C118_double (q : ℚ) : ∃ v, Rounds 53 (-1074) q v ∧ (∀ w, Rounds 53 (-1074) q w → w = v) ∧
    Fl.mk binary64 q = if |v| < 2 ^ 1024 then Fl.fin v else none := by
  have h : Rounds 53 (-1074) q (rnd64 q) := rndG_rounds (by norm_num) q
  refine ⟨rnd64 q, h, fun w hw => rounds_unique (by norm_num) hw h, ?_⟩
  have e : (2 : ℚ) ^ 1024 = (2 ^ 128) ^ 8 := by rw [← pow_mul]
  rw [e]
  unfold Fl.mk
  by_cases hb : |rnd64 q| < (2 ^ 128) ^ 8
  · exact (if_pos (decide_eq_true hb)).trans (if_pos hb).symm
  · exact (if_neg (by simpa [binary64] using hb)).trans (if_neg hb).symm

/-- The operations round the exact result. -/
theorem C118_operations (S : Format) (a b : ℚ) : (Fl.fin a + Fl.fin b : Fl S) = Fl.mk S (a + b) ∧ (Fl.fin a - Fl.fin b : Fl S) = Fl.mk S (a - b) ∧
    (Fl.fin a * Fl.fin b : Fl S) = Fl.mk S (a * b) := ⟨rfl, rfl, rfl⟩

/-- Flushing as on x86 (C77, C87): the result rounded to 24 bits with an unbounded exponent becomes 0 if it is below `2^-126`. -/
theorem C118_ftz (q : ℚ) : ∃ v, (∃ N : ℤ, ∀ emin ≤ N, Rounds 24 emin q v) ∧ binary32ftz.rnd q = if |v| < 2⁻¹ ^ 126 then 0 else v :=
  ⟨rndU q, ⟨ilog2 q - 23, fun _ h => rndU_rounds h⟩, rndFtz_eq q⟩

/-- Flushing as on ARM: a result below `2^-126` becomes 0, others are rounded as in IEEE 754. -/
theorem C118_fz (q : ℚ) : ∃ v, Rounds 24 (-149) q v ∧ binary32fz.rnd q = if |q| < 2⁻¹ ^ 126 then 0 else v :=
  ⟨rnd32 q, rndG_rounds (by norm_num) q, rfl⟩

/-- The two differ for `2^-126 - 2^-151`. -/
example : binary32ftz.rnd (1 / 2 ^ 126 - 1 / 2 ^ 151) = 1 / 2 ^ 126 ∧ binary32fz.rnd (1 / 2 ^ 126 - 1 / 2 ^ 151) = 0 := by decide +kernel

/-- A tie: `1 + 2^-24` becomes 1, and `1 + 3 * 2^-24` becomes `1 + 2^-22`. -/
example : Fl.mk binary32 (1 + 1 / 2 ^ 24) = Fl.fin 1 ∧ Fl.mk binary32 (1 + 3 / 2 ^ 24) = Fl.fin (1 + 1 / 2 ^ 22) := by decide +kernel

/-- Overflow: the smallest number that is rounded to `2^128`. -/
example : Option.isNone (α := ℚ) (Fl.mk binary32 (2 ^ 128 - 2 ^ 103)) = true ∧
    Fl.mk binary32 (2 ^ 128 - 2 ^ 103 - 1) = Fl.fin (2 ^ 128 - 2 ^ 104) := by decide +kernel

/-- Subnormal numbers: half the smallest positive `float` becomes 0, a bit more does not. -/
example : Fl.mk binary32 (1 / 2 ^ 150) = Fl.fin 0 ∧ Fl.mk binary32 (3 / 2 ^ 151) = Fl.fin (1 / 2 ^ 149) := by decide +kernel

end Panda
