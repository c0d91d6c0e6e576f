import Verif.Proofs.Fnc

/-!
# C113: `round_int` rounds to the nearest integer

For every `double` except one. `round_int (0.49999999999999994)` is 1: the sum `x + 0.5` is rounded to 1 before the floor is taken.
-/

namespace Panda

open Spec

/-- `round_int (x)` of a `double` other than `1/2 - 2^-54` is the nearest integer, the larger one of two equally near, if this is an `int`. -/
theorem C113_nearest_partial (x : ℚ) (hx : IsDouble x) (hne : x ≠ 1 / 2 - 2⁻¹ ^ 54) (n : ℤ) (hn : NearestInt n x)
    (hi : -2 ^ 31 ≤ n ∧ n < 2 ^ 31) : roundInt (Fl.fin x) = .ok n := by
  have hfl := nearestInt_iff.1 hn
  have h1 := Int.floor_le (x + 1 / 2)
  have h2 := Int.lt_floor_add_one (x + 1 / 2)
  rw [← hfl] at h1 h2
  have h3 : (-2 ^ 31 : ℚ) ≤ n := by exact_mod_cast hi.1
  have h4 : (n : ℚ) < 2 ^ 31 := by exact_mod_cast hi.2
  have hb : |x| < 2 ^ 51 := by
    rw [abs_lt]
    norm_num at h3 h4 ⊢
    constructor <;> linarith
  rw [roundInt_small hx hb hne, ← hfl]
  unfold intOf
  rw [if_pos hi]
  rfl

/-- If the nearest integer is not an `int`, the conversion is undefined. -/
theorem C113_overflow (x : ℚ) (hx : IsDouble x) (n : ℤ) (hn : NearestInt n x) (hi : ¬(-2 ^ 31 ≤ n ∧ n < 2 ^ 31)) :
    roundInt (Fl.fin x) = .error .convert := by
  rcases lt_or_ge |x| (2 ^ 51) with hb | hb
  · have hfl := nearestInt_iff.1 hn
    rw [roundInt_small hx hb, ← hfl]
    · unfold intOf
      rw [if_neg hi]
    · rintro rfl
      apply hi
      rw [hfl, show ⌊(1 / 2 - 2⁻¹ ^ 54 + 1 / 2 : ℚ)⌋ = 0 by rw [Int.floor_eq_iff]; norm_num]
      norm_num
  · exact roundInt_large hb

/-- The statement without the exception is false: `1/2 - 2^-54` is a `double`, the nearest integer is 0, and the result is 1. -/
theorem C113_false : IsDouble (1 / 2 - 2⁻¹ ^ 54) ∧ NearestInt 0 (1 / 2 - 2⁻¹ ^ 54) ∧ roundInt (Fl.fin (1 / 2 - 2⁻¹ ^ 54)) = .ok 1 := by
  refine ⟨⟨2 ^ 53 - 1, -54, by norm_num, by norm_num, by norm_num, by norm_num⟩, ?_, ?_⟩
  · rw [nearestInt_iff]
    symm
    rw [Int.floor_eq_iff]
    norm_num
  · decide +kernel

/-- A sum that is rounded: `1 - 2^-53`. -/
example : roundInt (Fl.fin (1 - 2⁻¹ ^ 53)) = .ok 1 :=
  C113_nearest_partial _ ⟨2 ^ 53 - 1, -53, by norm_num, by norm_num, by norm_num, by norm_num⟩ (by norm_num) 1
    (nearestInt_iff.2 (by symm; rw [Int.floor_eq_iff]; norm_num)) (by norm_num)

/-- A tie: `-2.5` becomes -2. -/
example : roundInt (Fl.fin (-5 / 2)) = .ok (-2) :=
  C113_nearest_partial _ ⟨-5, -1, by norm_num, by norm_num, by norm_num, by norm_num⟩ (by norm_num) (-2)
    (nearestInt_iff.2 (by symm; rw [Int.floor_eq_iff]; norm_num)) (by norm_num)

/-- `2^31 - 0.5` -/
example : roundInt (Fl.fin (2 ^ 31 - 1 / 2)) = .error .convert :=
  C113_overflow _ ⟨2 ^ 32 - 1, -1, by norm_num, by norm_num, by norm_num, by norm_num⟩ (2 ^ 31)
    (nearestInt_iff.2 (by symm; rw [Int.floor_eq_iff]; norm_num)) (by norm_num)

end Panda
