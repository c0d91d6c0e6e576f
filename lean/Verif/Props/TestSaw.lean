import Verif.Proofs.TestSaw

/-!
# C116: the test signal of tests/testsawquality.cc is the band limited sawtooth

The sum of all harmonics below half the sampling rate of 48000 Hz. False for frequencies that are not positive (for instance if the argument is
not a number) or very small: the number of the harmonic overflows.
-/

namespace Panda.Tool

open Finset

/-- The signal is the sum over all harmonics below 24000 Hz, if there are less than `2^31 - 1`. -/
theorem C116_saw_partial (freq : ℝ) (h0 : 0 < freq) (h : 24000 ≤ (2 ^ 31 - 1) * freq) (i : ℕ) :
    ∃ K : ℕ, (∀ q : ℕ, q ≤ K ↔ q * freq < 24000) ∧
      sawSample freq i = .ok (∑ q ∈ Icc 1 K, Real.sin (2 * Real.pi * (q * freq) * (i / 48000)) / q) := by
  set M := ⌈24000 / freq⌉₊ with hM
  have hpos : 0 < M := Nat.ceil_pos.2 (by positivity)
  obtain ⟨K, hK⟩ : ∃ K, M = K + 1 := ⟨M - 1, by omega⟩
  have hiff : ∀ q : ℕ, q ≤ K ↔ q * freq < 24000 := by
    intro q
    rw [← lt_div_iff₀ h0, ← Nat.lt_ceil, ← hM]
    omega
  have hK' : K + 1 < 2 ^ 31 := by
    have : M ≤ 2 ^ 31 - 1 := by
      rw [hM, Nat.ceil_le, div_le_iff₀ h0]
      push_cast
      norm_num at h ⊢
      linarith
    omega
  refine ⟨K, hiff, ?_⟩
  have hl := sawLoop_sum freq i K hK' (fun q _ hq => (hiff q).1 hq) (not_lt.1 fun hc => by have := (hiff (K + 1)).2 hc; omega) K 1 0 le_rfl
    (by omega)
  unfold sawSample
  rw [show ((1 : ℤ), (0 : ℝ)) = (((1 : ℕ) : ℤ), (0 : ℝ)) by norm_num, hl, zero_add,
    show Ico 1 (K + 1) = Icc 1 K by ext q; simp only [mem_Ico, mem_Icc]; omega]
  show Except.ok (∑ q ∈ Icc 1 K, sawTerm freq i q) = _
  refine congrArg _ (sum_congr rfl fun q _ => ?_)
  unfold sawTerm
  push_cast
  congr 2
  ring

/-- Otherwise `p++` overflows. In particular if the frequency is 0 or negative. -/
theorem C116_false (freq : ℝ) (h : (2 ^ 31 - 1) * freq < 24000) (i : ℕ) : sawSample freq i = .error .overflow := by
  have hl := sawLoop_overflow freq i (fun q h1 hq => by
    have hq' : (q : ℝ) ≤ 2 ^ 31 - 1 := by
      have : q ≤ 2 ^ 31 - 1 := by omega
      have : (q : ℝ) ≤ ((2 ^ 31 - 1 : ℕ) : ℝ) := by exact_mod_cast this
      norm_num at this ⊢
      exact this
    have hq0 : (0 : ℝ) ≤ q := by positivity
    rcases le_or_gt freq 0 with h0 | h0
    · nlinarith
    · nlinarith) (2 ^ 31 - 2) 1 0 le_rfl (by norm_num)
  unfold sawSample
  rw [show ((1 : ℤ), (0 : ℝ)) = (((1 : ℕ) : ℤ), (0 : ℝ)) by norm_num, hl]
  rfl

/-- 9000 Hz: two harmonics. -/
example (i : ℕ) : sawSample 9000 i = .ok (Real.sin (2 * Real.pi * 9000 * (i / 48000)) + Real.sin (2 * Real.pi * 18000 * (i / 48000)) / 2) := by
  obtain ⟨K, hK, h⟩ := C116_saw_partial 9000 (by norm_num) (by norm_num) i
  have h2 : 2 ≤ K := (hK 2).2 (by norm_num)
  have h3 : ¬3 ≤ K := fun hc => by have := (hK 3).1 hc; norm_num at this
  have : K = 2 := by omega
  subst this
  rw [h, show Icc 1 2 = ({1, 2} : Finset ℕ) by decide, sum_pair (by norm_num)]
  norm_num

/-- An argument that `atof` reads as 0. -/
example : sawSample 0 1 = .error .overflow := C116_false 0 (by norm_num) 1

end Panda.Tool
