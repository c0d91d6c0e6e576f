import Verif.Proofs.TestSpectrum

/-!
# C114, C115: spectra in the test programs
-/

namespace Panda.Tool

open Spec Finset

/-- The error spectrum of tests/testresampler.cc shows a sine wave with `k` periods in the window, any amplitude and phase, as a line at `k`
with its amplitude, two smaller lines on either side, and exactly 0 elsewhere. -/
theorem C114_error_spectrum (n k b : ℕ) (he : n % 2 = 0) (h3 : 3 ≤ k + b) (hn : k + b + 3 ≤ n) (A φ : ℝ) :
    errorSpectrum n (fun i => A * Real.sin (2 * Real.pi * k * i / n + φ)) b = |A| * lobe (k - b : ℤ) := by
  have hn0 : (n : ℝ) ≠ 0 := by
    have : n ≠ 0 := by omega
    exact_mod_cast this
  have hh : ((n / 2 : ℕ) : ℝ) = n / 2 := Nat.cast_div (Nat.dvd_of_mod_eq_zero he) (by norm_num)
  unfold errorSpectrum
  simp only []
  rw [sqrt_norm, norm_fft_sine h3 hn, sum_winAt (by omega), hh]
  field_simp

/-- The same for tests/testsawquality.cc. -/
theorem C114_saw_spectrum (n k b : ℕ) (h3 : 3 ≤ k + b) (hn : k + b + 3 ≤ n) (A φ : ℝ) :
    sawSpectrum n (fun i => A * Real.sin (2 * Real.pi * k * i / n + φ)) b = |A| * lobe (k - b : ℤ) := by
  have hn0 : (n : ℝ) ≠ 0 := by
    have : n ≠ 0 := by omega
    exact_mod_cast this
  unfold sawSpectrum
  simp only []
  rw [sqrt_norm, norm_fft_sine h3 hn, sum_winAt (by omega)]
  field_simp

/-- The window is an even function with values from 0 to 1, 1 in the middle and 0 at the ends and outside. -/
theorem C114_window (x : ℝ) : windowBlackman (-x) = windowBlackman x ∧ 0 ≤ windowBlackman x ∧ windowBlackman x ≤ 1 ∧ windowBlackman 0 = 1 ∧
    (1 ≤ |x| → windowBlackman x = 0) := by
  have e : ∀ y : ℝ, |y| ≤ 1 → windowBlackman y = 0.34 + 0.5 * Real.cos (Real.pi * y) + 0.16 * Real.cos (Real.pi * y) ^ 2 := by
    intro y hy
    unfold windowBlackman
    rw [if_neg (not_lt.2 hy), show 2.0 * Real.pi * y = 2 * (Real.pi * y) by norm_num; ring, Real.cos_two_mul]
    ring
  have z : ∀ y : ℝ, 1 < |y| → windowBlackman y = 0 := fun y hy => by
    unfold windowBlackman
    rw [if_pos hy]
  refine ⟨?_, ?_, ?_, ?_, ?_⟩
  · rcases le_or_gt |x| 1 with h | h
    · rw [e x h, e (-x) (by rwa [abs_neg]), mul_neg, Real.cos_neg]
    · rw [z x h, z (-x) (by rwa [abs_neg])]
  · rcases le_or_gt |x| 1 with h | h
    · rw [e x h]
      nlinarith [Real.neg_one_le_cos (Real.pi * x), Real.cos_le_one (Real.pi * x)]
    · rw [z x h]
  · rcases le_or_gt |x| 1 with h | h
    · rw [e x h]
      nlinarith [Real.neg_one_le_cos (Real.pi * x), Real.cos_le_one (Real.pi * x)]
    · rw [z x h]
      norm_num
  · rw [e 0 (by norm_num)]
    norm_num
  · intro h
    rcases h.eq_or_lt with h | h
    · have hc : Real.cos (Real.pi * x) = -1 := by
        rcases (abs_eq (by norm_num)).1 h.symm with rfl | rfl
        · rw [mul_one, Real.cos_pi]
        · rw [mul_neg_one, Real.cos_neg, Real.cos_pi]
      rw [e x h.symm.le, hc]
      norm_num
    · exact z x h

/-- The 16384 values of tests/testresampler.cc: a sine wave with 1000 periods and amplitude 1/2, seen at 1000, 1001 and 1003. -/
example : errorSpectrum 16384 (fun i => 1 / 2 * Real.sin (2 * Real.pi * (1000 : ℕ) * i / (16384 : ℕ) + 3)) 1000 = 1 / 2 ∧
    errorSpectrum 16384 (fun i => 1 / 2 * Real.sin (2 * Real.pi * (1000 : ℕ) * i / (16384 : ℕ) + 3)) 1001 = 25 / 84 ∧
    errorSpectrum 16384 (fun i => 1 / 2 * Real.sin (2 * Real.pi * (1000 : ℕ) * i / (16384 : ℕ) + 3)) 1003 = 0 := by
  refine ⟨?_, ?_, ?_⟩ <;> rw [C114_error_spectrum _ _ _ (by norm_num) (by norm_num) (by norm_num)] <;> norm_num [lobe]

/-- tests/testdownmulti.cc puts the window over the first `FFT_SIZE` samples only: the rest of the `FFT_SIZE * ds` samples of the signal is 0. So
the statement "the window covers the whole signal" is false for every ratio `ds > 1`. -/
theorem C115_false (n ds : ℕ) (hn : 0 < n) (freq : ℝ) (i : ℕ) (hi : n ≤ i) (_ : i < n * ds) : downMultiIn n ds freq i = 0 := by
  unfold downMultiIn
  rw [winAt_beyond hn hi, mul_zero]

/-- `normalize` is 0.21 times the size of the transform, divided by the ratio: half the sum of the window that there is, divided by the ratio. -/
theorem C115_normalize_partial (n ds : ℕ) (hn : 3 ≤ n) (hd : 0 < ds) : downMultiNormalize n ds = 0.21 * n / ds := by
  have hs : ∑ i ∈ range (n * ds), winAt n i = 0.42 * n := by
    rw [← sum_winAt hn]
    refine (sum_subset (range_mono (Nat.le_mul_of_pos_right n hd)) fun i _ hi => ?_).symm
    exact winAt_beyond (by omega) (not_lt.1 fun h => hi (mem_range.2 h))
  have hd' : (ds : ℝ) ≠ 0 := by positivity
  unfold downMultiNormalize
  rw [hs]
  field_simp
  norm_num

/-- The window covers the first `FFT_SIZE` samples: it is positive there except for the first one. -/
theorem C115_covers_partial (n i : ℕ) (hi : 0 < i) (hn : i < n) : 0 < winAt n i := by
  have h0 : (0 : ℝ) < n := by
    have : 0 < n := by omega
    exact_mod_cast this
  rw [winAt_eq (by omega) hn.le, Real.cos_two_mul]
  have hi0 : (0 : ℝ) < i := by exact_mod_cast hi
  have hin : (i : ℝ) < n := by exact_mod_cast hn
  have hc : Real.cos (2 * Real.pi * i / n) < 1 := by
    refine lt_of_le_of_ne (Real.cos_le_one _) fun h => ?_
    have hpi := Real.pi_pos
    have := (Real.cos_eq_one_iff_of_lt_of_lt (x := 2 * Real.pi * i / n) ?_ ?_).1 h
    · have : (0 : ℝ) < 2 * Real.pi * i / n := by positivity
      linarith
    · have : (0 : ℝ) < 2 * Real.pi * i / n := by positivity
      linarith
    · rw [div_lt_iff₀ h0]
      nlinarith
  nlinarith [Real.neg_one_le_cos (2 * Real.pi * i / n)]

/-- Ratio 4, as in the program: of 32768 samples those from 8192 on are 0. -/
example : downMultiIn 8192 4 100 20000 = 0 := C115_false 8192 4 (by norm_num) 100 20000 (by norm_num) (by norm_num)

example : downMultiNormalize 8192 4 = 430.08 := by
  rw [C115_normalize_partial 8192 4 (by norm_num) (by norm_num)]
  norm_num

end Panda.Tool
