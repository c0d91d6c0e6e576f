import Verif.Model.TestSpectrum
import Verif.Spec.Spectrum

/-!
# Spectra in the test programs: window and sine waves
-/

namespace Panda.Tool

open Finset

/-- `e^(i t)` -/
noncomputable def cis (t : ℝ) : ℂ := Complex.exp (t * Complex.I)

theorem cis_add (s t : ℝ) : cis (s + t) = cis s * cis t := by
  unfold cis
  rw [← Complex.exp_add]
  congr 1
  push_cast
  ring

theorem cos_cis (t : ℝ) : (Real.cos t : ℂ) = (cis t + cis (-t)) / 2 := by
  rw [Complex.ofReal_cos, Complex.cos]
  unfold cis
  push_cast
  rw [neg_mul]

theorem sin_cis (t : ℝ) : (Real.sin t : ℂ) = (cis (-t) - cis t) * Complex.I / 2 := by
  rw [Complex.ofReal_sin, Complex.sin]
  unfold cis
  push_cast
  rw [neg_mul]

theorem norm_cis (t : ℝ) : ‖cis t‖ = 1 := by
  unfold cis
  exact Complex.norm_exp_ofReal_mul_I t

/-- `Σ e^(2 π i m j / n)` -/
noncomputable def geo (n : ℕ) (m : ℤ) : ℂ := ∑ j ∈ range n, cis (2 * Real.pi * m * j / n)

theorem cis_pow (t : ℝ) (j : ℕ) : cis t ^ j = cis (j * t) := by
  unfold cis
  rw [← Complex.exp_nat_mul]
  congr 1
  push_cast
  ring

theorem cis_two_pi (m : ℤ) : cis (2 * Real.pi * m) = 1 := by
  unfold cis
  rw [Complex.exp_eq_one_iff]
  exact ⟨m, by push_cast; ring⟩

theorem geo_eq {n : ℕ} (hn : 0 < n) (m : ℤ) : geo n m = if (n : ℤ) ∣ m then (n : ℂ) else 0 := by
  have hn' : (n : ℝ) ≠ 0 := by positivity
  have e : ∀ j ∈ range n, cis (2 * Real.pi * m * j / n) = cis (2 * Real.pi * m / n) ^ j := by
    intro j _
    rw [cis_pow]
    congr 1
    ring
  unfold geo
  rw [sum_congr rfl e]
  split_ifs with h
  · obtain ⟨k, rfl⟩ := h
    have : cis (2 * Real.pi * ((n * k : ℤ) : ℝ) / n) = 1 := by
      rw [← cis_two_pi k]
      congr 1
      push_cast
      field_simp
    rw [this]
    simp
  · have h1 : cis (2 * Real.pi * m / n) ≠ 1 := by
      intro hc
      unfold cis at hc
      obtain ⟨k, hk⟩ := Complex.exp_eq_one_iff.1 hc
      apply h
      refine ⟨k, ?_⟩
      have h2 : ((2 * Real.pi * m / n : ℝ) : ℂ) = ((k * (2 * Real.pi) : ℝ) : ℂ) := by
        apply mul_right_cancel₀ Complex.I_ne_zero
        rw [hk]
        push_cast
        ring
      have h3 : 2 * Real.pi * m / n = k * (2 * Real.pi) := by exact_mod_cast h2
      have hpi := Real.pi_ne_zero
      have h4 : (m : ℝ) = n * k := by
        field_simp at h3
        linarith
      exact_mod_cast h4
    rw [geom_sum_eq h1, cis_pow]
    have : cis ((n : ℕ) * (2 * Real.pi * m / n)) = 1 := by
      rw [← cis_two_pi m]
      congr 1
      field_simp
    rw [this, sub_self, zero_div]

theorem winAt_eq {n i : ℕ} (hn : 0 < n) (hi : i ≤ n) :
    winAt n i = 0.42 - 0.5 * Real.cos (2 * Real.pi * i / n) + 0.08 * Real.cos (2 * (2 * Real.pi * i / n)) := by
  have hn' : (0 : ℝ) < n := by positivity
  have hi' : (i : ℝ) ≤ n := by exact_mod_cast hi
  have hi0 : (0 : ℝ) ≤ i := by positivity
  unfold winAt windowBlackman
  rw [if_neg]
  · have e1 : Real.pi * ((2.0 * i - n) / n) = 2 * Real.pi * i / n - Real.pi := by rw [show (2.0 : ℝ) = 2 by norm_num]; field_simp
    have e2 : 2.0 * Real.pi * ((2.0 * i - n) / n) = 2 * (2 * Real.pi * i / n) - 2 * Real.pi := by rw [show (2.0 : ℝ) = 2 by norm_num]; field_simp
    rw [e1, e2, Real.cos_sub_pi, Real.cos_sub_two_pi]
    ring
  · rw [not_lt, abs_le, le_div_iff₀ hn', div_le_iff₀ hn']
    constructor <;> linarith

theorem winAt_beyond {n i : ℕ} (hn : 0 < n) (hi : n ≤ i) : winAt n i = 0 := by
  rcases hi.eq_or_lt with rfl | hi
  · rw [winAt_eq hn le_rfl]
    have hn' : (n : ℝ) ≠ 0 := by positivity
    have e : 2 * Real.pi * n / n = 2 * Real.pi := by field_simp
    rw [e, Real.cos_two_pi, Real.cos_two_mul, Real.cos_two_pi]
    norm_num
  · unfold winAt windowBlackman
    rw [if_pos]
    have hn' : (0 : ℝ) < n := by positivity
    have hi' : (n : ℝ) < i := by exact_mod_cast hi
    refine lt_of_lt_of_le ?_ (le_abs_self _)
    rw [lt_div_iff₀ hn']
    linarith

/-- Transform of the window at any integer. -/
theorem sum_win {n : ℕ} (hn : 0 < n) (m : ℤ) : ∑ j ∈ range n, (winAt n j : ℂ) * cis (2 * Real.pi * m * j / n)
    = 0.42 * geo n m - 0.25 * (geo n (m + 1) + geo n (m - 1)) + 0.04 * (geo n (m + 2) + geo n (m - 2)) := by
  unfold geo
  simp only [← sum_add_distrib, mul_sum, ← sum_sub_distrib]
  refine sum_congr rfl fun j hj => ?_
  rw [winAt_eq hn (mem_range.1 hj).le]
  push_cast
  rw [← Complex.ofReal_ofNat, show ((2 : ℝ) : ℂ) * Real.pi * j / n = ((2 * Real.pi * j / n : ℝ) : ℂ) by push_cast; ring]
  rw [← Complex.ofReal_mul, ← Complex.ofReal_cos, ← Complex.ofReal_cos, cos_cis, cos_cis]
  have e : ∀ d : ℝ, cis (2 * Real.pi * (m + d) * j / n) = cis (2 * Real.pi * m * j / n) * cis (d * (2 * Real.pi * j / n)) := by
    intro d
    rw [← cis_add]
    congr 1
    ring
  have e1 := e 1
  have e2 := e (-1)
  have e3 := e 2
  have e4 := e (-2)
  rw [one_mul] at e1
  rw [neg_one_mul, ← sub_eq_add_neg] at e2
  rw [neg_mul, ← sub_eq_add_neg] at e4
  rw [e1, e2, e3, e4]
  ring

theorem sum_winAt {n : ℕ} (hn : 3 ≤ n) : ∑ i ∈ range n, winAt n i = 0.42 * n := by
  have h := sum_win (show 0 < n by omega) 0
  rw [geo_eq (by omega), geo_eq (by omega), geo_eq (by omega), geo_eq (by omega), geo_eq (by omega), if_pos (by simp),
    if_neg (fun h => by have := Int.le_of_dvd (by norm_num) h; omega), if_neg (fun h => by have := Int.le_of_dvd (by norm_num) ((dvd_neg).2 h); omega),
    if_neg (fun h => by have := Int.le_of_dvd (by norm_num) h; omega), if_neg (fun h => by have := Int.le_of_dvd (by norm_num) ((dvd_neg).2 h); omega)] at h
  have e : ∀ j ∈ range n, (winAt n j : ℂ) * cis (2 * Real.pi * (0 : ℤ) * j / n) = ((winAt n j : ℝ) : ℂ) := by
    intro j _
    have : cis (2 * Real.pi * (0 : ℤ) * j / n) = 1 := by
      unfold cis
      simp
    rw [this, mul_one]
  rw [sum_congr rfl e, ← Complex.ofReal_sum] at h
  apply Complex.ofReal_injective
  rw [h]
  push_cast
  ring

theorem geo_not {n : ℕ} {m : ℤ} (h0 : m ≠ 0) (h : |m| < n) : geo n m = 0 := by
  rw [geo_eq (by have := abs_nonneg m; omega), if_neg]
  intro hd
  exact h0 (Int.eq_zero_of_abs_lt_dvd hd h)

theorem geo_zero {n : ℕ} (hn : 0 < n) : geo n 0 = n := by
  rw [geo_eq hn, if_pos (dvd_zero _)]

/-- Transform of the window. -/
theorem norm_win {n : ℕ} {m : ℤ} (h : |m| + 3 ≤ n) : ‖∑ j ∈ range n, (winAt n j : ℂ) * cis (2 * Real.pi * m * j / n)‖ = 0.42 * n * Spec.lobe m := by
  have hn : 0 < n := by have := abs_nonneg m; omega
  have hz := geo_zero hn
  rw [sum_win hn]
  have g : ∀ d : ℤ, |d| ≤ 2 → m + d ≠ 0 → geo n (m + d) = 0 := fun d hd h0 => geo_not h0 (by
    have := abs_add_le m d
    omega)
  have e : ∀ c : ℝ, 0 ≤ c → ‖((c * n : ℝ) : ℂ)‖ = c * n := fun c hc => by
    rw [Complex.norm_real, Real.norm_of_nonneg (by positivity)]
  unfold Spec.lobe
  by_cases h0 : m = 0
  · subst h0
    rw [abs_zero, zero_add] at h
    rw [hz, geo_not (by norm_num) (by simp; omega), geo_not (by norm_num) (by simp; omega), geo_not (by norm_num) (by simp; omega),
      geo_not (by norm_num) (by simp; omega), if_pos rfl, mul_one, ← e _ (by norm_num)]
    congr 1
    push_cast
    ring
  rw [if_neg h0]
  have gm : geo n m = 0 := by simpa using g 0 (by norm_num) (by simpa using h0)
  have gp1 : m ≠ -1 → geo n (m + 1) = 0 := fun h => g 1 (by norm_num) (by omega)
  have gp2 : m ≠ -2 → geo n (m + 2) = 0 := fun h => g 2 (by norm_num) (by omega)
  have gm1 : m ≠ 1 → geo n (m - 1) = 0 := fun h => g (-1) (by norm_num) (by omega)
  have gm2 : m ≠ 2 → geo n (m - 2) = 0 := fun h => g (-2) (by norm_num) (by omega)
  by_cases h1 : |m| = 1
  · rw [if_pos h1]
    have : ‖(0.42 * geo n m - 0.25 * (geo n (m + 1) + geo n (m - 1)) + 0.04 * (geo n (m + 2) + geo n (m - 2)) : ℂ)‖ = 0.25 * n := by
      rcases (abs_eq (by norm_num)).1 h1 with rfl | rfl
      · rw [gm, gp1 (by norm_num), gp2 (by norm_num), gm2 (by norm_num), sub_self, hz, ← e _ (by norm_num), ← norm_neg]
        congr 1
        push_cast
        ring
      · rw [gm, gm1 (by norm_num), gp2 (by norm_num), gm2 (by norm_num), neg_add_cancel, hz, ← e _ (by norm_num), ← norm_neg]
        congr 1
        push_cast
        ring
    rw [this]
    ring
  rw [if_neg h1]
  by_cases h2 : |m| = 2
  · rw [if_pos h2]
    have : ‖(0.42 * geo n m - 0.25 * (geo n (m + 1) + geo n (m - 1)) + 0.04 * (geo n (m + 2) + geo n (m - 2)) : ℂ)‖ = 0.04 * n := by
      rcases (abs_eq (by norm_num)).1 h2 with rfl | rfl
      · rw [gm, gp1 (by norm_num), gp2 (by norm_num), gm1 (by norm_num), sub_self, hz, ← e _ (by norm_num)]
        congr 1
        push_cast
        ring
      · rw [gm, gm1 (by norm_num), gp1 (by norm_num), gm2 (by norm_num), neg_add_cancel, hz, ← e _ (by norm_num)]
        congr 1
        push_cast
        ring
    rw [this]
    ring
  rw [if_neg h2, gm, gp1, gp2, gm1, gm2]
  · simp
  all_goals rintro rfl; simp at h1 h2

/-- Transform of a sine wave with `k` periods. -/
theorem norm_fft_sine {n k b : ℕ} (h3 : 3 ≤ k + b) (hn : k + b + 3 ≤ n) (A φ : ℝ) :
    ‖fft n (fun i => A * Real.sin (2 * Real.pi * k * i / n + φ) * winAt n i) b‖ = |A| * Spec.lobe (k - b : ℤ) * (0.42 * n / 2) := by
  set W : ℤ → ℂ := fun m => ∑ j ∈ range n, (winAt n j : ℂ) * cis (2 * Real.pi * m * j / n) with hW
  have key : fft n (fun i => A * Real.sin (2 * Real.pi * k * i / n + φ) * winAt n i) b
      = A * Complex.I / 2 * (cis (-φ) * W (-k - b) - cis φ * W (k - b)) := by
    unfold fft
    rw [hW]
    simp only [mul_sum, ← sum_sub_distrib]
    refine sum_congr rfl fun j _ => ?_
    have ec : Complex.exp (-(2 * Real.pi * b * j / n : ℝ) * Complex.I) = cis (-(2 * Real.pi * b * j / n)) := by
      unfold cis
      push_cast
      rfl
    have e1 : cis (2 * Real.pi * ((-k - b : ℤ) : ℝ) * j / n) = cis (-(2 * Real.pi * k * j / n)) * cis (-(2 * Real.pi * b * j / n)) := by
      rw [← cis_add]
      congr 1
      push_cast
      ring
    have e2 : cis (2 * Real.pi * ((k - b : ℤ) : ℝ) * j / n) = cis (2 * Real.pi * k * j / n) * cis (-(2 * Real.pi * b * j / n)) := by
      rw [← cis_add]
      congr 1
      push_cast
      ring
    rw [ec, e1, e2]
    simp only [Complex.ofReal_mul]
    rw [sin_cis, neg_add, cis_add, cis_add]
    ring
  have hk : |(k - b : ℤ)| + 3 ≤ n := by
    have : |(k - b : ℤ)| ≤ k + b := abs_le.2 ⟨by omega, by omega⟩
    omega
  have h1 : ‖W (k - b)‖ = 0.42 * n * Spec.lobe (k - b : ℤ) := norm_win hk
  have h2 : ‖W (-k - b)‖ = 0 := by
    have ea : |(-k - b : ℤ)| = k + b := by
      rw [show (-k - b : ℤ) = -(k + b) by ring, abs_neg, abs_of_nonneg (by positivity)]
    rw [hW]
    rw [norm_win (by rw [ea]; omega)]
    unfold Spec.lobe
    rw [if_neg (by omega), ea, if_neg (by omega), if_neg (by omega), mul_zero]
  rw [key, norm_eq_zero.1 h2, mul_zero, zero_sub, norm_mul, norm_neg, norm_mul, norm_cis, h1]
  simp only [norm_div, norm_mul, Complex.norm_I, Complex.norm_real, Real.norm_eq_abs, Complex.norm_ofNat]
  ring

theorem sqrt_norm (z : ℂ) : Real.sqrt (z.re * z.re + z.im * z.im) = ‖z‖ := by
  rw [Complex.norm_def, Complex.normSq_apply]

end Panda.Tool
