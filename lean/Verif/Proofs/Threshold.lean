import Mathlib.Analysis.SpecialFunctions.Trigonometric.Inverse
import Verif.Spec.Threshold
import Verif.Props.Freq

/-!
# Sinusoids with rational values, levels in dB
-/

namespace Panda

theorem level_pos (d : ℕ) : 0 < level d := Real.rpow_pos_of_pos (by norm_num) _

theorem level_pow (d : ℕ) : level d ^ 40 * 10 ^ d = 1 := by
  unfold level
  rw [← Real.rpow_natCast, ← Real.rpow_mul (by norm_num), ← Real.rpow_natCast (10 : ℝ) d, ← Real.rpow_add (by norm_num)]
  rw [show -(d : ℝ) / 40 * ((40 : ℕ) : ℝ) + d = 0 by push_cast; ring, Real.rpow_zero]

theorem le_level {x : ℚ} {d : ℕ} (h : x ^ 40 * 10 ^ d ≤ 1) : (x : ℝ) ≤ level d := by
  by_contra hc
  push Not at hc
  have h1 := pow_lt_pow_left₀ hc (level_pos d).le (by norm_num : 40 ≠ 0)
  have h2 : (x : ℝ) ^ 40 * 10 ^ d ≤ 1 := by exact_mod_cast h
  rw [← level_pow d] at h2
  exact absurd (le_of_mul_le_mul_right h2 (by positivity)) (not_le.2 h1)

theorem level_le {x : ℚ} {d : ℕ} (h0 : 0 ≤ x) (h : 1 ≤ x ^ 40 * 10 ^ d) : level d ≤ (x : ℝ) := by
  by_contra hc
  push Not at hc
  have hx : (0 : ℝ) ≤ (x : ℝ) := by exact_mod_cast h0
  have h1 := pow_lt_pow_left₀ hc hx (by norm_num : 40 ≠ 0)
  have h2 : 1 ≤ (x : ℝ) ^ 40 * 10 ^ d := by exact_mod_cast h
  rw [← level_pow d] at h2
  exact absurd (le_of_mul_le_mul_right h2 (by positivity)) (not_le.2 h1)

/-- Cosine and sine of multiples of an angle with the cosine `s` and the sine `c`. -/
def rot (s c : ℚ) : ℕ → ℚ × ℚ
  | 0 => (1, 0)
  | n + 1 => ((rot s c n).1 * s - (rot s c n).2 * c, (rot s c n).2 * s + (rot s c n).1 * c)

theorem rot_eq {s c : ℚ} {h : ℝ} (hs : Real.cos h = s) (hc : Real.sin h = c) (n : ℕ) :
    Real.cos (n * h) = ((rot s c n).1 : ℚ) ∧ Real.sin (n * h) = ((rot s c n).2 : ℚ) := by
  induction n with
  | zero => simp [rot]
  | succ n ih =>
    unfold rot
    push_cast
    rw [add_mul, one_mul, Real.cos_add, Real.sin_add, hs, hc, ih.1, ih.2]
    exact ⟨rfl, rfl⟩

/-- `cos (p + e h)`: the angle `h` has the cosine `s` and the sine `c`, the phase `p` the cosine `c0` and the sine `s0`. -/
def ratTone (s c c0 s0 : ℚ) (e : ℤ) : ℚ :=
  c0 * (rot s c e.natAbs).1 - s0 * (if 0 ≤ e then (rot s c e.natAbs).2 else -(rot s c e.natAbs).2)

theorem ratTone_eq {s c c0 s0 : ℚ} {h p : ℝ} (hs : Real.cos h = s) (hc : Real.sin h = c) (hc0 : Real.cos p = c0) (hs0 : Real.sin p = s0)
    (e : ℤ) : ((ratTone s c c0 s0 e : ℚ) : ℝ) = Real.cos (p + e * h) := by
  obtain ⟨h1, h2⟩ := rot_eq hs hc e.natAbs
  unfold ratTone
  rw [Real.cos_add, hc0, hs0]
  split
  · rename_i h0
    have he : (e : ℝ) = (e.natAbs : ℝ) := by
      rw [← Int.cast_natCast, Int.natAbs_of_nonneg h0]
    rw [he, h1, h2]
    push_cast
    ring
  · rename_i h0
    have he : (e : ℝ) = -(e.natAbs : ℝ) := by
      rw [← Int.cast_natCast, Int.ofNat_natAbs_of_nonpos (by omega)]
      push_cast
      ring
    rw [he, neg_mul, Real.cos_neg, Real.sin_neg, h1, h2]
    push_cast
    ring

/-- An angle with rational cosine and sine. -/
theorem arccos_facts {s c : ℚ} (h0 : 0 ≤ s) (hc : 0 ≤ c) (h : s ^ 2 + c ^ 2 = 1) :
    Real.cos (Real.arccos s) = s ∧ Real.sin (Real.arccos s) = c ∧ 0 ≤ Real.arccos s ∧ Real.arccos s ≤ Real.pi / 2 - s := by
  have hs1 : (s : ℝ) ≤ 1 := by
    have : s ≤ 1 := by nlinarith
    exact_mod_cast this
  have h0' : (0 : ℝ) ≤ s := by exact_mod_cast h0
  refine ⟨Real.cos_arccos (by linarith) hs1, ?_, Real.arccos_nonneg _, ?_⟩
  · rw [Real.sin_arccos, show (1 : ℝ) - (s : ℝ) ^ 2 = (c : ℝ) ^ 2 by
      have : (s : ℝ) ^ 2 + (c : ℝ) ^ 2 = 1 := by exact_mod_cast h
      linarith]
    exact Real.sqrt_sq (by exact_mod_cast hc)
  · rw [Real.arccos]
    have h1 : (s : ℝ) ≤ Real.arcsin s := by
      have := Real.sin_le (Real.arcsin_nonneg.2 h0')
      rwa [Real.sin_arcsin (by linarith) hs1] at this
    linarith

end Panda
