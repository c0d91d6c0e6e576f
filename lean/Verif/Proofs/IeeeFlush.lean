import Verif.Model.Flush
import Verif.Proofs.Ieee

/-!
# Flushing of subnormal numbers, in terms of rounding with an unbounded exponent
-/

namespace Panda

open Spec

theorem Representable.neg {p : ℕ} {emin : ℤ} {y : ℚ} (h : Representable p emin y) : Representable p emin (-y) := by
  obtain ⟨m, e, hm, he, rfl⟩ := h
  exact ⟨-m, e, by rwa [abs_neg], he, by push_cast; ring⟩

theorem Representable.sgn {p : ℕ} {emin : ℤ} {y s : ℚ} (h : Representable p emin y) (hs : s = 1 ∨ s = -1) : Representable p emin (s * y) := by
  rcases hs with rfl | rfl
  · rwa [one_mul]
  · rw [neg_one_mul]
    exact Representable.neg h

theorem exists_sgn (q : ℚ) : ∃ s : ℚ, (s = 1 ∨ s = -1) ∧ q = s * |q| := by
  rcases abs_cases q with ⟨h, _⟩ | ⟨h, _⟩
  · exact ⟨1, Or.inl rfl, by rw [h]; ring⟩
  · exact ⟨-1, Or.inr rfl, by rw [h]; ring⟩

theorem abs_sgn {s : ℚ} (hs : s = 1 ∨ s = -1) (a : ℚ) : |s * a| = |a| := by
  rcases hs with rfl | rfl <;> simp

/-- The distance to a representable number of the same sign. -/
theorem rounds_dist {p : ℕ} {emin : ℤ} {q v y : ℚ} (h : Rounds p emin q v) (hy : Representable p emin y) : |v - q| ≤ |y - abs q| := by
  obtain ⟨s, hs, he⟩ := exists_sgn q
  have := (h.2 _ (Representable.sgn hy hs)).1
  have e : |s * y - q| = |y - abs q| := by
    conv_lhs => rw [he]
    rw [← mul_sub, abs_sgn hs]
  rwa [e] at this

theorem rounds_ge {p : ℕ} {emin : ℤ} {q v y : ℚ} (h : Rounds p emin q v) (hy : Representable p emin y) (hq : y ≤ |q|) : y ≤ |v| := by
  have h1 := rounds_dist h hy
  rw [abs_sub_comm y, abs_of_nonneg (sub_nonneg.2 hq)] at h1
  have h2 := abs_sub_abs_le_abs_sub q v
  rw [abs_sub_comm q] at h2
  linarith

/-- Rounding to 24 bits with any exponent. -/
def rndU (q : ℚ) : ℚ := rndG 23 (ilog2 q - 23) q

theorem rndU_eq {q : ℚ} {emin : ℤ} (h : emin ≤ ilog2 q - 23) : rndG 23 emin q = rndU q := by
  have h1 : expG 23 emin q = ilog2 q - 23 := max_eq_left (by push_cast; exact h)
  have h2 : expG 23 (ilog2 q - 23) q = ilog2 q - 23 := max_eq_left (by push_cast; exact le_rfl)
  unfold rndU rndG
  rw [h1, h2]

theorem rndU_rounds {q : ℚ} {emin : ℤ} (h : emin ≤ ilog2 q - 23) : Rounds 24 emin q (rndU q) := by
  rw [← rndU_eq h]
  exact rndG_rounds (by norm_num) q

theorem rep_below {emin : ℤ} {y : ℚ} (h : Representable 24 emin y) (hy : |y| < 2⁻¹ ^ 126) : |y| ≤ 2⁻¹ ^ 126 - 2⁻¹ ^ 150 := by
  obtain ⟨m, e, hm, he, rfl⟩ := h
  have hp : (0 : ℚ) < 2 ^ e := by positivity
  rw [abs_mul, abs_of_pos hp] at hy ⊢
  rcases le_or_gt (-150) e with h | h
  · obtain ⟨j, hj⟩ := Int.eq_ofNat_of_zero_le (show 0 ≤ e + 150 by omega)
    have e1 : |(m : ℚ)| * 2 ^ e = ((|m| * 2 ^ j : ℤ) : ℚ) * 2⁻¹ ^ 150 := by
      rw [show e = (j : ℤ) + -150 by omega, zpow_add₀ (by norm_num), zpow_natCast]
      push_cast
      rw [show (2 : ℚ) ^ (-150 : ℤ) = 2⁻¹ ^ 150 by norm_num]
      ring
    rw [e1] at hy ⊢
    have e2 : (2⁻¹ : ℚ) ^ 126 = ((2 ^ 24 : ℤ) : ℚ) * 2⁻¹ ^ 150 := by norm_num
    rw [e2] at hy ⊢
    have h1 : |m| * 2 ^ j < 2 ^ 24 := by exact_mod_cast lt_of_mul_lt_mul_right hy (by positivity)
    have h2 : ((|m| * 2 ^ j : ℤ) : ℚ) ≤ ((2 ^ 24 - 1 : ℤ) : ℚ) := by exact_mod_cast (show |m| * 2 ^ j ≤ 2 ^ 24 - 1 by omega)
    have h3 := mul_le_mul_of_nonneg_right h2 (show (0 : ℚ) ≤ 2⁻¹ ^ 150 by positivity)
    push_cast at h3 ⊢
    linarith
  · have h1 : (2 : ℚ) ^ e ≤ 2 ^ (-151 : ℤ) := zpow_le_zpow_right₀ (by norm_num) (by omega)
    have hm' : |(m : ℚ)| ≤ 2 ^ 24 := by exact_mod_cast hm.le
    calc |(m : ℚ)| * 2 ^ e ≤ 2 ^ 24 * 2 ^ (-151 : ℤ) := by gcongr
      _ ≤ _ := by norm_num

/-- Numbers next to the smallest normal number are rounded to it. -/
theorem rounds_min {q s : ℚ} {emin : ℤ} (he : emin ≤ -149) (hs : s = 1 ∨ s = -1) (hq : q = s * |q|) (h1 : 2⁻¹ ^ 126 * (1 - 2⁻¹ ^ 25) ≤ |q|)
    (h2 : |q| < 2⁻¹ ^ 126) : Rounds 24 emin q (s * 2⁻¹ ^ 126) := by
  have hev : EvenSig 24 emin (s * 2⁻¹ ^ 126) := by
    rcases hs with rfl | rfl
    · exact ⟨2 ^ 23, -149, by norm_num, he, by norm_num, by norm_num⟩
    · exact ⟨-2 ^ 23, -149, by norm_num, he, by norm_num, by norm_num⟩
  have hd : |s * 2⁻¹ ^ 126 - q| = 2⁻¹ ^ 126 - |q| := by
    conv_lhs => rw [hq]
    rw [← mul_sub, abs_sgn hs, abs_of_pos (by linarith)]
  refine ⟨?_, fun y hy => ⟨?_, fun _ _ => hev⟩⟩
  · obtain ⟨m, e, hm, he, _, hh⟩ := hev
    exact ⟨m, e, hm, he, hh⟩
  · rw [hd]
    rcases lt_or_ge |y| (2⁻¹ ^ 126) with h | h
    · have h3 := rep_below hy h
      have h4 := abs_sub_abs_le_abs_sub q y
      rw [abs_sub_comm q] at h4
      have e1 : (2⁻¹ : ℚ) ^ 126 * (1 - 2⁻¹ ^ 25) = 2⁻¹ ^ 126 - 2⁻¹ ^ 151 := by norm_num
      have e2 : (2⁻¹ : ℚ) ^ 150 = 2 * 2⁻¹ ^ 151 := by norm_num
      rw [e1] at h1
      rw [e2] at h3
      generalize (2⁻¹ : ℚ) ^ 126 = a at *
      generalize (2⁻¹ : ℚ) ^ 151 = b at *
      linarith
    · have h4 := abs_sub_abs_le_abs_sub y q
      linarith

theorem rndFtz_eq (q : ℚ) : rndFtz q = if |rndU q| < 2⁻¹ ^ 126 then 0 else rndU q := by
  have hmin : ∀ emin : ℤ, emin ≤ -150 → Representable 24 emin (2⁻¹ ^ 126) ∧ Representable 24 emin (2⁻¹ ^ 126 - 2⁻¹ ^ 150) := fun emin h =>
    ⟨⟨1, -126, by norm_num, by omega, by norm_num⟩, ⟨2 ^ 24 - 1, -150, by norm_num, h, by norm_num⟩⟩
  have hr : Rounds 24 (min (ilog2 q - 23) (-150)) q (rndU q) := rndU_rounds (min_le_left _ _)
  obtain ⟨y1, y2⟩ := hmin (min (ilog2 q - 23) (-150)) (min_le_right _ _)
  have e1 : (2⁻¹ : ℚ) ^ 126 * (1 - 2⁻¹ ^ 25) = 2⁻¹ ^ 126 - 2⁻¹ ^ 151 := by norm_num
  have e2 : (2⁻¹ : ℚ) ^ 150 = 2 * 2⁻¹ ^ 151 := by norm_num
  have b0 : (0 : ℚ) < 2⁻¹ ^ 151 := by positivity
  unfold rndFtz
  split_ifs with h1 h2 h2
  · rfl
  · exfalso
    apply h2
    have hd := rounds_dist hr y2
    have h4 := abs_sub_abs_le_abs_sub (rndU q) q
    rw [e1] at h1
    rw [e2] at hd
    have h5 := abs_sub_abs_le_abs_sub (rndU q) q
    generalize (2⁻¹ : ℚ) ^ 126 = a at *
    generalize (2⁻¹ : ℚ) ^ 151 = b at *
    rcases abs_cases (a - 2 * b - |q|) with ⟨hh, _⟩ | ⟨hh, _⟩ <;> rw [hh] at hd <;> linarith
  · exfalso
    rcases lt_or_ge |q| (2⁻¹ ^ 126) with h3 | h3
    · obtain ⟨s, hs, hq⟩ := exists_sgn q
      have := rounds_unique (by norm_num) hr (rounds_min (min_le_right _ _ |>.trans (by norm_num)) hs hq (not_lt.1 h1) h3)
      rw [this, abs_sgn hs, abs_of_pos (by positivity)] at h2
      exact lt_irrefl _ h2
    · exact absurd h2 (not_lt.2 (rounds_ge hr y1 h3))
  · rcases lt_or_ge |q| (2⁻¹ ^ 126) with h3 | h3
    · obtain ⟨s, hs, hq⟩ := exists_sgn q
      rw [rounds_unique (by norm_num) hr (rounds_min (min_le_right _ _ |>.trans (by norm_num)) hs hq (not_lt.1 h1) h3), rnd32_eq]
      exact rounds_unique (by norm_num) (rndG_rounds (by norm_num) q) (rounds_min le_rfl hs hq (not_lt.1 h1) h3)
    · rw [rnd32_eq]
      apply rndU_eq
      have h0 : q ≠ 0 := by
        rintro rfl
        rw [abs_zero] at h3
        exact absurd h3 (not_le.2 (by positivity))
      have := (ilog2_spec h0).2
      have h4 : (2 : ℚ) ^ (-126 : ℤ) < 2 ^ (ilog2 q + 1) := by
        refine lt_of_le_of_lt ?_ this
        rw [show (2 : ℚ) ^ (-126 : ℤ) = 2⁻¹ ^ 126 by norm_num]
        exact h3
      have := (zpow_lt_zpow_iff_right₀ (by norm_num : (1 : ℚ) < 2)).1 h4
      omega

end Panda
