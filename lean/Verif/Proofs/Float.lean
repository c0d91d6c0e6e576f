import Mathlib.Tactic.Linarith
import Mathlib.Tactic.Positivity
import Mathlib.Tactic.FieldSimp
import Mathlib.Tactic.Ring
import Mathlib.Tactic.NormNum
import Mathlib.Tactic.GCongr
import Verif.Model.Float

/-!
# binary32 rounding is rounding to the nearest representable number
-/

namespace Panda

theorem rne_err (q : ℚ) : |(rne q : ℚ) - q| ≤ 1 / 2 := by
  have h1 := Int.floor_le q
  have h2 := Int.lt_floor_add_one q
  unfold rne
  simp only
  rw [abs_le]
  split_ifs <;> push_cast <;> constructor <;> linarith

/-- No integer is nearer. -/
theorem rne_nearest (q : ℚ) (z : ℤ) : |(rne q : ℚ) - q| ≤ |(z : ℚ) - q| := by
  by_cases h : z = rne q
  · rw [h]
  · have h1 := rne_err q
    have h2 : (1 : ℚ) ≤ |(z : ℚ) - (rne q : ℚ)| := by
      have : (1 : ℤ) ≤ |z - rne q| := Int.one_le_abs (sub_ne_zero.2 h)
      exact_mod_cast this
    have h3 : |(z : ℚ) - (rne q : ℚ)| ≤ |(z : ℚ) - q| + |(rne q : ℚ) - q| := by
      have := abs_sub_le (z : ℚ) q (rne q : ℚ)
      rwa [abs_sub_comm q] at this
    linarith

/-- Exact ties go to the even integer. -/
theorem rne_even (q : ℚ) (z : ℤ) (hz : z ≠ rne q) (h : |(z : ℚ) - q| = |(rne q : ℚ) - q|) : rne q % 2 = 0 := by
  have h1 := Int.floor_le q
  have h2 := Int.lt_floor_add_one q
  have hn : ∀ w : ℤ, w ≠ rne q → |(w : ℚ) - q| = |(rne q : ℚ) - q| → |(rne q : ℚ) - q| = 1 / 2 := by
    intro w hw he
    have h3 : (1 : ℚ) ≤ |(w : ℚ) - (rne q : ℚ)| := by
      have : (1 : ℤ) ≤ |w - rne q| := Int.one_le_abs (sub_ne_zero.2 hw)
      exact_mod_cast this
    have h4 := abs_sub_le (w : ℚ) q (rne q : ℚ)
    rw [abs_sub_comm q] at h4
    have := rne_err q
    linarith
  have hh := hn z hz h
  unfold rne at hh ⊢
  simp only at hh ⊢
  split_ifs at hh ⊢ with a b c
  · exfalso
    rw [abs_sub_comm, abs_of_nonneg (by linarith)] at hh
    linarith
  · exfalso
    push_cast at hh
    rw [abs_of_nonneg (by linarith)] at hh
    linarith
  · exact c
  · omega

theorem ilog2_spec {q : ℚ} (hq : q ≠ 0) : (2 : ℚ) ^ ilog2 q ≤ |q| ∧ |q| < 2 ^ (ilog2 q + 1) := by
  have hn : q.num.natAbs ≠ 0 := by simpa using hq
  have hd : q.den ≠ 0 := q.den_ne_zero
  have hq' : |q| = (q.num.natAbs : ℚ) / q.den := by
    conv_lhs => rw [← Rat.num_div_den q]
    rw [abs_div, Nat.abs_cast]
    congr 1
    rw [← Int.cast_abs, Int.abs_eq_natAbs]
    simp
  have a1 : ((2 : ℚ)) ^ (Nat.log2 q.num.natAbs : ℤ) ≤ q.num.natAbs := by
    rw [zpow_natCast]; exact_mod_cast Nat.log2_self_le hn
  have a2 : (q.num.natAbs : ℚ) < 2 ^ ((Nat.log2 q.num.natAbs : ℤ) + 1) := by
    have : q.num.natAbs < 2 ^ (Nat.log2 q.num.natAbs + 1) := Nat.lt_log2_self
    have h : (q.num.natAbs : ℚ) < 2 ^ (Nat.log2 q.num.natAbs + 1) := by exact_mod_cast this
    rwa [← zpow_natCast] at h
  have b1 : ((2 : ℚ)) ^ (Nat.log2 q.den : ℤ) ≤ q.den := by
    rw [zpow_natCast]; exact_mod_cast Nat.log2_self_le hd
  have b2 : (q.den : ℚ) < 2 ^ ((Nat.log2 q.den : ℤ) + 1) := by
    have : q.den < 2 ^ (Nat.log2 q.den + 1) := Nat.lt_log2_self
    have h : (q.den : ℚ) < 2 ^ (Nat.log2 q.den + 1) := by exact_mod_cast this
    rwa [← zpow_natCast] at h
  have dpos : (0 : ℚ) < q.den := by positivity
  have two : (2 : ℚ) ≠ 0 := by norm_num
  have lo : (2 : ℚ) ^ ((Nat.log2 q.num.natAbs : ℤ) - (Nat.log2 q.den : ℤ) - 1) ≤ |q| := by
    rw [hq', le_div_iff₀ dpos]
    calc _ ≤ (2 : ℚ) ^ ((Nat.log2 q.num.natAbs : ℤ) - (Nat.log2 q.den : ℤ) - 1) * 2 ^ ((Nat.log2 q.den : ℤ) + 1) := by gcongr
      _ = 2 ^ (Nat.log2 q.num.natAbs : ℤ) := by rw [← zpow_add₀ two]; congr 1; ring
      _ ≤ _ := a1
  have hi : |q| < (2 : ℚ) ^ ((Nat.log2 q.num.natAbs : ℤ) - (Nat.log2 q.den : ℤ) + 1) := by
    rw [hq', div_lt_iff₀ dpos]
    calc _ < (2 : ℚ) ^ ((Nat.log2 q.num.natAbs : ℤ) + 1) := a2
      _ = (2 : ℚ) ^ ((Nat.log2 q.num.natAbs : ℤ) - (Nat.log2 q.den : ℤ) + 1) * 2 ^ (Nat.log2 q.den : ℤ) := by
          rw [← zpow_add₀ two]; congr 1; ring
      _ ≤ _ := by gcongr
  unfold ilog2
  simp only
  split_ifs with h
  · exact ⟨h, hi⟩
  · refine ⟨lo, ?_⟩
    rw [sub_add_cancel]
    exact not_le.1 h

theorem rnd32_zero : rnd32 0 = 0 := rfl

/-- The error of rounding is at most `2^-24 |q| + 2^-150`. -/
theorem rnd32_err (q : ℚ) : |rnd32 q - q| ≤ 2⁻¹ ^ 24 * |q| + 2⁻¹ ^ 150 := by
  unfold rnd32
  split_ifs with h
  · rw [h]; norm_num
  · have hp : (0 : ℚ) < 2 ^ ulpExp q := by positivity
    have e : ((rne (q / 2 ^ ulpExp q) : ℤ) : ℚ) * 2 ^ ulpExp q - q = ((rne (q / 2 ^ ulpExp q) : ℚ) - q / 2 ^ ulpExp q) * 2 ^ ulpExp q := by
      field_simp
    rw [e, abs_mul, abs_of_pos hp]
    have h1 := rne_err (q / 2 ^ ulpExp q)
    have h2 : |(rne (q / 2 ^ ulpExp q) : ℚ) - q / 2 ^ ulpExp q| * 2 ^ ulpExp q ≤ 1 / 2 * 2 ^ ulpExp q := by gcongr
    refine h2.trans ?_
    unfold ulpExp
    rcases max_choice (ilog2 q - 23) (-149) with hm | hm <;> rw [hm]
    · have := (ilog2_spec h).1
      have e : (1 / 2 : ℚ) * 2 ^ (ilog2 q - 23) = 2⁻¹ ^ 24 * 2 ^ ilog2 q := by
        rw [zpow_sub₀ (by norm_num)]; norm_num; ring
      rw [e]
      have h3 : (2⁻¹ : ℚ) ^ 24 * 2 ^ ilog2 q ≤ 2⁻¹ ^ 24 * |q| := by gcongr
      have : (0 : ℚ) ≤ 2⁻¹ ^ 150 := by positivity
      linarith
    · have : (1 / 2 : ℚ) * 2 ^ (-149 : ℤ) = 2⁻¹ ^ 150 := by norm_num
      rw [this]
      have : (0 : ℚ) ≤ 2⁻¹ ^ 24 * |q| := by positivity
      linarith

/-- Numbers with a 24 bit significand and an exponent of at least -149. -/
def IsFloat (y : ℚ) : Prop := ∃ m e : ℤ, |m| ≤ 2 ^ 24 ∧ -149 ≤ e ∧ y = m * 2 ^ e

theorem isFloat_rnd32 (q : ℚ) : IsFloat (rnd32 q) := by
  unfold rnd32
  split_ifs with h
  · exact ⟨0, 0, by norm_num, by norm_num, by simp⟩
  · refine ⟨rne (q / 2 ^ ulpExp q), ulpExp q, ?_, le_max_right _ _, rfl⟩
    have hp : (0 : ℚ) < 2 ^ ulpExp q := by positivity
    have h1 : |q / 2 ^ ulpExp q| < 2 ^ 24 := by
      rw [abs_div, abs_of_pos hp, div_lt_iff₀ hp]
      refine (ilog2_spec h).2.trans_le ?_
      rw [← zpow_natCast, ← zpow_add₀ (by norm_num)]
      refine zpow_le_zpow_right₀ (by norm_num) ?_
      have := le_max_left (ilog2 q - 23) (-149)
      unfold ulpExp
      push_cast
      omega
    have h2 := rne_err (q / 2 ^ ulpExp q)
    have h3 : |(rne (q / 2 ^ ulpExp q) : ℚ)| < 2 ^ 24 + 1 := by
      have := abs_sub_abs_le_abs_sub (rne (q / 2 ^ ulpExp q) : ℚ) (q / 2 ^ ulpExp q)
      linarith
    have h4 : |rne (q / 2 ^ ulpExp q)| < 2 ^ 24 + 1 := by exact_mod_cast h3
    omega

/-- No binary32 number is nearer to `q` than `rnd32 q`. -/
theorem rnd32_nearest (q y : ℚ) (hy : IsFloat y) : |rnd32 q - q| ≤ |y - q| := by
  obtain ⟨m, e, hm, he, rfl⟩ := hy
  unfold rnd32
  split_ifs with h
  · rw [h, sub_self, abs_zero]; exact abs_nonneg _
  have hp : (0 : ℚ) < 2 ^ ulpExp q := by positivity
  have scale : ∀ z : ℤ, |(z : ℚ) * 2 ^ ulpExp q - q| = |(z : ℚ) - q / 2 ^ ulpExp q| * 2 ^ ulpExp q := by
    intro z
    rw [← abs_of_pos hp, ← abs_mul, abs_of_pos hp]
    congr 1
    field_simp
  by_cases hle : ulpExp q ≤ e
  · -- a multiple of the last place
    obtain ⟨k, hk⟩ := Int.eq_ofNat_of_zero_le (sub_nonneg.2 hle)
    have e1 : (m : ℚ) * 2 ^ e = ((m * 2 ^ k : ℤ) : ℚ) * 2 ^ ulpExp q := by
      have : e = (k : ℤ) + ulpExp q := by omega
      rw [this, zpow_add₀ (by norm_num)]
      push_cast
      rw [zpow_natCast]
      ring
    rw [e1, scale, scale]
    exact mul_le_mul_of_nonneg_right (rne_nearest _ _) hp.le
  · -- smaller than the binade of `q`
    have hle : e < ulpExp q := not_le.1 hle
    have hu : ulpExp q = ilog2 q - 23 := by
      unfold ulpExp at hle ⊢
      omega
    have hlog := (ilog2_spec h).1
    have hy : |(m : ℚ) * 2 ^ e| ≤ 2 ^ ilog2 q := by
      have hm' : |(m : ℚ)| ≤ 2 ^ 24 := by exact_mod_cast hm
      rw [abs_mul, abs_of_pos (show (0 : ℚ) < 2 ^ e by positivity)]
      calc _ ≤ (2 : ℚ) ^ 24 * 2 ^ e := by gcongr
        _ = 2 ^ (24 + e) := by rw [zpow_add₀ (by norm_num)]; norm_num
        _ ≤ _ := by
          gcongr
          · norm_num
          · omega
    -- `± 2^ilog2` is a multiple of the last place and lies between
    have h23 : (2 : ℚ) ^ ilog2 q = ((2 ^ 23 : ℤ) : ℚ) * 2 ^ ulpExp q := by
      rw [hu, zpow_sub₀ (by norm_num)]
      norm_num
      ring
    rcases lt_or_gt_of_ne h with hneg | hpos
    · rw [abs_of_neg hneg] at hlog
      have k1 := rne_nearest (q / 2 ^ ulpExp q) (-2 ^ 23)
      have k2 := mul_le_mul_of_nonneg_right k1 hp.le
      rw [← scale, ← scale] at k2
      refine k2.trans ?_
      have k3 : (((-2 ^ 23 : ℤ)) : ℚ) * 2 ^ ulpExp q = -2 ^ ilog2 q := by rw [h23]; push_cast; ring
      rw [k3]
      obtain ⟨h5, h6⟩ := abs_le.1 hy
      rw [abs_of_nonneg (by linarith), abs_of_nonneg (by linarith)]
      linarith
    · rw [abs_of_pos hpos] at hlog
      have k1 := rne_nearest (q / 2 ^ ulpExp q) (2 ^ 23)
      have k2 := mul_le_mul_of_nonneg_right k1 hp.le
      rw [← scale, ← scale] at k2
      refine k2.trans ?_
      rw [← h23, abs_sub_comm, abs_of_nonneg (by linarith)]
      obtain ⟨h5, h6⟩ := abs_le.1 hy
      rw [abs_sub_comm, abs_of_nonneg (by linarith)]
      linarith

/-- binary32 numbers are not changed by rounding. -/
theorem rnd32_of_isFloat {y : ℚ} (h : IsFloat y) : rnd32 y = y := by
  have := rnd32_nearest y y h
  rw [sub_self, abs_zero] at this
  have := abs_nonpos_iff.1 this
  linarith

theorem rnd32_neg (q : ℚ) (h : IsFloat q) : rnd32 (-q) = -rnd32 q := by
  rw [rnd32_of_isFloat h, rnd32_of_isFloat]
  obtain ⟨m, e, hm, he, rfl⟩ := h
  exact ⟨-m, e, by rwa [abs_neg], he, by push_cast; ring⟩

end Panda
