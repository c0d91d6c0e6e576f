import Verif.Model.Fnc
import Verif.Spec.Double
import Verif.Proofs.SelfTestRound

/-!
# `round_int`: rounding to binary64 and the nearest integer
-/

namespace Panda

open Spec

/-- Numbers with a significand up to `2^53` and an exponent of at least -1074. -/
def Dbl (y : ℚ) : Prop := ∃ m e : ℤ, |m| ≤ 2 ^ 53 ∧ -1074 ≤ e ∧ y = m * 2 ^ e

/-- No binary64 number is nearer to `q` than `rnd64 q`. -/
theorem rnd64_nearest (q y : ℚ) (hy : Dbl y) : |rnd64 q - q| ≤ |y - q| := by
  obtain ⟨m, e, hm, he, rfl⟩ := hy
  unfold rnd64
  split_ifs with h
  · rw [h, sub_self, abs_zero]; exact abs_nonneg _
  have hp : (0 : ℚ) < 2 ^ ulpExp64 q := by positivity
  have scale : ∀ z : ℤ, |(z : ℚ) * 2 ^ ulpExp64 q - q| = |(z : ℚ) - q / 2 ^ ulpExp64 q| * 2 ^ ulpExp64 q := by
    intro z
    rw [← abs_of_pos hp, ← abs_mul, abs_of_pos hp]
    congr 1
    field_simp
  by_cases hle : ulpExp64 q ≤ e
  · -- a multiple of the last place
    obtain ⟨k, hk⟩ := Int.eq_ofNat_of_zero_le (sub_nonneg.2 hle)
    have e1 : (m : ℚ) * 2 ^ e = ((m * 2 ^ k : ℤ) : ℚ) * 2 ^ ulpExp64 q := by
      have : e = (k : ℤ) + ulpExp64 q := by omega
      rw [this, zpow_add₀ (by norm_num)]
      push_cast
      rw [zpow_natCast]
      ring
    rw [e1, scale, scale]
    exact mul_le_mul_of_nonneg_right (rne_nearest _ _) hp.le
  · -- smaller than the binade of `q`
    have hle : e < ulpExp64 q := not_le.1 hle
    have hu : ulpExp64 q = ilog2 q - 52 := by
      unfold ulpExp64 at hle ⊢
      omega
    have hlog := (ilog2_spec h).1
    have hy : |(m : ℚ) * 2 ^ e| ≤ 2 ^ ilog2 q := by
      have hm' : |(m : ℚ)| ≤ 2 ^ 53 := by exact_mod_cast hm
      rw [abs_mul, abs_of_pos (show (0 : ℚ) < 2 ^ e by positivity)]
      calc _ ≤ (2 : ℚ) ^ 53 * 2 ^ e := by gcongr
        _ = 2 ^ (53 + e) := by rw [zpow_add₀ (by norm_num)]; norm_num
        _ ≤ _ := by
          gcongr
          · norm_num
          · omega
    -- `± 2^ilog2` is a multiple of the last place and lies between
    have h23 : (2 : ℚ) ^ ilog2 q = ((2 ^ 52 : ℤ) : ℚ) * 2 ^ ulpExp64 q := by
      rw [hu, zpow_sub₀ (by norm_num)]
      norm_num
      ring
    rcases lt_or_gt_of_ne h with hneg | hpos
    · rw [abs_of_neg hneg] at hlog
      have k1 := rne_nearest (q / 2 ^ ulpExp64 q) (-2 ^ 52)
      have k2 := mul_le_mul_of_nonneg_right k1 hp.le
      rw [← scale, ← scale] at k2
      refine k2.trans ?_
      have k3 : (((-2 ^ 52 : ℤ)) : ℚ) * 2 ^ ulpExp64 q = -2 ^ ilog2 q := by rw [h23]; push_cast; ring
      rw [k3]
      obtain ⟨h5, h6⟩ := abs_le.1 hy
      rw [abs_of_nonneg (by linarith), abs_of_nonneg (by linarith)]
      linarith
    · rw [abs_of_pos hpos] at hlog
      have k1 := rne_nearest (q / 2 ^ ulpExp64 q) (2 ^ 52)
      have k2 := mul_le_mul_of_nonneg_right k1 hp.le
      rw [← scale, ← scale] at k2
      refine k2.trans ?_
      rw [← h23, abs_sub_comm, abs_of_nonneg (by linarith)]
      obtain ⟨h5, h6⟩ := abs_le.1 hy
      rw [abs_sub_comm, abs_of_nonneg (by linarith)]
      linarith

/-- Rounding does not pass a binary64 number. -/
theorem le_rnd64 {q y : ℚ} (hy : Dbl y) (h : y ≤ q) : y ≤ rnd64 q := by
  have := rnd64_nearest q y hy
  rw [abs_sub_comm y, abs_of_nonneg (sub_nonneg.2 h)] at this
  linarith [(abs_le.1 this).1]

theorem rnd64_le {q y : ℚ} (hy : Dbl y) (h : q ≤ y) : rnd64 q ≤ y := by
  have := rnd64_nearest q y hy
  rw [abs_of_nonneg (sub_nonneg.2 h)] at this
  linarith [(abs_le.1 this).2]

theorem Dbl.int {n : ℤ} (h : |n| ≤ 2 ^ 53) : Dbl n := ⟨n, 0, h, by norm_num, by simp⟩

theorem Dbl.half {n : ℤ} (h : |n| ≤ 2 ^ 53) : Dbl (n / 2) := ⟨n, -1, h, by norm_num, by rw [zpow_neg, zpow_one]; ring⟩

theorem IsDouble.dbl {y : ℚ} (h : IsDouble y) : Dbl y := by
  obtain ⟨m, e, hm, he, _, rfl⟩ := h
  exact ⟨m, e, hm.le, he, rfl⟩

/-- There is a binary64 number between `x + 1/2` and the next integer, if `x` is one, with one exception. -/
theorem exists_between {x : ℚ} (hx : IsDouble x) (hb : |x| < 2 ^ 51) (hne : x ≠ 1 / 2 - 2⁻¹ ^ 54) {k : ℤ} (hk : x + 1 / 2 < k) :
    ∃ z, Dbl z ∧ x + 1 / 2 ≤ z ∧ z < k := by
  obtain ⟨m, e, hm, he, he', rfl⟩ := hx
  rcases le_or_gt 0 e with h0 | h0
  · -- an integer
    obtain ⟨j, rfl⟩ := Int.eq_ofNat_of_zero_le h0
    have ex : (m : ℚ) * 2 ^ (j : ℤ) = ((m * 2 ^ j : ℤ) : ℚ) := by push_cast; rw [zpow_natCast]
    rw [ex] at hb hk ⊢
    generalize m * 2 ^ j = n at *
    have hb' : |n| < 2 ^ 51 := by exact_mod_cast hb
    refine ⟨((2 * n + 1 : ℤ) : ℚ) / 2, Dbl.half (by rw [abs_lt] at hb'; rw [abs_le]; omega), ?_, ?_⟩
    · push_cast; linarith
    · push_cast; linarith
  · -- `x + 1/2` is a multiple of `2^e` as well
    obtain ⟨j, hj⟩ := Int.eq_ofNat_of_zero_le (show 0 ≤ -1 - e by omega)
    have eh : (1 / 2 : ℚ) = ((2 ^ j : ℤ) : ℚ) * 2 ^ e := by
      push_cast
      rw [← zpow_natCast, ← zpow_add₀ (by norm_num), show (j : ℤ) + e = -1 by omega]
      norm_num
    have ey : (m : ℚ) * 2 ^ e + 1 / 2 = ((m + 2 ^ j : ℤ) : ℚ) * 2 ^ e := by
      conv_lhs => rw [eh]
      push_cast
      ring
    have hp : (0 : ℚ) < 2 ^ e := by positivity
    by_cases hs : |m + 2 ^ j| ≤ 2 ^ 53
    · exact ⟨_, ⟨_, e, hs, he, rfl⟩, ey.le, by rw [← ey]; exact hk⟩
    have hj0 : (0 : ℤ) < 2 ^ j := by positivity
    rw [abs_lt] at hm
    by_cases hbig : j ≤ 52
    · -- the sum is in the next binade
      have hj' : (2 : ℤ) ^ j ≤ 2 ^ 52 := pow_le_pow_right₀ (by norm_num) hbig
      have hgt : 2 ^ 53 < m + 2 ^ j := by
        by_contra hc
        exact hs (abs_le.2 ⟨by omega, by omega⟩)
      have hE : (2 : ℚ) ^ (53 + e) = 2 ^ 53 * 2 ^ e := by rw [zpow_add₀ (by norm_num)]; norm_num
      obtain ⟨i, hi⟩ := Int.eq_ofNat_of_zero_le (show 0 ≤ 53 + e by omega)
      rw [hi, zpow_natCast] at hE
      have hi' : i ≤ 52 := by omega
      have hlo : (2 : ℚ) ^ i < m * 2 ^ e + 1 / 2 := by
        rw [ey, hE]
        refine mul_lt_mul_of_pos_right ?_ hp
        exact_mod_cast hgt
      have hup : (m : ℚ) * 2 ^ e < 2 ^ i := by
        rw [hE]
        refine mul_lt_mul_of_pos_right ?_ hp
        exact_mod_cast hm.2
      have hk' : (2 : ℤ) ^ i + 1 ≤ k := by
        have : (2 : ℚ) ^ i < k := hlo.trans hk
        have : (2 : ℤ) ^ i < k := by exact_mod_cast this
        omega
      have hi2 : (2 : ℤ) ^ i ≤ 2 ^ 51 := by
        have : (2 : ℚ) ^ i < 2 ^ 52 := by
          have := (abs_lt.1 hb).2
          linarith [hlo, show (2 : ℚ) ^ 52 = 2 ^ 51 + 2 ^ 51 by norm_num, show (1 : ℚ) ≤ 2 ^ 51 by norm_num]
        have := (pow_lt_pow_iff_right₀ (by norm_num : (1 : ℚ) < 2)).1 this
        exact pow_le_pow_right₀ (by norm_num) (by omega)
      refine ⟨((2 * 2 ^ i + 1 : ℤ) : ℚ) / 2, Dbl.half ?_, ?_, ?_⟩
      · have : (0 : ℤ) < 2 ^ i := by positivity
        rw [abs_of_pos (by omega)]
        omega
      · push_cast; linarith
      · have : ((2 : ℚ)) ^ i + 1 ≤ k := by exact_mod_cast hk'
        push_cast
        linarith
    · -- less than 1/2 in absolute value
      have hj53 : (2 : ℤ) ^ 53 ≤ 2 ^ j := pow_le_pow_right₀ (by norm_num) (by omega)
      have hxlt : (m : ℚ) * 2 ^ e < 1 / 2 := by
        conv_rhs => rw [eh]
        refine mul_lt_mul_of_pos_right ?_ hp
        have : m < 2 ^ j := by omega
        exact_mod_cast this
      have hxgt : -(1 / 2) < (m : ℚ) * 2 ^ e := by
        have : ((-2 ^ j : ℤ) : ℚ) * 2 ^ e < m * 2 ^ e := by
          refine mul_lt_mul_of_pos_right ?_ hp
          have : -2 ^ j < m := by omega
          exact_mod_cast this
        have e2 : ((-2 ^ j : ℤ) : ℚ) * 2 ^ e = -(1 / 2) := by rw [eh]; push_cast; ring
        linarith
      have hk1 : (1 : ℚ) ≤ k := by
        have : (0 : ℚ) < k := by linarith
        have : (0 : ℤ) < k := by exact_mod_cast this
        exact_mod_cast this
      refine ⟨1 - 2⁻¹ ^ 53, ⟨2 ^ 53 - 1, -53, by norm_num, by norm_num, by norm_num⟩, ?_, ?_⟩
      swap
      · have : (0 : ℚ) < 2⁻¹ ^ 53 := by positivity
        linarith
      by_contra hc
      have hc : 1 / 2 - 2⁻¹ ^ 53 < (m : ℚ) * 2 ^ e := by linarith [not_le.1 hc]
      -- the exponent
      have he54 : -54 ≤ e := by
        by_contra hlt
        have : (2 : ℚ) ^ e ≤ 2 ^ (-55 : ℤ) := zpow_le_zpow_right₀ (by norm_num) (by omega)
        have hm' : (m : ℚ) ≤ 2 ^ 53 := by exact_mod_cast hm.2.le
        have : (m : ℚ) * 2 ^ e ≤ 2 ^ 53 * 2 ^ (-55 : ℤ) := by
          calc (m : ℚ) * 2 ^ e ≤ 2 ^ 53 * 2 ^ e := by gcongr
            _ ≤ _ := by gcongr
        norm_num at this hc
        linarith
      have hej : e = -54 := by omega
      subst hej
      apply hne
      have h54 : (2 : ℚ) ^ (-54 : ℤ) = 2⁻¹ ^ 54 := by norm_num
      have : (2 : ℚ) ^ 53 - 2 < m := by
        rw [h54] at hc
        have h2 : (0 : ℚ) < 2⁻¹ ^ 54 := by positivity
        have h3 : (1 / 2 : ℚ) - 2⁻¹ ^ 53 = (2 ^ 53 - 2) * 2⁻¹ ^ 54 := by norm_num
        rw [h3] at hc
        exact lt_of_mul_lt_mul_right hc h2.le
      have : (2 : ℤ) ^ 53 - 2 < m := by exact_mod_cast this
      have : m = 2 ^ 53 - 1 := by omega
      rw [this]
      norm_num

/-- `floor (x + 0.5)` in binary64. -/
theorem floor_rnd64 {x : ℚ} (hx : IsDouble x) (hb : |x| < 2 ^ 51) (hne : x ≠ 1 / 2 - 2⁻¹ ^ 54) : ⌊rnd64 (x + 1 / 2)⌋ = ⌊x + 1 / 2⌋ := by
  rw [abs_lt] at hb
  rw [Int.floor_eq_iff]
  have h51 : (2 : ℚ) ^ 51 + 1 ≤ 2 ^ 52 := by norm_num
  constructor
  · refine le_rnd64 (Dbl.int ?_) (Int.floor_le _)
    have h1 : -(2 : ℤ) ^ 52 ≤ ⌊x + 1 / 2⌋ := Int.le_floor.2 (by push_cast; linarith)
    have h2 : ⌊x + 1 / 2⌋ < 2 ^ 52 := Int.floor_lt.2 (by push_cast; linarith)
    rw [abs_le]
    omega
  · obtain ⟨z, hz, h1, h2⟩ := exists_between hx (abs_lt.2 hb) hne (k := ⌊x + 1 / 2⌋ + 1) (by push_cast; exact Int.lt_floor_add_one _)
    push_cast at h2
    exact (rnd64_le hz h1).trans_lt h2

theorem roundInt_eq {x : ℚ} : roundInt (Fl.fin x) = match Fl.mk binary64 (x + 1 / 2) with
    | some q => intOf ⌊q⌋
    | none => .error .convert := by
  have h : (Fl.fin x + Fl.fin (1 / 2) : F64) = Fl.mk binary64 (x + 1 / 2) := rfl
  unfold roundInt
  rw [h]
  generalize Fl.mk binary64 (x + 1 / 2) = o
  cases o <;> rfl

theorem roundInt_rnd {x : ℚ} (hf : binary64.fits (rnd64 (x + 1 / 2)) = true) : roundInt (Fl.fin x) = intOf ⌊rnd64 (x + 1 / 2)⌋ := by
  have : Fl.mk binary64 (x + 1 / 2) = some (rnd64 (x + 1 / 2)) := by
    unfold Fl.mk
    exact if_pos hf
  rw [roundInt_eq, this]

theorem roundInt_small {x : ℚ} (hx : IsDouble x) (hb : |x| < 2 ^ 51) (hne : x ≠ 1 / 2 - 2⁻¹ ^ 54) :
    roundInt (Fl.fin x) = intOf ⌊x + 1 / 2⌋ := by
  rw [roundInt_rnd, floor_rnd64 hx hb hne]
  simp only [binary64, decide_eq_true_eq]
  have h : |x + 1 / 2| ≤ 2 ^ (52 : ℤ) := by
    rw [abs_lt] at hb
    rw [abs_le]
    constructor <;> norm_num at hb ⊢ <;> linarith
  refine (rnd64_le_pow (by norm_num) h).trans_lt ?_
  norm_num

theorem roundInt_large {x : ℚ} (hb : 2 ^ 51 ≤ |x|) : roundInt (Fl.fin x) = .error .convert := by
  by_cases hf : binary64.fits (rnd64 (x + 1 / 2)) = true
  · rw [roundInt_rnd hf]
    unfold intOf
    rw [if_neg]
    rintro ⟨h1, h2⟩
    rcases abs_cases x with ⟨ha, _⟩ | ⟨ha, _⟩ <;> rw [ha] at hb
    · have : ((2 ^ 51 : ℤ) : ℚ) ≤ rnd64 (x + 1 / 2) := le_rnd64 (Dbl.int (by norm_num)) (by push_cast; linarith)
      have := Int.le_floor.2 this
      omega
    · have : rnd64 (x + 1 / 2) ≤ ((-2 ^ 50 : ℤ) : ℚ) := rnd64_le (Dbl.int (by norm_num)) (by
        push_cast
        linarith [show (2 : ℚ) ^ 51 = 2 ^ 50 + 2 ^ 50 by norm_num, show (1 : ℚ) ≤ 2 ^ 50 by norm_num])
      have h3 : (⌊rnd64 (x + 1 / 2)⌋ : ℚ) ≤ ((-2 ^ 50 : ℤ) : ℚ) := (Int.floor_le _).trans this
      have h3 : ⌊rnd64 (x + 1 / 2)⌋ ≤ -2 ^ 50 := by exact_mod_cast h3
      omega
  · have : Fl.mk binary64 (x + 1 / 2) = none := by
      unfold Fl.mk
      exact if_neg hf
    rw [roundInt_eq, this]

/-- The nearest integer is `⌊x + 1/2⌋`. -/
theorem nearestInt_iff {n : ℤ} {x : ℚ} : NearestInt n x ↔ n = ⌊x + 1 / 2⌋ := by
  constructor
  · intro h
    symm
    rw [Int.floor_eq_iff]
    have h1 := h (n + 1)
    have h2 := (h (n - 1)).1
    push_cast at h1 h2
    constructor
    · by_contra hc
      have hc := not_le.1 hc
      have : |(n : ℚ) - 1 - x| < |(n : ℚ) - x| := by
        rw [abs_of_pos (show (0 : ℚ) < n - x by linarith), abs_lt]
        constructor <;> linarith
      linarith
    · by_contra hc
      have hc := not_lt.1 hc
      have : |(n : ℚ) + 1 - x| ≤ |(n : ℚ) - x| := by
        rw [abs_of_neg (show (n : ℚ) - x < 0 by linarith), abs_le]
        constructor <;> linarith
      have := h1.2 (le_antisymm h1.1 this)
      omega
  · rintro rfl k
    have h1 := Int.floor_le (x + 1 / 2)
    have h2 := Int.lt_floor_add_one (x + 1 / 2)
    generalize ⌊x + 1 / 2⌋ = n at *
    rcases lt_trichotomy k n with h | h | h
    · have h : (k : ℚ) + 1 ≤ n := by exact_mod_cast h
      refine ⟨?_, fun _ => by exact_mod_cast (show (k : ℚ) ≤ n by linarith)⟩
      rw [abs_of_nonpos (show (k : ℚ) - x ≤ 0 by linarith), abs_le]
      constructor <;> linarith
    · rw [h]; simp
    · have h : (n : ℚ) + 1 ≤ k := by exact_mod_cast h
      have : |(n : ℚ) - x| < |(k : ℚ) - x| := by
        rw [abs_of_pos (show (0 : ℚ) < k - x by linarith), abs_lt]
        constructor <;> linarith
      exact ⟨this.le, fun e => absurd e this.ne⟩

end Panda
