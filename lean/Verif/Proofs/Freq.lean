import Mathlib.Analysis.SpecialFunctions.Trigonometric.Basic
import Mathlib.Analysis.SpecialFunctions.Trigonometric.Bounds
import Mathlib.Analysis.Real.Pi.Bounds
import Verif.Proofs.Cheb
import Verif.Proofs.Gain

/-!
# Frequency response of the FIR stages
-/

set_option linter.unusedSectionVars false

namespace Panda

open Finset

/-! ## The edge of the passband -/

theorem cos_double_ge {x a b : ℝ} (h : a ≤ Real.cos x) (h0 : 0 ≤ a) (hb : b ≤ 2 * a ^ 2 - 1) : b ≤ Real.cos (2 * x) := by
  rw [Real.cos_two_mul]
  nlinarith

/-- Lower bounds for the cosines of `20π/49`, `10π/49`, `5π/49` (18 kHz at 44.1, 88.2, 176.4 kHz). -/
theorem cos_edges : (18646 : ℝ) ≤ 65536 * Real.cos (20 * Real.pi / 49) ∧ (52520 : ℝ) ≤ 65536 * Real.cos (10 * Real.pi / 49) ∧
    (62196 : ℝ) ≤ 65536 * Real.cos (5 * Real.pi / 49) := by
  have hpi := Real.pi_lt_d20
  have hpos := Real.pi_pos
  set x : ℝ := 20 * Real.pi / 49 / 512 with hx
  have hx0 : 0 ≤ x := by positivity
  have hx1 : x ≤ 20 * 3.14159265358979323847 / 49 / 512 := by rw [hx]; linarith
  have h0 : (1099508179535 / 1099511627776 : ℝ) ≤ Real.cos x := by
    refine le_trans ?_ (Real.one_sub_sq_div_two_le_cos (x := x))
    have : x ^ 2 ≤ (20 * 3.14159265358979323847 / 49 / 512) ^ 2 := pow_le_pow_left₀ hx0 hx1 2
    have h2 : ((20 * 3.14159265358979323847 / 49 / 512) ^ 2 : ℝ) ≤ 2 * (1 - 1099508179535 / 1099511627776) := by norm_num
    linarith
  have h1 := cos_double_ge (b := 1099497834833 / 1099511627776) h0 (by norm_num) (by norm_num)
  have h2 := cos_double_ge (b := 1099456456350 / 1099511627776) h1 (by norm_num) (by norm_num)
  have h3 := cos_double_ge (b := 1099290947608 / 1099511627776) h2 (by norm_num) (by norm_num)
  have h4 := cos_double_ge (b := 1098628995688 / 1099511627776) h3 (by norm_num) (by norm_num)
  have h5 := cos_double_ge (b := 1095982516488 / 1099511627776) h4 (by norm_num) (by norm_num)
  have h6 := cos_double_ge (b := 1085417837457 / 1099511627776) h5 (by norm_num) (by norm_num)
  have h7 := cos_double_ge (b := 1043497781324 / 1099511627776) h6 (by norm_num) (by norm_num)
  have h8 := cos_double_ge (b := 881163413979 / 1099511627776) h7 (by norm_num) (by norm_num)
  have h9 := cos_double_ge (b := 312840806741 / 1099511627776) h8 (by norm_num) (by norm_num)
  refine ⟨?_, ?_, ?_⟩
  · rw [show 20 * Real.pi / 49 = 2 * (2 * (2 * (2 * (2 * (2 * (2 * (2 * (2 * x)))))))) by rw [hx]; ring]
    linarith
  · rw [show 10 * Real.pi / 49 = 2 * (2 * (2 * (2 * (2 * (2 * (2 * (2 * x))))))) by rw [hx]; ring]
    linarith
  · rw [show 5 * Real.pi / 49 = 2 * (2 * (2 * (2 * (2 * (2 * (2 * x)))))) by rw [hx]; ring]
    linarith

/-- `40 / 49` of half a turn per input sample (18 kHz at 44.1 kHz), at the input of the stage with ratio `k` when upsampling. -/
noncomputable def edge (k : ℕ) : ℝ := 40 * Real.pi / (49 * k)

/-- Lower bound for `65535 * cos (edge k)`. -/
def edgeCos : ℕ → ℕ
  | 2 => 18645
  | 4 => 52519
  | _ => 62195

theorem edge_nonneg (k : ℕ) : 0 ≤ edge k := by
  unfold edge
  have := Real.pi_pos
  positivity

theorem cos_ge_edge {k : ℕ} (hk : k ∈ [2, 4, 8]) {x : ℝ} (h : |x| ≤ edge k) : (edgeCos k : ℝ) ≤ (65535 : ℕ) * Real.cos x := by
  have hp := Real.pi_pos
  have h1 : Real.cos (edge k) ≤ Real.cos x := by
    rw [← Real.cos_abs x]
    refine Real.cos_le_cos_of_nonneg_of_le_pi (abs_nonneg _) ?_ h
    simp only [List.mem_cons, List.not_mem_nil, or_false] at hk
    unfold edge
    rcases hk with rfl | rfl | rfl <;> push_cast <;> linarith
  refine le_trans ?_ (mul_le_mul_of_nonneg_left h1 (Nat.cast_nonneg _))
  obtain ⟨a, b, c⟩ := cos_edges
  simp only [List.mem_cons, List.not_mem_nil, or_false] at hk
  have h2 := Real.cos_le_one (edge k)
  suffices hs : ((edgeCos k : ℕ) : ℝ) + 1 ≤ 65536 * Real.cos (edge k) by
    push_cast
    linarith
  clear h1 h2
  unfold edge
  rcases hk with rfl | rfl | rfl
  · rw [show 40 * Real.pi / (49 * ((2 : ℕ) : ℝ)) = 20 * Real.pi / 49 by push_cast; ring]
    norm_num [edgeCos]
    linarith
  · rw [show 40 * Real.pi / (49 * ((4 : ℕ) : ℝ)) = 10 * Real.pi / 49 by push_cast; ring]
    norm_num [edgeCos]
    linarith
  · rw [show 40 * Real.pi / (49 * ((8 : ℕ) : ℝ)) = 5 * Real.pi / 49 by push_cast; ring]
    norm_num [edgeCos]
    linarith

/-! ## The amplitude response -/

/-- Amplitude response of the symmetric filter `t` at `2 x` radians per sample. -/
noncomputable def firAmp (t : List ℝ) (x : ℝ) : ℝ :=
  ∑ i ∈ range t.length, seq t i * Real.cos ((2 * (i : ℝ) - ((t.length : ℝ) - 1)) * x)

theorem seq_reflect {t : List ℝ} (hp : t.reverse = t) {i : ℕ} (hi : i < t.length) : seq t (t.length - 1 - i) = seq t i := by
  conv_rhs => rw [← hp]
  simp only [seq, List.getD_eq_getElem?_getD]
  rw [List.getElem?_reverse hi]

theorem sin_sum_zero {t : List ℝ} (hp : t.reverse = t) (x : ℝ) :
    ∑ i ∈ range t.length, seq t i * Real.sin ((2 * (i : ℝ) - ((t.length : ℝ) - 1)) * x) = 0 := by
  have h : ∑ i ∈ range t.length, seq t i * Real.sin ((2 * (i : ℝ) - ((t.length : ℝ) - 1)) * x) =
      -∑ i ∈ range t.length, seq t i * Real.sin ((2 * (i : ℝ) - ((t.length : ℝ) - 1)) * x) := by
    conv_lhs => rw [← sum_range_reflect]
    rw [← sum_neg_distrib]
    refine sum_congr rfl fun i hi => ?_
    have hi := mem_range.1 hi
    rw [seq_reflect hp hi, ← mul_neg, ← Real.sin_neg, Nat.sub_sub, Nat.cast_sub (by omega)]
    push_cast
    ring_nf
  linarith

/-- A symmetric filter multiplies a sinusoid by the amplitude response and delays it by half its length. -/
theorem cos_fir {t : List ℝ} (hp : t.reverse = t) (θ x : ℝ) :
    ∑ i ∈ range t.length, seq t i * Real.cos (θ + 2 * (i : ℝ) * x) = firAmp t x * Real.cos (θ + ((t.length : ℝ) - 1) * x) := by
  have h := sin_sum_zero hp x
  unfold firAmp
  have e : ∀ i ∈ range t.length, seq t i * Real.cos (θ + 2 * (i : ℝ) * x) =
      seq t i * Real.cos ((2 * (i : ℝ) - ((t.length : ℝ) - 1)) * x) * Real.cos (θ + ((t.length : ℝ) - 1) * x) -
      seq t i * Real.sin ((2 * (i : ℝ) - ((t.length : ℝ) - 1)) * x) * Real.sin (θ + ((t.length : ℝ) - 1) * x) := by
    intro i _
    rw [show θ + 2 * (i : ℝ) * x = (θ + ((t.length : ℝ) - 1) * x) + (2 * (i : ℝ) - ((t.length : ℝ) - 1)) * x by ring,
      Real.cos_add]
    ring
  rw [sum_congr rfl e, sum_sub_distrib, ← sum_mul, ← sum_mul, h, zero_mul, sub_zero]

theorem firAmp_shift {t : List ℝ} (he : t.length % 2 = 0) (x : ℝ) (k : ℤ) :
    firAmp t (x + k * Real.pi) = (-1) ^ k * firAmp t x := by
  unfold firAmp
  rw [mul_sum]
  refine sum_congr rfl fun i _ => ?_
  obtain ⟨l, hl⟩ : 2 ∣ t.length := Nat.dvd_of_mod_eq_zero he
  have e : (2 * (i : ℝ) - ((t.length : ℝ) - 1)) * (x + k * Real.pi) =
      (2 * (i : ℝ) - ((t.length : ℝ) - 1)) * x + ((k * (2 * (i - l) + 1) : ℤ) : ℝ) * Real.pi := by
    rw [hl]
    push_cast
    ring
  rw [e, Real.cos_add_int_mul_pi]
  have : ((-1 : ℝ)) ^ (k * (2 * (i - l) + 1) : ℤ) = (-1) ^ k := by
    rw [mul_add, mul_one, ← mul_assoc, mul_comm k 2, mul_assoc, zpow_add₀ (by norm_num), zpow_mul]
    norm_num
  rw [this]
  ring

theorem sum_upper_half {t : List ℝ} (hp : t.reverse = t) {l : ℕ} (hl : t.length = 2 * l) (x : ℝ) :
    firAmp t x = 2 * ∑ k ∈ range l, seq t (l + k) * Real.cos ((2 * (k : ℝ) + 1) * x) := by
  unfold firAmp
  rw [hl, two_mul l, sum_range_add]
  have h2 : ∑ k ∈ range l, seq t (l + k) * Real.cos ((2 * ((l + k : ℕ) : ℝ) - (((l + l : ℕ) : ℝ) - 1)) * x) =
      ∑ k ∈ range l, seq t (l + k) * Real.cos ((2 * (k : ℝ) + 1) * x) := by
    refine sum_congr rfl fun k _ => ?_
    congr 2
    push_cast
    ring
  have h1 : ∑ k ∈ range l, seq t k * Real.cos ((2 * (k : ℝ) - (((l + l : ℕ) : ℝ) - 1)) * x) =
      ∑ k ∈ range l, seq t (l + k) * Real.cos ((2 * (k : ℝ) + 1) * x) := by
    rw [← sum_range_reflect]
    refine sum_congr rfl fun k hk => ?_
    have hk := mem_range.1 hk
    have e : seq t (l - 1 - k) = seq t (l + k) := by
      rw [← seq_reflect hp (by omega : l + k < t.length)]
      congr 1
      omega
    rw [e, ← Real.cos_neg]
    congr 2
    rw [Nat.sub_sub, Nat.cast_sub (by omega)]
    push_cast
    ring
  rw [h1, h2]
  ring

/-- The upper half of a table, times `4 * 10^25`. -/
def ampInts (t : List Dec) : List ℤ := (t.drop (t.length / 2)).map fun d => 4 * d.m * 10 ^ (25 - d.e)

theorem cosSum_eq (x : ℝ) (as : List ℤ) (j : ℕ) :
    Bern.cosSum x as j = ∑ k ∈ range as.length, ((as.getD k 0 : ℤ) : ℝ) * Real.cos ((2 * (k : ℝ) + j) * x) := by
  induction as generalizing j with
  | nil => rfl
  | cons a as ih =>
    rw [Bern.cosSum, List.length_cons, sum_range_succ', ih, add_comm]
    congr 1
    · refine sum_congr rfl fun k _ => ?_
      rw [List.getD_cons_succ]
      congr 2
      push_cast
      ring
    · rw [List.getD_cons_zero]
      congr 2
      push_cast
      ring

/-- The exact taps for upsampling. -/
noncomputable def exactTaps (t : List Dec) : List ℝ := t.map fun d => ((d.toRat * 2 : ℚ) : ℝ)

theorem toRat_scaled (d : Dec) (he : d.e ≤ 25) : ((d.toRat * 2 : ℚ) : ℝ) * (2 * 10 ^ 25) = ((4 * d.m * 10 ^ (25 - d.e) : ℤ) : ℝ) := by
  unfold Dec.toRat
  rw [Rat.mkRat_eq_div]
  push_cast
  have : (10 : ℝ) ^ 25 = 10 ^ d.e * 10 ^ (25 - d.e) := by rw [← pow_add]; congr 1; omega
  rw [this]
  field_simp
  ring

theorem cosSum_amp {t : List Dec} (hp : t.reverse = t) (h2 : t.length % 2 = 0) (he : ∀ d ∈ t, d.e ≤ 25) (x : ℝ) :
    Bern.cosSum x (ampInts t) 1 = 10 ^ 25 * firAmp (exactTaps t) x := by
  obtain ⟨l, hl⟩ : 2 ∣ t.length := Nat.dvd_of_mod_eq_zero h2
  have hlen : (exactTaps t).length = 2 * l := by simp [exactTaps, hl]
  have hpal : (exactTaps t).reverse = exactTaps t := by
    unfold exactTaps
    rw [← List.map_reverse, hp]
  rw [cosSum_eq, sum_upper_half hpal hlen]
  have hal : (ampInts t).length = l := by
    simp [ampInts, hl]
    omega
  rw [hal, ← mul_assoc, mul_sum]
  refine sum_congr rfl fun k hk => ?_
  have hk := mem_range.1 hk
  have hlt : l + k < t.length := by omega
  have e1 : ((ampInts t).getD k 0 : ℤ) = 4 * (t[l + k]).m * 10 ^ (25 - (t[l + k]).e) := by
    rw [List.getD_eq_getElem?_getD, List.getElem?_eq_getElem (by omega), Option.getD_some]
    simp [ampInts, hl]
  have e2 : seq (exactTaps t) (l + k) = ((t[l + k].toRat * 2 : ℚ) : ℝ) := by
    unfold seq
    rw [List.getD_eq_getElem?_getD, List.getElem?_eq_getElem (by simpa [exactTaps] using hlt), Option.getD_some]
    simp [exactTaps]
  rw [e1, e2, ← toRat_scaled _ (he _ (List.getElem_mem hlt))]
  push_cast
  ring

/-- Bounds for the ripple `|A - 1|` of the amplitude response below 18 kHz, in `10^-10`, by stage and precision. -/
def ripple : ℕ → ℕ → ℕ
  | 2, 24 => 1073
  | 4, 24 => 735
  | 8, 24 => 632
  | 2, 20 => 19390
  | 4, 20 => 10735
  | 8, 20 => 7048
  | 2, 16 => 345157
  | 4, 16 => 246811
  | 8, 16 => 190755
  | 2, 12 => 4716044
  | 4, 12 => 1278408
  | 8, 12 => 2089342
  | 2, 8 => 57724906
  | 4, 8 => 38543109
  | 8, 8 => 37125366
  | 2, _ => 7155000000
  | 4, _ => 1987000000
  | _, _ => 510000000

theorem table_exponents : ∀ k ∈ [2, 4, 8], ∀ p ∈ [1, 8, 12, 16, 20, 24], ∀ d ∈ (firTable k p).getD [], d.e ≤ 25 := by
  decide +kernel

theorem ripple_check : ∀ k ∈ [2, 4, 8], ∀ p ∈ [1, 8, 12, 16, 20, 24],
    Bern.cosCheck (ampInts ((firTable k p).getD [])) (edgeCos k) 65535 (10 ^ 25) (ripple k p * 10 ^ 15) 0 10 = true := by
  decide +kernel

end Panda
