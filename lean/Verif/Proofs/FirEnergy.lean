import Mathlib.Analysis.SpecialFunctions.Complex.Log
import Verif.Proofs.Energy
import Verif.Proofs.SineConfig

/-!
# Energy of the FIR filters

Parseval's identity for finite sequences, and what it says about a convolution whose frequency response is bounded.
-/

set_option linter.unusedSectionVars false

namespace Panda

open Finset Complex

/-- The `k`-th of `P` points on the unit circle, to the power `m`. -/
noncomputable def unit (P : ℕ) (z : ℤ) : ℂ := Complex.exp (((2 * Real.pi * z / P : ℝ) : ℂ) * I)

theorem unit_add (P : ℕ) (a b : ℤ) : unit P (a + b) = unit P a * unit P b := by
  unfold unit
  rw [← Complex.exp_add]
  congr 1
  push_cast
  ring

theorem unit_conj (P : ℕ) (a : ℤ) : (starRingEnd ℂ) (unit P a) = unit P (-a) := by
  unfold unit
  rw [← Complex.exp_conj]
  congr 1
  simp only [map_mul, Complex.conj_ofReal, Complex.conj_I]
  push_cast
  ring

theorem unit_pow (P : ℕ) (a : ℤ) (k : ℕ) : unit P a ^ k = unit P (k * a) := by
  unfold unit
  rw [← Complex.exp_nat_mul]
  congr 1
  push_cast
  ring

theorem unit_eq_one {P : ℕ} (hP : 0 < P) (a : ℤ) : unit P a = 1 ↔ (P : ℤ) ∣ a := by
  have hP' : (P : ℝ) ≠ 0 := by positivity
  have hpi := Real.pi_ne_zero
  unfold unit
  rw [Complex.exp_eq_one_iff]
  constructor
  · rintro ⟨n, hn⟩
    refine ⟨n, ?_⟩
    have h2 : ((2 * Real.pi * a / P : ℝ) : ℂ) = ((n * (2 * Real.pi) : ℝ) : ℂ) := by
      have : ((2 * Real.pi * a / P : ℝ) : ℂ) * I = ((n * (2 * Real.pi) : ℝ) : ℂ) * I := by
        rw [hn]
        push_cast
        ring
      exact mul_right_cancel₀ Complex.I_ne_zero this
    have h3 : 2 * Real.pi * a / P = n * (2 * Real.pi) := by exact_mod_cast h2
    rw [div_eq_iff hP'] at h3
    have h4 : (a : ℝ) = P * n := by
      have : (2 * Real.pi) * a = (2 * Real.pi) * (P * n) := by linarith
      exact mul_left_cancel₀ (by positivity) this
    exact_mod_cast h4
  · rintro ⟨n, rfl⟩
    refine ⟨n, ?_⟩
    push_cast
    have : (P : ℂ) ≠ 0 := by exact_mod_cast hP.ne'
    field_simp

theorem unit_sum {P : ℕ} (hP : 0 < P) (a : ℤ) : ∑ k ∈ range P, unit P (k * a) = if (P : ℤ) ∣ a then (P : ℂ) else 0 := by
  have e : ∀ k ∈ range P, unit P (k * a) = unit P a ^ k := fun k _ => (unit_pow P a k).symm
  rw [sum_congr rfl e]
  split
  · next h => simp [(unit_eq_one hP a).2 h]
  · next h =>
    have h1 : unit P a ≠ 1 := fun h' => h ((unit_eq_one hP a).1 h')
    rw [geom_sum_eq h1, unit_pow, (unit_eq_one hP _).2 (dvd_mul_right _ _), sub_self, zero_div]

/-- The polynomial with coefficients `c` at a point of the unit circle. -/
noncomputable def dft (P : ℕ) (c : ℕ → ℝ) (n k : ℕ) : ℂ := ∑ m ∈ range n, (c m : ℂ) * unit P (k * m)

/-- Parseval's identity. -/
theorem parseval {P : ℕ} (hP : 0 < P) (c : ℕ → ℝ) : ∑ k ∈ range P, Complex.normSq (dft P c P k) = P * ∑ m ∈ range P, c m ^ 2 := by
  have h : ∑ k ∈ range P, ((Complex.normSq (dft P c P k) : ℝ) : ℂ) = ((P * ∑ m ∈ range P, c m ^ 2 : ℝ) : ℂ) := by
    have e : ∀ k ∈ range P, ((Complex.normSq (dft P c P k) : ℝ) : ℂ) =
        ∑ m ∈ range P, ∑ n ∈ range P, (c m : ℂ) * (c n : ℂ) * unit P (k * ((m : ℤ) - n)) := by
      intro k _
      rw [← Complex.mul_conj]
      unfold dft
      rw [map_sum, sum_mul_sum]
      refine sum_congr rfl fun m _ => sum_congr rfl fun n _ => ?_
      rw [map_mul, Complex.conj_ofReal, unit_conj, show (k : ℤ) * ((m : ℤ) - n) = k * m + -(k * n) by ring, unit_add]
      ring
    rw [sum_congr rfl e, sum_comm]
    push_cast
    rw [mul_sum]
    refine sum_congr rfl fun m hm => ?_
    rw [sum_comm]
    have e2 : ∀ n ∈ range P, ∑ k ∈ range P, (c m : ℂ) * (c n : ℂ) * unit P (k * ((m : ℤ) - n)) =
        if n = m then (P : ℂ) * (c m : ℂ) ^ 2 else 0 := by
      intro n hn
      rw [← mul_sum, unit_sum hP]
      have hm := mem_range.1 hm
      have hn := mem_range.1 hn
      by_cases hnm : n = m
      · subst hnm
        simp only [sub_self, dvd_zero, if_true]
        ring
      · rw [if_neg hnm, if_neg, mul_zero]
        rintro ⟨q, hq⟩
        rcases lt_trichotomy q 0 with h | h | h
        · nlinarith
        · subst h; omega
        · nlinarith
    rw [sum_congr rfl e2, sum_ite_eq' (range P) m]
    simp [hm]
  have := h
  rw [← Complex.ofReal_sum] at this
  exact_mod_cast this

private theorem zneg (x : ℕ → ℝ) {z : ℤ} (h : z < 0) : zext x z = 0 := if_neg (by omega)

private theorem zcongr {x y : ℕ → ℝ} {k : ℕ} (h : ∀ i < k, x i = y i) {z : ℤ} (hz : z < k) : zext x z = zext y z := by
  unfold zext
  split
  · exact h _ (by omega)
  · rfl

/-- A convolution: `y[m] = ∑ t[j] x[m-j]`. -/
def firConv (t : ℕ → ℝ) (O : ℕ) (x : ℕ → ℝ) (m : ℕ) : ℝ := ∑ j ∈ range O, t j * zext x ((m : ℤ) - j)

theorem dft_firConv (P O N : ℕ) (hP : N + O ≤ P) (t x : ℕ → ℝ) (hx : ∀ n, N ≤ n → x n = 0) (k : ℕ) :
    dft P (firConv t O x) P k = dft P t O k * dft P x N k := by
  unfold dft firConv
  have e : ∀ m ∈ range P, ((∑ j ∈ range O, t j * zext x ((m : ℤ) - j) : ℝ) : ℂ) * unit P (k * m) =
      ∑ j ∈ range O, (t j : ℂ) * unit P (k * j) * (((zext x ((m : ℤ) - j) : ℝ) : ℂ) * unit P (k * ((m : ℤ) - j))) := by
    intro m _
    push_cast
    rw [sum_mul]
    refine sum_congr rfl fun j _ => ?_
    rw [show (k : ℤ) * m = k * j + k * ((m : ℤ) - j) by ring, unit_add]
    ring
  rw [sum_congr rfl e, sum_comm, sum_mul]
  refine sum_congr rfl fun j hj => ?_
  rw [← mul_sum]
  congr 1
  have hj := mem_range.1 hj
  obtain ⟨d, hd⟩ : ∃ d, P = j + (N + d) := ⟨P - j - N, by omega⟩
  rw [show range P = range (j + (N + d)) by rw [← hd], sum_range_add]
  have h0 : ∀ m ∈ range j, ((zext x ((m : ℤ) - j) : ℝ) : ℂ) * unit P (k * ((m : ℤ) - j)) = 0 := by
    intro m hm
    have := mem_range.1 hm
    rw [zneg x (by omega)]
    simp
  rw [sum_eq_zero h0, zero_add, sum_range_add]
  have h1 : ∀ n : ℕ, zext x (((j + n : ℕ) : ℤ) - j) = x n := by
    intro n
    rw [show (((j + n : ℕ) : ℤ) - j) = (n : ℤ) by push_cast; ring]
    simp [zext]
  have h2 : ∀ n ∈ range d, ((zext x (((j + (N + n) : ℕ) : ℤ) - j) : ℝ) : ℂ) * unit P (k * (((j + (N + n) : ℕ) : ℤ) - j)) = 0 := by
    intro n _
    rw [h1, hx _ (by omega)]
    simp
  rw [sum_eq_zero h2, add_zero]
  refine sum_congr rfl fun n _ => ?_
  rw [h1]
  congr 2
  push_cast
  ring

theorem dft_ge (P : ℕ) {N : ℕ} (hN : N ≤ P) {x : ℕ → ℝ} (hx : ∀ n, N ≤ n → x n = 0) (k : ℕ) : dft P x P k = dft P x N k := by
  obtain ⟨d, rfl⟩ := Nat.exists_eq_add_of_le hN
  unfold dft
  rw [sum_range_add, add_eq_left]
  refine sum_eq_zero fun n _ => ?_
  rw [hx _ (by omega)]
  simp

/-- If the frequency response of a filter is bounded by `M`, so is its gain for the energy of all signals. -/
theorem firConv_energy {t : ℕ → ℝ} {O : ℕ} {M : ℝ} (hM : ∀ P k, Complex.normSq (dft P t O k) ≤ M ^ 2) (x : ℕ → ℝ) (N : ℕ) :
    energy (firConv t O x) N ≤ M ^ 2 * energy x N := by
  rcases Nat.eq_zero_or_pos N with rfl | h0
  · simp [energy]
  let x' : ℕ → ℝ := fun n => if n < N then x n else 0
  have hx' : ∀ n, N ≤ n → x' n = 0 := fun n hn => if_neg (by omega)
  have e1 : energy (firConv t O x) N = energy (firConv t O x') N := by
    unfold energy
    refine sum_congr rfl fun m hm => ?_
    have hm := mem_range.1 hm
    congr 1
    unfold firConv
    refine sum_congr rfl fun j _ => ?_
    rw [zcongr (x := x) (y := x') (k := N) (fun i hi => (if_pos hi).symm) (by omega)]
  have e2 : energy x N = energy x' (N + O) := by
    unfold energy
    rw [sum_range_add, sum_eq_zero (s := range O), add_zero]
    · refine sum_congr rfl fun m hm => ?_
      rw [show x' m = x m from if_pos (mem_range.1 hm)]
    · intro m _
      rw [hx' _ (by omega)]
      norm_num
  have hP : 0 < N + O := by omega
  have h1 := parseval hP (firConv t O x')
  have h2 := parseval hP x'
  have h3 : ∑ k ∈ range (N + O), Complex.normSq (dft (N + O) (firConv t O x') (N + O) k) ≤
      M ^ 2 * ∑ k ∈ range (N + O), Complex.normSq (dft (N + O) x' (N + O) k) := by
    rw [mul_sum]
    refine sum_le_sum fun k _ => ?_
    rw [dft_firConv (N + O) O N le_rfl t x' hx', dft_ge (N + O) (by omega) hx', Complex.normSq_mul]
    exact mul_le_mul_of_nonneg_right (hM _ _) (Complex.normSq_nonneg _)
  rw [h1, h2] at h3
  have hP' : (0 : ℝ) < ((N + O : ℕ) : ℝ) := by exact_mod_cast hP
  have h4 : energy (firConv t O x') (N + O) ≤ M ^ 2 * energy x' (N + O) := by
    unfold energy
    refine le_of_mul_le_mul_left ?_ hP'
    linarith
  rw [e1, e2]
  refine le_trans ?_ h4
  unfold energy
  exact sum_le_sum_of_subset_of_nonneg (range_mono (by omega)) fun _ _ _ => sq_nonneg _

/-- The polynomial with symmetric coefficients and `firAmp`. -/
theorem dft_taps {t : List ℝ} (hp : t.reverse = t) {M : ℝ} (hM : ∀ x, |firAmp t x| ≤ M) (P k : ℕ) :
    Complex.normSq (dft P (seq t) t.length k) ≤ M ^ 2 := by
  set x : ℝ := Real.pi * k / P with hx
  have e : dft P (seq t) t.length k = ((firAmp t x : ℝ) : ℂ) * Complex.exp (((((t.length : ℝ) - 1) * x : ℝ) : ℂ) * I) := by
    have h : ((firAmp t x : ℝ) : ℂ) = ∑ i ∈ range t.length, ((seq t i : ℝ) : ℂ) *
        Complex.exp ((((2 * (i : ℝ) - ((t.length : ℝ) - 1)) * x : ℝ) : ℂ) * I) := by
      have h0 := sin_sum_zero hp x
      have h1 : ((firAmp t x : ℝ) : ℂ) = ((firAmp t x : ℝ) : ℂ) +
          ((∑ i ∈ range t.length, seq t i * Real.sin ((2 * (i : ℝ) - ((t.length : ℝ) - 1)) * x) : ℝ) : ℂ) * I := by
        rw [h0]
        simp
      rw [h1]
      unfold firAmp
      push_cast
      rw [sum_mul, ← sum_add_distrib]
      refine sum_congr rfl fun i _ => ?_
      rw [Complex.exp_mul_I]
      ring
    rw [h, sum_mul]
    unfold dft
    refine sum_congr rfl fun i _ => ?_
    rw [mul_assoc, ← Complex.exp_add]
    congr 1
    unfold unit
    congr 1
    rw [← add_mul]
    congr 1
    rw [hx]
    push_cast
    ring
  rw [e, Complex.normSq_mul, Complex.normSq_ofReal, Complex.normSq_eq_norm_sq (Complex.exp _), Complex.norm_exp_ofReal_mul_I]
  have := hM x
  have h1 := abs_le.1 this
  nlinarith [abs_nonneg (firAmp t x)]

theorem firSum_firConv {t : List ℝ} (hp : t.reverse = t) (x : ℕ → ℝ) (m : ℕ) :
    ∑ i ∈ range t.length, seq t i * zext x ((m : ℤ) - ((t.length : ℤ) - 1) + i) = firConv (seq t) t.length x m := by
  unfold firConv
  rw [← sum_range_reflect]
  refine sum_congr rfl fun i hi => ?_
  have hi := mem_range.1 hi
  rw [show t.length - 1 - i = t.length - 1 - i from rfl, seq_reflect hp hi]
  congr 2
  push_cast [Nat.sub_sub, Nat.cast_sub (show 1 + i ≤ t.length by omega)]
  ring

theorem shift_energy (x : ℕ → ℝ) (N : ℕ) {d : ℤ} (hd : d ≤ 0) : energy (fun n => zext x ((n : ℤ) + d)) N ≤ energy x N := by
  obtain ⟨k, rfl⟩ : ∃ k : ℕ, d = -(k : ℤ) := ⟨d.natAbs, by omega⟩
  have h0 : ∀ n, energy x n ≤ energy x N ∨ N < n := by
    intro n
    by_cases h : n ≤ N
    · left
      unfold energy
      exact sum_le_sum_of_subset_of_nonneg (range_mono h) fun _ _ _ => sq_nonneg _
    · right; omega
  have e : energy (fun n => zext x ((n : ℤ) + -(k : ℤ))) N = energy x (N - k) := by
    by_cases hk : k ≤ N
    · obtain ⟨n, rfl⟩ := Nat.exists_eq_add_of_le hk
      unfold energy
      rw [sum_range_add, sum_eq_zero, zero_add, show k + n - k = n by omega]
      · refine sum_congr rfl fun i _ => ?_
        beta_reduce
        rw [show (((k + i : ℕ) : ℤ) + -(k : ℤ)) = (i : ℤ) by push_cast; ring]
        simp [zext]
      · intro i hi
        have := mem_range.1 hi
        beta_reduce
        rw [zneg x (by omega)]
        norm_num
    · rw [show N - k = 0 by omega]
      unfold energy
      rw [sum_range_zero]
      refine sum_eq_zero fun i hi => ?_
      have := mem_range.1 hi
      beta_reduce
      rw [zneg x (by omega)]
      norm_num
  rw [e]
  rcases h0 (N - k) with h | h
  · exact h
  · omega

theorem firUp_energy {t : List ℝ} (hp : t.reverse = t) (h2 : 2 ≤ t.length) {M : ℝ} (hM : ∀ x, |firAmp t x| ≤ M) (x : ℕ → ℝ) (N : ℕ) :
    energy (firUpOp t.length (seq t) x) (2 * N) ≤ (M ^ 2 + 1) * energy x N := by
  rw [energy_double]
  have h0 : energy (evens (firUpOp t.length (seq t) x)) N = energy (firConv (seq t) t.length x) N := by
    unfold energy evens firUpOp
    refine sum_congr rfl fun n _ => ?_
    rw [if_pos (by omega), show 2 * n / 2 = n by omega, firSum_firConv hp]
  have h1 : energy (odds (firUpOp t.length (seq t) x)) N =
      energy (fun n => zext x ((n : ℤ) + (-((t.length : ℤ) - 1) + (t.length / 2 : ℕ)))) N := by
    unfold energy odds firUpOp
    refine sum_congr rfl fun n _ => ?_
    beta_reduce
    rw [if_neg (by omega), show (2 * n + 1) / 2 = n by omega]
    congr 2
    ring
  rw [h0, h1]
  have := firConv_energy (dft_taps hp hM) x N
  have h3 := shift_energy x N (d := -((t.length : ℤ) - 1) + (t.length / 2 : ℕ)) (by omega)
  linarith

theorem firDown_energy {t : List ℝ} (hp : t.reverse = t) (h2 : 2 ≤ t.length) {M : ℝ} (hM0 : 0 < M) (hM : ∀ x, |firAmp t x| ≤ M / 2) (x : ℕ → ℝ)
    (N : ℕ) : 4 * energy (firDownOp t.length (seq t) (1 / 2) x) N ≤ (M ^ 2 + 1) * energy x (2 * N) := by
  rw [energy_double]
  have h0 := firConv_energy (dft_taps hp hM) (evens x) N
  have h1 := shift_energy (odds x) N (d := -((t.length : ℤ) - 1) + (t.length / 2 : ℕ) - 1) (by omega)
  have key : energy (firDownOp t.length (seq t) (1 / 2) x) N ≤ (1 + 1 / M ^ 2) * energy (firConv (seq t) t.length (evens x)) N +
      (1 + M ^ 2) * (1 / 4 * energy (fun n => zext (odds x) ((n : ℤ) + (-((t.length : ℤ) - 1) + (t.length / 2 : ℕ) - 1))) N) := by
    unfold energy
    rw [mul_sum, mul_sum, mul_sum, ← sum_add_distrib]
    refine sum_le_sum fun n _ => ?_
    have e : firDownOp t.length (seq t) (1 / 2) x n = firConv (seq t) t.length (evens x) n +
        1 / 2 * zext (odds x) ((n : ℤ) + (-((t.length : ℤ) - 1) + (t.length / 2 : ℕ) - 1)) := by
      unfold firDownOp
      rw [← firSum_firConv hp]
      congr 1
      · exact sum_congr rfl fun i _ => by rw [zext_evens]
      · rw [zext_odds]
        congr 2
        ring
    rw [e]
    beta_reduce
    generalize firConv (seq t) t.length (evens x) n = a
    generalize zext (odds x) ((n : ℤ) + (-((t.length : ℤ) - 1) + (t.length / 2 : ℕ) - 1)) = b
    have hsq : 0 ≤ (a / M - M * (1 / 2 * b)) ^ 2 := sq_nonneg _
    have e2 : (a / M - M * (1 / 2 * b)) ^ 2 = 1 / M ^ 2 * a ^ 2 - 2 * a * (1 / 2 * b) + M ^ 2 * (1 / 4 * b ^ 2) := by
      field_simp
      ring
    rw [e2] at hsq
    nlinarith
  have h2 : (1 + 1 / M ^ 2) * energy (firConv (seq t) t.length (evens x)) N ≤ (1 + 1 / M ^ 2) * ((M / 2) ^ 2 * energy (evens x) N) :=
    mul_le_mul_of_nonneg_left h0 (by positivity)
  have e3 : (1 + 1 / M ^ 2) * ((M / 2) ^ 2 * energy (evens x) N) = (M ^ 2 + 1) / 4 * energy (evens x) N := by
    field_simp
    ring
  rw [e3] at h2
  have h3 : (1 + M ^ 2) * (1 / 4 * energy (fun n => zext (odds x) ((n : ℤ) + (-((t.length : ℤ) - 1) + (t.length / 2 : ℕ) - 1))) N) ≤
      (1 + M ^ 2) * (1 / 4 * energy (odds x) N) := by
    refine mul_le_mul_of_nonneg_left ?_ (by positivity)
    linarith
  linarith

/-! ## Stages and cascades -/

/-- Bound for the amplitude response of a stage at all frequencies, with taps accurate to `2^-24`. -/
def ampMax (k p : ℕ) : ℚ := min (1 + (ripple k p : ℚ) / 10 ^ 10) (absSum (tab k p)) + 2⁻¹ ^ 24 * absSum (tab k p)

/-- Bound for the gain of a stage for the power of a signal. -/
def stagePower (k p : ℕ) : ℚ := (ampMax k p ^ 2 + 1) / 2

/-- Bound for the gain of a resampler for the power of a signal. -/
def powerGain (m : Mode) (r p : ℕ) : ℚ := ((stageKeys m r).map fun k => stagePower k p).prod

theorem ampMax_pos : ∀ k ∈ [2, 4, 8], ∀ p ∈ [1, 8, 12, 16, 20, 24], 0 < ampMax k p := by decide +kernel

section stored

variable [Sample ℝ] [Accurate ℝ]

theorem absSum_real (t : List Dec) : ((absSum t : ℚ) : ℝ) = ∑ i ∈ range (exactTaps t).length, |seq (exactTaps t) i| := by
  rw [sum_seq (exactTaps t) fun x => |x|]
  unfold absSum exactTaps
  rw [cast_sum, List.map_map]
  congr 2
  funext d
  simp only [Function.comp, Rat.cast_abs]

theorem amp_max {k p : ℕ} (hk : k ∈ [2, 4, 8]) (hp : p ∈ [1, 8, 12, 16, 20, 24]) {q : ℚ} (hq : 0 ≤ q) (x : ℝ) :
    |firAmp ((tab k p).map fun d => (Sample.ofDouble (d.toRat * q) : ℝ)) x| ≤ (q : ℝ) / 2 * ((ampMax k p : ℚ) : ℝ) := by
  have h := firAmp_stored (tab k p) q x
  have h1 := amp_all hk hp x
  have h2 : |firAmp (exactTaps (tab k p)) x| ≤ ((absSum (tab k p) : ℚ) : ℝ) := by
    rw [absSum_real]
    unfold firAmp
    refine (abs_sum_le_sum_abs _ _).trans (sum_le_sum fun i _ => ?_)
    rw [abs_mul]
    exact mul_le_of_le_one_right (abs_nonneg _) (Real.abs_cos_le_one _)
  have h3 := le_min h1 h2
  have e : ((ampMax k p : ℚ) : ℝ) = min (1 + (ripple k p : ℝ) / 10 ^ 10) ((absSum (tab k p) : ℚ) : ℝ) +
      2⁻¹ ^ 24 * ((absSum (tab k p) : ℚ) : ℝ) := by
    unfold ampMax
    push_cast
    rfl
  have hq' : (0 : ℝ) ≤ q := by exact_mod_cast hq
  rw [e]
  rw [abs_of_nonneg hq'] at h
  have h4 : |(q : ℝ) / 2 * firAmp (exactTaps (tab k p)) x| ≤ (q : ℝ) / 2 * min (1 + (ripple k p : ℝ) / 10 ^ 10) ((absSum (tab k p) : ℚ) : ℝ) := by
    rw [abs_mul, abs_of_nonneg (by positivity)]
    exact mul_le_mul_of_nonneg_left h3 (by positivity)
  rw [abs_le] at h h4 ⊢
  constructor <;> linarith [h.1, h.2, h4.1, h4.2]

private theorem taps_reverse {k p : ℕ} (hk : k ∈ [2, 4, 8]) (hp : p ∈ [1, 8, 12, 16, 20, 24]) (q : ℚ) :
    ((tab k p).map fun d => (Sample.ofDouble (d.toRat * q) : ℝ)).reverse = (tab k p).map fun d => Sample.ofDouble (d.toRat * q) := by
  rw [← List.map_reverse, (tab_facts k hk p hp).1]

theorem up_energy {k p : ℕ} (hk : k ∈ [2, 4, 8]) (hp : p ∈ [1, 8, 12, 16, 20, 24]) (vec : Bool) (x : ℕ → ℝ) (N : ℕ) :
    energy ((firStage .up vec (tab k p)).op x) (2 * N) ≤ 2 * (((stagePower k p : ℚ) : ℝ) * energy x N) := by
  have h := firUp_energy (taps_reverse hk hp 2) (by simpa using (tab_facts k hk p hp).2.2) (fun x => amp_max hk hp (by norm_num) x) x N
  refine h.trans (le_of_eq ?_)
  unfold stagePower
  push_cast
  ring

theorem down_energy {k p : ℕ} (hk : k ∈ [2, 4, 8]) (hp : p ∈ [1, 8, 12, 16, 20, 24]) (vec : Bool) (x : ℕ → ℝ) (N : ℕ) :
    2 * energy ((firStage .down vec (tab k p)).op x) N ≤ ((stagePower k p : ℚ) : ℝ) * energy x (2 * N) := by
  have h0 : (0 : ℝ) < ((ampMax k p : ℚ) : ℝ) := by exact_mod_cast ampMax_pos k hk p hp
  have h := firDown_energy (taps_reverse hk hp 1) (by simpa using (tab_facts k hk p hp).2.2) h0
    (fun x => (amp_max hk hp (by norm_num) x).trans (le_of_eq (by push_cast; ring))) x N
  have e : (firStage .down vec (tab k p)).op x =
      firDownOp ((tab k p).map fun d => (Sample.ofDouble (d.toRat * 1) : ℝ)).length (seq ((tab k p).map fun d => Sample.ofDouble (d.toRat * 1)))
        (1 / 2) x := by
    rw [← Accurate.half (K := ℝ)]
    rfl
  rw [e]
  unfold stagePower
  push_cast
  linarith

theorem stagePower_nonneg (k p : ℕ) : (0 : ℝ) ≤ ((stagePower k p : ℚ) : ℝ) := by
  unfold stagePower
  push_cast
  positivity

private theorem prod_cast (l : List ℕ) (p : ℕ) :
    (((l.map fun k => stagePower k p).prod : ℚ) : ℝ) = (l.map fun k => ((stagePower k p : ℚ) : ℝ)).prod := by
  induction l with
  | nil => simp
  | cons k l ih => simp [ih]

theorem keys_energy_up {p : ℕ} (hp : p ∈ [1, 8, 12, 16, 20, 24]) (vec : Bool) (l : List ℕ) (hl : ∀ k ∈ l, k ∈ [2, 4, 8]) (x : ℕ → ℝ) (N : ℕ) :
    energy (cascadeOp (l.map fun k => firStage .up vec (tab k p)) x) (2 ^ l.length * N) ≤
      2 ^ l.length * ((l.map fun k => ((stagePower k p : ℚ) : ℝ)).prod * energy x N) := by
  induction l generalizing x N with
  | nil => simp [cascadeOp]
  | cons k l ih =>
    have h1 := ih (fun k hk => hl k (by simp [hk])) ((firStage .up vec (tab k p)).op x) (2 * N)
    have h2 := up_energy (hl k (by simp)) hp vec x N
    simp only [List.map_cons, List.length_cons, List.prod_cons, cascadeOp]
    rw [show 2 ^ (l.length + 1) * N = 2 ^ l.length * (2 * N) by rw [pow_succ]; ring]
    refine h1.trans ?_
    have h3 : 0 ≤ (l.map fun k => ((stagePower k p : ℚ) : ℝ)).prod := List.prod_nonneg fun y hy => by
      obtain ⟨k, -, rfl⟩ := List.mem_map.1 hy
      exact stagePower_nonneg k p
    calc _ ≤ 2 ^ l.length * ((l.map fun k => ((stagePower k p : ℚ) : ℝ)).prod * (2 * (((stagePower k p : ℚ) : ℝ) * energy x N))) := by gcongr
      _ = _ := by rw [pow_succ]; ring

theorem keys_energy_down {p : ℕ} (hp : p ∈ [1, 8, 12, 16, 20, 24]) (vec : Bool) (l : List ℕ) (hl : ∀ k ∈ l, k ∈ [2, 4, 8]) (x : ℕ → ℝ) (N : ℕ) :
    2 ^ l.length * energy (cascadeOp (l.map fun k => firStage .down vec (tab k p)) x) N ≤
      (l.map fun k => ((stagePower k p : ℚ) : ℝ)).prod * energy x (2 ^ l.length * N) := by
  induction l generalizing x N with
  | nil => simp [cascadeOp]
  | cons k l ih =>
    have h1 := ih (fun k hk => hl k (by simp [hk])) ((firStage .down vec (tab k p)).op x) N
    have h2 := down_energy (hl k (by simp)) hp vec x (2 ^ l.length * N)
    simp only [List.map_cons, List.length_cons, List.prod_cons, cascadeOp]
    rw [show 2 ^ (l.length + 1) * N = 2 * (2 ^ l.length * N) by rw [pow_succ]; ring]
    have h3 : 0 ≤ (l.map fun k => ((stagePower k p : ℚ) : ℝ)).prod := List.prod_nonneg fun y hy => by
      obtain ⟨k, -, rfl⟩ := List.mem_map.1 hy
      exact stagePower_nonneg k p
    calc _ = 2 * (2 ^ l.length * energy (cascadeOp (l.map fun k => firStage .down vec (tab k p)) ((firStage .down vec (tab k p)).op x)) N) := by
            rw [pow_succ]; ring
      _ ≤ 2 * ((l.map fun k => ((stagePower k p : ℚ) : ℝ)).prod * energy ((firStage .down vec (tab k p)).op x) (2 ^ l.length * N)) := by gcongr
      _ = (l.map fun k => ((stagePower k p : ℚ) : ℝ)).prod * (2 * energy ((firStage .down vec (tab k p)).op x) (2 ^ l.length * N)) := by ring
      _ ≤ (l.map fun k => ((stagePower k p : ℚ) : ℝ)).prod * (((stagePower k p : ℚ) : ℝ) * energy x (2 * (2 ^ l.length * N))) := by gcongr
      _ = _ := by ring

theorem stageKeys_facts : ∀ m ∈ [Mode.up, Mode.down], ∀ r ∈ [1, 2, 4, 8], 2 ^ (stageKeys m r).length = r ∧ ∀ k ∈ stageKeys m r, k ∈ [2, 4, 8] := by
  decide

theorem Config.op_energy {cfg : Config} (hv : cfg.Valid) (hf : cfg.filter = .fir) (x : ℕ → ℝ) (N : ℕ) :
    match cfg.mode with
    | .up => energy (cfg.op x) (cfg.ratio * N) ≤ cfg.ratio * (((powerGain .up cfg.ratio cfg.precision : ℚ) : ℝ) * energy x N)
    | .down => cfg.ratio * energy (cfg.op x) N ≤ ((powerGain .down cfg.ratio cfg.precision : ℚ) : ℝ) * energy x (cfg.ratio * N) := by
  obtain ⟨h1, h2⟩ := stageKeys_facts cfg.mode (by cases cfg.mode <;> simp) cfg.ratio hv.ratio
  have h1' : (2 : ℝ) ^ (stageKeys cfg.mode cfg.ratio).length = cfg.ratio := by exact_mod_cast h1
  unfold Config.op powerGain
  rw [Config.stages_eq_tables hv hf, Config.tables_keys, List.map_map, prod_cast, prod_cast]
  cases hm : cfg.mode with
  | up =>
    rw [hm] at h1 h1' h2
    have := keys_energy_up hv.precision cfg.vec _ h2 x N
    rw [h1, h1'] at this
    exact this
  | down =>
    rw [hm] at h1 h1' h2
    have := keys_energy_down hv.precision cfg.vec _ h2 x N
    rw [h1, h1'] at this
    exact this

end stored

end Panda
