import Verif.Proofs.Theta
import Mathlib.Tactic.IntervalCases

/-!
# Bounds of theta functions, for the values of `q` the designer uses
-/

namespace Panda.Theta

variable {q : ℝ}

theorem tail_le {f : ℕ → ℝ} {C r : ℝ} (r0 : 0 ≤ r) (r1 : r < 1) {M : ℕ} (h : ∀ j, |f (M + j)| ≤ C * r ^ j) :
    Summable f ∧ |∑' i, f i - ∑ i ∈ Finset.range M, f i| ≤ C / (1 - r) := by
  have hg : HasSum (fun j => C * r ^ j) (C / (1 - r)) := by
    rw [div_eq_mul_inv]
    exact (hasSum_geometric_of_lt_one r0 r1).mul_left C
  have h' : ∀ j, ‖f (j + M)‖ ≤ C * r ^ j := fun j => by rw [add_comm, Real.norm_eq_abs]; exact h j
  have hs : Summable fun j => f (j + M) := Summable.of_norm_bounded hg.summable h'
  have hf : Summable f := (summable_nat_add_iff M).mp hs
  refine ⟨hf, ?_⟩
  rw [← hf.sum_add_tsum_nat_add M, add_sub_cancel_left, ← Real.norm_eq_abs]
  exact tsum_of_norm_bounded hg h'

/-- Terms of `θ₁` -/
noncomputable def sTerm (q u : ℝ) (i : ℕ) : ℝ := (-1) ^ i * (q ^ (i * (i + 1)) * Real.sin ((2 * i + 1) * u))

/-- Terms of `θ₄` -/
noncomputable def cTerm (q u : ℝ) (i : ℕ) : ℝ := (-1) ^ (i + 1) * (q ^ ((i + 1) * (i + 1)) * Real.cos (2 * (i + 1) * u))

theorem rU_shift (u : ℝ) : rU q (2 * u + Real.pi) = -(2 * ∑' i, sTerm q u i) := by
  unfold rU
  rw [← mul_neg, ← tsum_neg]
  congr 1
  refine tsum_congr fun i => ?_
  rw [show (2 * (i : ℝ) + 1) * ((2 * u + Real.pi) / 2) = ((2 * i + 1) * u + Real.pi / 2) + (i : ℝ) * Real.pi by ring,
    Real.cos_add_nat_mul_pi, Real.cos_add_pi_div_two, sTerm]
  ring

theorem rU_compl (v : ℝ) : rU q (2 * (Real.pi / 2 - v)) = 2 * ∑' i, sTerm q v i := by
  unfold rU
  congr 1
  refine tsum_congr fun i => ?_
  rw [show (2 * (i : ℝ) + 1) * ((2 * (Real.pi / 2 - v)) / 2) = (Real.pi / 2 - (2 * i + 1) * v) + (i : ℝ) * Real.pi by ring,
    Real.cos_add_nat_mul_pi, Real.cos_pi_div_two_sub, sTerm]
  ring

theorem rT_shift (u : ℝ) : rT q (2 * u + Real.pi) = 1 + 2 * ∑' i, cTerm q u i := by
  unfold rT
  congr 2
  refine tsum_congr fun i => ?_
  rw [show ((i : ℝ) + 1) * (2 * u + Real.pi) = 2 * (i + 1) * u + ((i + 1 : ℕ) : ℝ) * Real.pi by push_cast; ring,
    Real.cos_add_nat_mul_pi, cTerm]
  ring

theorem abs_sTerm_le (q0 : 0 ≤ q) (u : ℝ) (i : ℕ) : |sTerm q u i| ≤ q ^ (i * (i + 1)) := by
  unfold sTerm
  rw [abs_mul, abs_pow, abs_neg, abs_one, one_pow, one_mul, abs_mul, abs_of_nonneg (pow_nonneg q0 _)]
  exact mul_le_of_le_one_right (pow_nonneg q0 _) (Real.abs_sin_le_one _)

theorem abs_cTerm_le (q0 : 0 ≤ q) (u : ℝ) (i : ℕ) : |cTerm q u i| ≤ q ^ ((i + 1) * (i + 1)) := by
  unfold cTerm
  rw [abs_mul, abs_pow, abs_neg, abs_one, one_pow, one_mul, abs_mul, abs_of_nonneg (pow_nonneg q0 _)]
  exact mul_le_of_le_one_right (pow_nonneg q0 _) (Real.abs_cos_le_one _)

theorem sTail (q0 : 0 ≤ q) (q1 : q < 1) (u : ℝ) (M : ℕ) :
    Summable (sTerm q u) ∧ |∑' i, sTerm q u i - ∑ i ∈ Finset.range M, sTerm q u i| ≤ q ^ (M * (M + 1)) / (1 - q) := by
  refine tail_le q0 q1 fun j => (abs_sTerm_le q0 u _).trans ?_
  rw [← pow_add]
  exact pow_le_pow_of_le_one q0 q1.le (by nlinarith [Nat.zero_le (M * j), Nat.zero_le (j * j)])

theorem cTail (q0 : 0 ≤ q) (q1 : q < 1) (u : ℝ) (M : ℕ) :
    Summable (cTerm q u) ∧ |∑' i, cTerm q u i - ∑ i ∈ Finset.range M, cTerm q u i| ≤ q ^ ((M + 1) * (M + 1)) / (1 - q) := by
  refine tail_le q0 q1 fun j => (abs_cTerm_le q0 u _).trans ?_
  rw [← pow_add]
  exact pow_le_pow_of_le_one q0 q1.le (by nlinarith [Nat.zero_le (M * j), Nat.zero_le (j * j)])

theorem abs_sin_mul_le (n : ℕ) (x : ℝ) : |Real.sin (n * x)| ≤ n * |Real.sin x| := by
  induction n with
  | zero => simp
  | succ n ih =>
    push_cast
    rw [add_mul, one_mul, Real.sin_add]
    refine (abs_add_le _ _).trans ?_
    rw [abs_mul, abs_mul]
    have h1 := Real.abs_cos_le_one x
    have h2 := Real.abs_cos_le_one (n * x)
    have h3 := abs_nonneg (Real.sin x)
    have h4 := abs_nonneg (Real.sin (n * x))
    nlinarith [mul_le_of_le_one_right h4 h1, mul_le_of_le_one_left h3 h2]

private theorem sin_five (v : ℝ) : Real.sin (5 * v) = Real.sin v * (5 - 20 * Real.sin v ^ 2 + 16 * Real.sin v ^ 4) := by
  rw [show 5 * v = 3 * v + 2 * v by ring, Real.sin_add, Real.sin_three_mul, Real.cos_three_mul, Real.sin_two_mul, Real.cos_two_mul]
  have h := Real.sin_sq_add_cos_sq v
  have hc : Real.cos v ^ 2 = 1 - Real.sin v ^ 2 := by linarith
  have h4 : Real.cos v ^ 4 = (1 - Real.sin v ^ 2) ^ 2 := by rw [show Real.cos v ^ 4 = (Real.cos v ^ 2) ^ 2 by ring, hc]
  linear_combination (8 * Real.sin v) * h4 + (6 * Real.sin v - 8 * Real.sin v ^ 3 - 6 * Real.sin v) * hc

/-- `θ₁` is positive, with a bound. -/
theorem S_lower (q0 : 0 < q) (q1 : q < 31 / 50) {v : ℝ} (hv : 0 ≤ Real.sin v) : Real.sin v / 20 ≤ ∑' i, sTerm q v i := by
  set s := Real.sin v with hs
  have s1 : s ≤ 1 := Real.sin_le_one v
  have p2 : q ^ 2 ≤ 0.3844 := by nlinarith
  have p4 : q ^ 4 ≤ 0.1478 := by nlinarith [sq_nonneg q]
  have p6 : q ^ 6 ≤ 0.05682 := by nlinarith [pow_pos q0 2, pow_pos q0 4]
  have p7 : q ^ 7 ≤ 0.0353 := by nlinarith [pow_pos q0 6]
  have p12 : q ^ 12 ≤ 0.00323 := by nlinarith [pow_pos q0 6]
  have ht := (tail_le (f := sTerm q v) (C := 7 * q ^ 12 * s) (r := 2 * q ^ 7) (by positivity) (by linarith) (M := 3) (by
    intro j
    unfold sTerm
    rw [abs_mul, abs_pow, abs_neg, abs_one, one_pow, one_mul, abs_mul, abs_of_nonneg (pow_nonneg q0.le _)]
    have h1 := abs_sin_mul_le (2 * (3 + j) + 1) v
    rw [← hs, abs_of_nonneg hv] at h1
    push_cast at h1 ⊢
    have h2 : (2 * (3 + (j : ℝ)) + 1) ≤ 7 * 2 ^ j := by
      have : 2 * (3 + j) + 1 ≤ 7 * 2 ^ j := by
        have := Nat.lt_two_pow_self (n := j)
        have : j + 1 ≤ 2 ^ j := this
        omega
      exact_mod_cast this
    have h3 : q ^ ((3 + j) * (3 + j + 1)) ≤ q ^ 12 * (q ^ 7) ^ j := by
      rw [← pow_mul, ← pow_add]
      exact pow_le_pow_of_le_one q0.le (by linarith) (by nlinarith [Nat.zero_le (j * j)])
    calc q ^ ((3 + j) * (3 + j + 1)) * |Real.sin ((2 * (3 + (j : ℝ)) + 1) * v)|
        ≤ (q ^ 12 * (q ^ 7) ^ j) * ((2 * (3 + (j : ℝ)) + 1) * s) := by gcongr
      _ ≤ (q ^ 12 * (q ^ 7) ^ j) * (7 * 2 ^ j * s) := by gcongr
      _ = 7 * q ^ 12 * s * (2 * q ^ 7) ^ j := by rw [mul_pow]; ring)).2
  have hb : 7 * q ^ 12 * s / (1 - 2 * q ^ 7) ≤ 0.0244 * s := by
    rw [div_le_iff₀ (by linarith)]
    have : 7 * q ^ 12 ≤ 0.0244 * (1 - 2 * q ^ 7) := by linarith
    nlinarith
  have e : ∑ i ∈ Finset.range 3, sTerm q v i = s * (1 - q ^ 2 * (3 - 4 * s ^ 2) + q ^ 6 * (5 - 20 * s ^ 2 + 16 * s ^ 4)) := by
    simp only [Finset.sum_range_succ, Finset.sum_range_zero, sTerm]
    norm_num
    rw [sin_five, Real.sin_three_mul, ← hs]
    ring
  rw [e] at ht
  have h5 := (abs_le.mp (ht.trans hb)).1
  have key : 0.0744 ≤ 1 - q ^ 2 * (3 - 4 * s ^ 2) + q ^ 6 * (5 - 20 * s ^ 2 + 16 * s ^ 4) := by
    have k1 : 0 ≤ (4 * q ^ 2 - 20 * q ^ 6) * s ^ 2 := by
      have : 0 ≤ 4 * q ^ 2 - 20 * q ^ 6 := by nlinarith [pow_pos q0 2]
      positivity
    have k2 : 0 ≤ q ^ 6 * (16 * s ^ 4) := by positivity
    have k3 : 0.0744 ≤ 1 - 3 * q ^ 2 + 5 * q ^ 6 := by
      have e6 : q ^ 6 = (q ^ 2) ^ 3 := by ring
      rw [e6]
      have : 0 < q ^ 2 := by positivity
      nlinarith [mul_nonneg (sub_nonneg.mpr p2) (sub_nonneg.mpr p2), mul_nonneg this.le (sub_nonneg.mpr p2)]
    nlinarith
  nlinarith

/-- `θ₄(0)` is positive, with a bound. -/
theorem H_lower (q0 : 0 < q) (q1 : q < 31 / 50) : 1 / 50 ≤ rT q Real.pi := by
  have h := (cTail q0.le (by linarith) 0 3).2
  have e := rT_shift (q := q) 0
  rw [mul_zero, zero_add] at e
  rw [e]
  have hs : ∑ i ∈ Finset.range 3, cTerm q 0 i = -q + q ^ 4 - q ^ 9 := by
    simp only [Finset.sum_range_succ, Finset.sum_range_zero, cTerm]
    norm_num
    ring
  rw [hs] at h
  have p2 : q ^ 2 ≤ 0.3844 := by nlinarith
  have p4 : q ^ 4 ≤ 0.14777 := by nlinarith [sq_nonneg q]
  have p8 : q ^ 8 ≤ 0.02184 := by nlinarith [pow_pos q0 4]
  have p9 : q ^ 9 ≤ 0.013541 := by nlinarith [pow_pos q0 8]
  have p16 : q ^ 16 ≤ 0.000478 := by nlinarith [pow_pos q0 8]
  have hb : q ^ 16 / (1 - q) ≤ 0.0013 := by
    rw [div_le_iff₀ (by linarith)]
    nlinarith
  have h5 := (abs_le.mp (h.trans hb)).1
  have k : q - q ^ 4 ≤ 0.4723 := by
    have : 0 ≤ (31 / 50 - q) * (1 - ((31 / 50) ^ 3 + (31 / 50) ^ 2 * q + 31 / 50 * q ^ 2 + q ^ 3)) := by
      refine mul_nonneg (by linarith) ?_
      have : q ^ 3 ≤ 0.23833 := by nlinarith
      nlinarith
    nlinarith
  nlinarith

theorem abs_S_le (q0 : 0 < q) (q1 : q < 31 / 50) (u : ℝ) : |∑' i, sTerm q u i| ≤ 3 := by
  have h := (sTail q0.le (by linarith) u 0).2
  simp only [Finset.range_zero, Finset.sum_empty, sub_zero, zero_mul, pow_zero] at h
  refine h.trans ?_
  rw [div_le_iff₀ (by linarith)]
  linarith

theorem abs_C_le (q0 : 0 < q) (q1 : q < 31 / 50) (u : ℝ) : |∑' i, cTerm q u i| ≤ 2 := by
  have h := (cTail q0.le (by linarith) u 0).2
  simp only [Finset.range_zero, Finset.sum_empty, sub_zero, zero_add, mul_one, pow_one] at h
  refine h.trans ?_
  rw [div_le_iff₀ (by linarith)]
  linarith

theorem rU_zero_bounds (q0 : 0 < q) (q1 : q < 31 / 50) : 1 / 10 ≤ rU q 0 ∧ rU q 0 ≤ 6 := by
  have e := rU_compl (q := q) (Real.pi / 2)
  rw [sub_self, mul_zero] at e
  have h1 := S_lower q0 q1 (v := Real.pi / 2) (by simp)
  have h2 := (abs_le.mp (abs_S_le q0 q1 (Real.pi / 2))).2
  rw [Real.sin_pi_div_two] at h1
  constructor <;> linarith

theorem rT_zero_bounds (q0 : 0 < q) (q1 : q < 31 / 50) : 1 ≤ rT q 0 ∧ rT q 0 ≤ 6 := by
  have e := rT_shift (q := q) (-(Real.pi / 2))
  rw [show 2 * -(Real.pi / 2) + Real.pi = 0 by ring] at e
  have h2 := (abs_le.mp (abs_C_le q0 q1 (-(Real.pi / 2)))).2
  refine ⟨?_, by linarith⟩
  have h3 : 0 ≤ ∑' i, cTerm q (-(Real.pi / 2)) i := tsum_nonneg fun i => by
    unfold cTerm
    rw [show 2 * ((i : ℝ) + 1) * -(Real.pi / 2) = -(((i + 1 : ℕ) : ℝ) * Real.pi) by push_cast; ring, Real.cos_neg, Real.cos_nat_mul_pi,
      mul_left_comm, ← mul_pow]
    norm_num
    positivity
  linarith

/-- The numerator and the denominator as the designer computes them, which has an error of at most `ε`: their ratio is less than the one
for `u = π / 2`. -/
theorem ratio_lt (q0 : 0 < q) (q1 : q < 31 / 50) {u N D : ℝ} (hu : 1 / 10 ^ 10 ≤ Real.cos u)
    (hN : |N - ∑' i, sTerm q u i| ≤ 1 / 10 ^ 40) (hD : |D - (1 / 2 + ∑' i, cTerm q u i)| ≤ 1 / 10 ^ 40) :
    rT q 0 ^ 2 * N ^ 2 < rU q 0 ^ 2 * D ^ 2 := by
  have h := theta_quad q0 (by linarith) (2 * u)
  rw [rU_shift, rT_shift] at h
  have h2 := rU_compl (q := q) (Real.pi / 2 - u)
  rw [sub_sub_cancel] at h2
  have h3 := S_lower q0 q1 (v := Real.pi / 2 - u) (by rw [Real.sin_pi_div_two_sub]; linarith)
  rw [Real.sin_pi_div_two_sub] at h3
  rw [h2] at h
  have h4 := H_lower q0 q1
  obtain ⟨a0, a1⟩ := rU_zero_bounds q0 q1
  obtain ⟨b0, b1⟩ := rT_zero_bounds q0 q1
  have h5 := abs_S_le q0 q1 u
  have h6 := abs_C_le q0 q1 u
  generalize ∑' i, sTerm q u i = X at *
  generalize ∑' i, cTerm q u i = Y at *
  generalize ∑' i, sTerm q (Real.pi / 2 - u) i = Z at *
  generalize rT q Real.pi = H at *
  generalize rU q 0 = A at *
  generalize rT q 0 = G at *
  have z0 : 1 / 10 ^ 12 ≤ Z := by
    have : (1 : ℝ) / 10 ^ 12 ≤ 1 / 10 ^ 10 / 20 := by norm_num
    linarith
  have hz : 1 / 10 ^ 28 ≤ H ^ 2 * Z ^ 2 := by
    have e1 : (1 / 50 : ℝ) ^ 2 ≤ H ^ 2 := by gcongr
    have e2 : (1 / 10 ^ 12 : ℝ) ^ 2 ≤ Z ^ 2 := by gcongr
    calc (1 / 10 ^ 28 : ℝ) ≤ (1 / 50) ^ 2 * (1 / 10 ^ 12) ^ 2 := by norm_num
      _ ≤ H ^ 2 * Z ^ 2 := by gcongr
  have hq : A ^ 2 * (1 / 2 + Y) ^ 2 - G ^ 2 * X ^ 2 = H ^ 2 * Z ^ 2 := by linarith
  have n1 : N ^ 2 ≤ X ^ 2 + 1 / 10 ^ 38 := by
    have e : N ^ 2 = X ^ 2 + (N - X) * (2 * X + (N - X)) := by ring
    have e2 : |(N - X) * (2 * X + (N - X))| ≤ 1 / 10 ^ 40 * 7 := by
      rw [abs_mul]
      refine mul_le_mul hN ?_ (abs_nonneg _) (by norm_num)
      refine (abs_add_le _ _).trans ?_
      rw [abs_mul, abs_two]
      linarith [show (1 : ℝ) / 10 ^ 40 ≤ 1 by norm_num]
    have := (abs_le.mp e2).2
    rw [e]
    have : (1 : ℝ) / 10 ^ 40 * 7 ≤ 1 / 10 ^ 38 := by norm_num
    linarith
  have d1 : (1 / 2 + Y) ^ 2 - 1 / 10 ^ 38 ≤ D ^ 2 := by
    have e : D ^ 2 = (1 / 2 + Y) ^ 2 + (D - (1 / 2 + Y)) * (2 * (1 / 2 + Y) + (D - (1 / 2 + Y))) := by ring
    have e2 : |(D - (1 / 2 + Y)) * (2 * (1 / 2 + Y) + (D - (1 / 2 + Y)))| ≤ 1 / 10 ^ 40 * 7 := by
      rw [abs_mul]
      refine mul_le_mul hD ?_ (abs_nonneg _) (by norm_num)
      refine (abs_add_le _ _).trans ?_
      rw [abs_mul, abs_two]
      have : |1 / 2 + Y| ≤ 1 / 2 + 2 := (abs_add_le _ _).trans (by rw [abs_of_pos (by norm_num : (0 : ℝ) < 1 / 2)]; linarith)
      linarith [show (1 : ℝ) / 10 ^ 40 ≤ 1 by norm_num]
    have := (abs_le.mp e2).1
    rw [e]
    have : (1 : ℝ) / 10 ^ 40 * 7 ≤ 1 / 10 ^ 38 := by norm_num
    linarith
  have A36 : A ^ 2 ≤ 36 := by nlinarith
  have G36 : G ^ 2 ≤ 36 := by nlinarith
  have i1 : G ^ 2 * N ^ 2 ≤ G ^ 2 * (X ^ 2 + 1 / 10 ^ 38) := by gcongr
  have i2 : A ^ 2 * ((1 / 2 + Y) ^ 2 - 1 / 10 ^ 38) ≤ A ^ 2 * D ^ 2 := by gcongr
  have i3 : G ^ 2 * (1 / 10 ^ 38) ≤ 36 * (1 / 10 ^ 38) := by gcongr
  have i4 : A ^ 2 * (1 / 10 ^ 38) ≤ 36 * (1 / 10 ^ 38) := by gcongr
  have i5 : (36 : ℝ) * (1 / 10 ^ 38) + 36 * (1 / 10 ^ 38) < 1 / 10 ^ 28 := by norm_num
  linarith

/-! ## The modulus -/

private theorem g_poly {y : ℝ} (y0 : 0 ≤ y) (y1 : y ≤ 1 / 16) :
    (1 + 2 * y + 15 * y ^ 2 + 150 * y ^ 3) + y ^ 2 * (1 + 2 * y + 15 * y ^ 2 + 150 * y ^ 3) ^ 9 ≤
      1 + 2 * y * (1 + 2 * y + 15 * y ^ 2 + 150 * y ^ 3) ^ 4 := by
  set g := 1 + 2 * y + 15 * y ^ 2 + 150 * y ^ 3 with hg
  have h4 : 1 + 8 * y + 84 * y ^ 2 + 992 * y ^ 3 ≤ g ^ 4 := by
    have e : g ^ 4 = 1 + 8 * y + 84 * y ^ 2 + 992 * y ^ 3 + y ^ 4 * (5686 + 40080 * y ^ 1 + 266700 * y ^ 2 + 1080000 * y ^ 3 + 5450625 * y ^ 4 + 23625000 * y ^ 5 + 57375000 * y ^ 6 + 202500000 * y ^ 7 + 506250000 * y ^ 8) := by
      rw [hg]
      ring
    rw [e]
    have : 0 ≤ y ^ 4 * (5686 + 40080 * y ^ 1 + 266700 * y ^ 2 + 1080000 * y ^ 3 + 5450625 * y ^ 4 + 23625000 * y ^ 5 + 57375000 * y ^ 6 + 202500000 * y ^ 7 + 506250000 * y ^ 8) := by positivity
    linarith
  have h9 : g ^ 9 ≤ 1 + 18 * y + 1020 * y ^ 2 := by
    have g1 : g ≤ 1 + 2 * y + 25 * y ^ 2 := by
      rw [hg]
      nlinarith [mul_nonneg (sq_nonneg y) (sub_nonneg.mpr y1)]
    have g0 : 0 ≤ g := by positivity
    have e : (1 + 2 * y + 25 * y ^ 2) ^ 9 = 1 + 18 * y + y ^ 2 * (369 + 4272 * y ^ 1 + 49716 * y ^ 2 + 419832 * y ^ 3 + 3459876 * y ^ 4 + 22457808 * y ^ 5 + 140974254 * y ^ 6 + 717538412 * y ^ 7 + 3524356350 * y ^ 8 + 14036130000 * y ^ 9 + 54060562500 * y ^ 10 + 163996875000 * y ^ 11 + 485507812500 * y ^ 12 + 1042968750000 * y ^ 13 + 2252197265625 * y ^ 14 + 2746582031250 * y ^ 15 + 3814697265625 * y ^ 16) := by
      ring
    have b : 369 + 4272 * y ^ 1 + 49716 * y ^ 2 + 419832 * y ^ 3 + 3459876 * y ^ 4 + 22457808 * y ^ 5 + 140974254 * y ^ 6 + 717538412 * y ^ 7 + 3524356350 * y ^ 8 + 14036130000 * y ^ 9 + 54060562500 * y ^ 10 + 163996875000 * y ^ 11 + 485507812500 * y ^ 12 + 1042968750000 * y ^ 13 + 2252197265625 * y ^ 14 + 2746582031250 * y ^ 15 + 3814697265625 * y ^ 16 ≤ 1020 := by
      calc _ ≤ 369 + 4272 * (1 / 16 : ℝ) ^ 1 + 49716 * (1 / 16 : ℝ) ^ 2 + 419832 * (1 / 16 : ℝ) ^ 3 + 3459876 * (1 / 16 : ℝ) ^ 4 + 22457808 * (1 / 16 : ℝ) ^ 5 + 140974254 * (1 / 16 : ℝ) ^ 6 + 717538412 * (1 / 16 : ℝ) ^ 7 + 3524356350 * (1 / 16 : ℝ) ^ 8 + 14036130000 * (1 / 16 : ℝ) ^ 9 + 54060562500 * (1 / 16 : ℝ) ^ 10 + 163996875000 * (1 / 16 : ℝ) ^ 11 + 485507812500 * (1 / 16 : ℝ) ^ 12 + 1042968750000 * (1 / 16 : ℝ) ^ 13 + 2252197265625 * (1 / 16 : ℝ) ^ 14 + 2746582031250 * (1 / 16 : ℝ) ^ 15 + 3814697265625 * (1 / 16 : ℝ) ^ 16 := by gcongr
        _ ≤ 1020 := by norm_num
    calc g ^ 9 ≤ (1 + 2 * y + 25 * y ^ 2) ^ 9 := by gcongr
      _ ≤ 1 + 18 * y + 1020 * y ^ 2 := by
        rw [e]
        nlinarith [mul_nonneg (sq_nonneg y) (sub_nonneg.mpr b)]
  have i4 : 2 * y * (1 + 8 * y + 84 * y ^ 2 + 992 * y ^ 3) ≤ 2 * y * g ^ 4 := by gcongr
  have i9 : y ^ 2 * g ^ 9 ≤ y ^ 2 * (1 + 18 * y + 1020 * y ^ 2) := by gcongr
  have : 0 ≤ y ^ 4 := by positivity
  rw [hg] at i4 i9 ⊢
  nlinarith

/-- `q` as computed from `e`, with one term of each series -/
private theorem q_poly {e q : ℝ} (e0 : 0 < e) (e1 : e < 1 / 2) (hq : q = e * (1 + 2 * e ^ 4 + 15 * e ^ 8 + 150 * e ^ 12)) :
    q + q ^ 9 ≤ e * (1 + 2 * q ^ 4) := by
  have y1 : e ^ 4 ≤ 1 / 16 := by
    calc e ^ 4 ≤ (1 / 2) ^ 4 := by gcongr
      _ = 1 / 16 := by norm_num
  have h := g_poly (y := e ^ 4) (by positivity) y1
  have e8 : (e ^ 4) ^ 2 = e ^ 8 := by ring
  have e12 : (e ^ 4) ^ 3 = e ^ 12 := by ring
  rw [e8, e12] at h
  generalize 1 + 2 * e ^ 4 + 15 * e ^ 8 + 150 * e ^ 12 = g at h hq
  have := mul_le_mul_of_nonneg_left h e0.le
  subst hq
  calc e * g + (e * g) ^ 9 = e * (g + e ^ 8 * g ^ 9) := by ring
    _ ≤ e * (1 + 2 * e ^ 4 * g ^ 4) := this
    _ = e * (1 + 2 * (e * g) ^ 4) := by ring

/-- The `q` which is computed from `e` is at most the one that belongs to `e`. -/
theorem modulus_le {e : ℝ} (e0 : 0 < e) (e1 : e < 1 / 2) (hq : q = e * (1 + 2 * e ^ 4 + 15 * e ^ 8 + 150 * e ^ 12)) (q1 : q < 31 / 50) :
    rT q 0 - rT q Real.pi ≤ 2 * e * (rT q 0 + rT q Real.pi) := by
  have hp := q_poly e0 e1 hq
  have q0 : 0 < q := by
    rw [hq]
    positivity
  have ez := rT_shift (q := q) (-(Real.pi / 2))
  rw [show 2 * -(Real.pi / 2) + Real.pi = 0 by ring] at ez
  have ep := rT_shift (q := q) 0
  rw [mul_zero, zero_add] at ep
  obtain ⟨s1, h1⟩ := cTail q0.le (by linarith) (-(Real.pi / 2)) 4
  obtain ⟨s2, h2⟩ := cTail q0.le (by linarith) 0 4
  have hcz : ∀ i, cTerm q (-(Real.pi / 2)) i = q ^ ((i + 1) * (i + 1)) := fun i => by
    unfold cTerm
    rw [show 2 * ((i : ℝ) + 1) * -(Real.pi / 2) = -(((i + 1 : ℕ) : ℝ) * Real.pi) by push_cast; ring, Real.cos_neg, Real.cos_nat_mul_pi,
      mul_left_comm, ← mul_pow]
    norm_num
  have hcp : ∀ i, cTerm q 0 i = (-1) ^ (i + 1) * q ^ ((i + 1) * (i + 1)) := fun i => by
    unfold cTerm
    rw [mul_zero, Real.cos_zero, mul_one]
  have hz : ∑ i ∈ Finset.range 4, cTerm q (-(Real.pi / 2)) i = q + q ^ 4 + q ^ 9 + q ^ 16 := by
    simp only [hcz, Finset.sum_range_succ, Finset.sum_range_zero]
    norm_num
  have hpi : ∑ i ∈ Finset.range 4, cTerm q 0 i = -q + q ^ 4 - q ^ 9 + q ^ 16 := by
    simp only [hcp, Finset.sum_range_succ, Finset.sum_range_zero]
    norm_num
    ring
  have hsum : q ^ 4 + q ^ 16 ≤ (∑' i, cTerm q (-(Real.pi / 2)) i + ∑' i, cTerm q 0 i) / 2 := by
    rw [← s1.tsum_add s2, ← tsum_div_const]
    refine le_trans (le_of_eq ?_) (((s1.add s2).div_const 2).sum_le_tsum (Finset.range 4) fun i _ => ?_)
    · simp only [hcz, hcp, Finset.sum_range_succ, Finset.sum_range_zero]
      norm_num
    · rw [hcz, hcp]
      rcases neg_one_pow_eq_or ℝ (i + 1) with h | h
      · rw [h]
        positivity
      · rw [h]
        norm_num
  rw [hz] at h1
  rw [hpi] at h2
  have u1 := (abs_le.mp h1).2
  have u2 := (abs_le.mp h2).1
  rw [show (4 + 1) * (4 + 1) = 25 from rfl] at u1 u2
  have t : q ^ 25 / (1 - q) ≤ e * q ^ 16 := by
    rw [div_le_iff₀ (by linarith)]
    have qe : q ≤ 2 * e := by
      have y1 : e ^ 4 ≤ 1 / 16 := by
        calc e ^ 4 ≤ (1 / 2) ^ 4 := by gcongr
          _ = 1 / 16 := by norm_num
      have y2 : e ^ 8 ≤ 1 / 256 := by
        calc e ^ 8 ≤ (1 / 2) ^ 8 := by gcongr
          _ = 1 / 256 := by norm_num
      have y3 : e ^ 12 ≤ 1 / 4096 := by
        calc e ^ 12 ≤ (1 / 2) ^ 12 := by gcongr
          _ = 1 / 4096 := by norm_num
      rw [hq]
      nlinarith
    have q8 : q ^ 8 ≤ 0.022 := by
      calc q ^ 8 ≤ (31 / 50) ^ 8 := by gcongr
        _ ≤ 0.022 := by norm_num
    have : q ^ 9 ≤ e * (1 - q) := by
      have : q ^ 9 = q ^ 8 * q := by ring
      rw [this]
      nlinarith [pow_pos q0 8]
    calc q ^ 25 = q ^ 16 * q ^ 9 := by ring
      _ ≤ q ^ 16 * (e * (1 - q)) := by gcongr
      _ = e * q ^ 16 * (1 - q) := by ring
  rw [ez, ep]
  generalize ∑' i, cTerm q (-(Real.pi / 2)) i = X at *
  generalize ∑' i, cTerm q 0 i = Y at *
  have h := mul_le_mul_of_nonneg_left hsum e0.le
  have h' : 0 ≤ e * q ^ 16 := by positivity
  generalize q ^ 25 / (1 - q) = t at *
  linarith

end Panda.Theta
