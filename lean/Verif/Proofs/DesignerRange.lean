import Verif.Proofs.Designer
import Verif.Proofs.DesignerTables
import Verif.Proofs.ThetaBounds

/-!
# Coefficients of the designer lie between 0 and 1
-/

namespace Panda.Designer

open Theta

theorem pi_sub_PI : 1 / 10 ^ 33 ≤ Real.pi - PI ∧ Real.pi - PI ≤ 1 / 10 ^ 20 := by
  have h1 := pi_gt_d33
  have h2 := Real.pi_lt_d20
  unfold PI
  norm_num at h1 h2 ⊢
  constructor <;> linarith

private theorem sin_half {x : ℝ} (h0 : 0 ≤ x) (h1 : x ≤ Real.pi / 2) : x / 2 ≤ Real.sin x := by
  have h := Real.mul_le_sin h0 h1
  have : 1 / 2 ≤ 2 / Real.pi := by
    rw [div_le_div_iff₀ (by norm_num) Real.pi_pos]
    linarith [Real.pi_le_four]
  nlinarith

private theorem reduce {a o : ℕ} (o0 : 0 < o) :
    (a : ℝ) * PI / o = ((a % o : ℕ) * PI / o - (a / o : ℕ) * (Real.pi - PI)) + (a / o : ℕ) * Real.pi := by
  have h : (a : ℝ) = (o : ℝ) * (a / o : ℕ) + (a % o : ℕ) := by exact_mod_cast (Nat.div_add_mod a o).symm
  have o1 : (o : ℝ) ≠ 0 := by exact_mod_cast o0.ne'
  generalize a / o = m at *
  generalize a % o = r at *
  rw [h]
  field_simp
  ring

private theorem step_pos {o : ℕ} (o0 : 0 < o) (ho : o ≤ 2 ^ 32) : 1 / (2 * 10 ^ 9) ≤ PI / o := by
  have h : (o : ℝ) ≤ 2 ^ 32 := by exact_mod_cast ho
  have h' : (0 : ℝ) < o := by exact_mod_cast o0
  rw [le_div_iff₀ h', PI]
  calc 1 / (2 * 10 ^ 9) * (o : ℝ) ≤ 1 / (2 * 10 ^ 9) * 2 ^ 32 := by gcongr
    _ ≤ _ := by norm_num

private theorem quot_small {a o : ℕ} (ha : a ≤ 100 * o) : 0 ≤ (a / o : ℕ) * (Real.pi - PI) ∧
    (a / o : ℕ) * (Real.pi - PI) ≤ 1 / 10 ^ 18 := by
  have h : a / o ≤ 100 := Nat.div_le_of_le_mul (by linarith)
  have h' : ((a / o : ℕ) : ℝ) ≤ 100 := by exact_mod_cast h
  obtain ⟨d0, d1⟩ := pi_sub_PI
  have d0' : 0 ≤ Real.pi - PI := le_trans (by norm_num) d0
  constructor
  · positivity
  · calc ((a / o : ℕ) : ℝ) * (Real.pi - PI) ≤ 100 * (1 / 10 ^ 20) := by gcongr
      _ = 1 / 10 ^ 18 := by norm_num

/-- The sines in `compute_acc_num` are not too small. -/
theorem sin_lower {a o : ℕ} (a0 : 0 < a) (o0 : 0 < o) (ho : o ≤ 2 ^ 32) (ha : a ≤ 100 * o) : 1 / 10 ^ 34 ≤ |Real.sin (a * PI / o)| := by
  rw [reduce o0, Real.sin_add_nat_mul_pi, abs_mul, abs_pow, abs_neg, abs_one, one_pow, one_mul]
  obtain ⟨m0, m1⟩ := quot_small ha
  have hs := step_pos o0 ho
  obtain ⟨d0, d1⟩ := pi_sub_PI
  have o1 : (0 : ℝ) < o := by exact_mod_cast o0
  rcases Nat.eq_zero_or_pos (a % o) with hr | hr
  · rw [hr, Nat.cast_zero, zero_mul, zero_div, zero_sub, Real.sin_neg, abs_neg]
    have hm : 1 ≤ a / o := by
      rcases Nat.eq_zero_or_pos (a / o) with h | h
      · have := Nat.div_add_mod a o
        rw [h, hr] at this
        omega
      · exact h
    have hm' : (1 : ℝ) ≤ (a / o : ℕ) := by exact_mod_cast hm
    have h1 := sin_half m0 (by linarith [Real.pi_gt_three])
    refine le_trans ?_ (h1.trans (le_abs_self _))
    have : 1 * (1 / 10 ^ 33) ≤ ((a / o : ℕ) : ℝ) * (Real.pi - PI) := by gcongr
    have e : (1 : ℝ) / 10 ^ 34 ≤ 1 * (1 / 10 ^ 33) / 2 := by norm_num
    linarith
  · have hr' : (1 : ℝ) ≤ (a % o : ℕ) := by exact_mod_cast hr
    have hr2 : ((a % o : ℕ) : ℝ) + 1 ≤ o := by exact_mod_cast Nat.mod_lt a o0
    have y0 : PI / o ≤ (a % o : ℕ) * PI / o := by
      rw [div_le_div_iff_of_pos_right o1]
      nlinarith [PI_pos]
    have y1 : (a % o : ℕ) * PI / o ≤ PI - PI / o := by
      rw [le_sub_iff_add_le, ← add_div, div_le_iff₀ o1]
      nlinarith [PI_pos]
    generalize (a % o : ℕ) * PI / o = z at *
    generalize ((a / o : ℕ) : ℝ) * (Real.pi - PI) = d at *
    generalize PI / o = s at *
    have e1 : (1 : ℝ) / 10 ^ 18 ≤ 1 / (4 * 10 ^ 9) := by norm_num
    have e2 : (1 : ℝ) / 10 ^ 34 ≤ 1 / (4 * 10 ^ 9) / 2 := by norm_num
    have e3 : (1 : ℝ) / (4 * 10 ^ 9) + 1 / (4 * 10 ^ 9) = 1 / (2 * 10 ^ 9) := by norm_num
    have dp : PI < Real.pi := PI_lt_pi
    refine le_trans ?_ (le_abs_self _)
    rcases le_total (z - d) (Real.pi / 2) with h | h
    · have := sin_half (x := z - d) (by linarith) h
      linarith
    · rw [← Real.sin_pi_sub]
      have := sin_half (x := Real.pi - (z - d)) (by linarith) (by linarith)
      linarith

/-- The cosines in `compute_acc_den` are not too small. -/
theorem cos_lower {a o : ℕ} (o0 : o % 2 = 1) (ho : o ≤ 2 ^ 32) (ha : a ≤ 100 * o) : 1 / 10 ^ 34 ≤ |Real.cos (a * PI / o)| := by
  have op : 0 < o := by omega
  rw [reduce op, Real.cos_add_nat_mul_pi, abs_mul, abs_pow, abs_neg, abs_one, one_pow, one_mul]
  obtain ⟨m0, m1⟩ := quot_small ha
  have hs := step_pos op ho
  obtain ⟨d0, d1⟩ := pi_sub_PI
  have o1 : (0 : ℝ) < o := by exact_mod_cast op
  have z0 : 0 ≤ (a % o : ℕ) * PI / o := by
    have := PI_pos
    positivity
  have z1 : (a % o : ℕ) * PI / o ≤ PI := by
    rw [div_le_iff₀ o1]
    have : ((a % o : ℕ) : ℝ) ≤ o := by exact_mod_cast (Nat.mod_lt a op).le
    nlinarith [PI_pos]
  have e1 : (1 : ℝ) / 10 ^ 18 ≤ 1 / (8 * 10 ^ 9) := by norm_num
  have e2 : (1 : ℝ) / 10 ^ 34 ≤ 1 / (16 * 10 ^ 9) / 2 := by norm_num
  have e3 : (1 : ℝ) / (2 * 10 ^ 9) / 2 - 1 / (8 * 10 ^ 9) = 1 / (8 * 10 ^ 9) := by norm_num
  have e4 : (1 : ℝ) / 10 ^ 20 ≤ 1 / (16 * 10 ^ 9) := by norm_num
  have e5 : (1 : ℝ) / (8 * 10 ^ 9) - 1 / (16 * 10 ^ 9) = 1 / (16 * 10 ^ 9) := by norm_num
  have e6 : (0 : ℝ) < 1 / (16 * 10 ^ 9) := by norm_num
  have dp : PI < Real.pi := PI_lt_pi
  rcases Nat.lt_or_ge (2 * (a % o)) o with h | h
  · have h' : (2 * ((a % o : ℕ) : ℝ) + 1) ≤ o := by exact_mod_cast h
    have z2 : (a % o : ℕ) * PI / o ≤ PI / 2 - PI / o / 2 := by
      rw [le_sub_iff_add_le, div_div, mul_comm (o : ℝ) 2, div_add_div _ _ o1.ne' (by positivity), div_le_div_iff₀ (by positivity) (by norm_num)]
      nlinarith [PI_pos, mul_pos o1 o1, mul_pos o1 PI_pos, mul_le_mul_of_nonneg_left h' (mul_pos o1 PI_pos).le]
    generalize (a % o : ℕ) * PI / o = z at *
    generalize ((a / o : ℕ) : ℝ) * (Real.pi - PI) = d at *
    generalize PI / o = s at *
    refine le_trans ?_ (le_abs_self _)
    rcases le_total 0 (z - d) with hy | hy
    · rw [← Real.sin_pi_div_two_sub]
      have := sin_half (x := Real.pi / 2 - (z - d)) (by linarith) (by linarith)
      linarith
    · have h1 := Real.one_sub_sq_div_two_le_cos (x := z - d)
      have h2 : (z - d) ^ 2 ≤ 1 := by nlinarith
      linarith [show (1 : ℝ) / 10 ^ 34 ≤ 1 / 2 by norm_num]
  · have h'' : o + 1 ≤ 2 * (a % o) := by omega
    have h' : (o : ℝ) + 1 ≤ 2 * ((a % o : ℕ) : ℝ) := by exact_mod_cast h''
    have z2 : PI / 2 + PI / o / 2 ≤ (a % o : ℕ) * PI / o := by
      rw [div_div, mul_comm (o : ℝ) 2, div_add_div _ _ (by norm_num) (by positivity), div_le_div_iff₀ (by positivity) o1]
      nlinarith [PI_pos, mul_pos o1 o1, mul_pos o1 PI_pos, mul_le_mul_of_nonneg_left h' (mul_pos o1 PI_pos).le]
    generalize (a % o : ℕ) * PI / o = z at *
    generalize ((a / o : ℕ) : ℝ) * (Real.pi - PI) = d at *
    generalize PI / o = s at *
    rw [← abs_neg]
    refine le_trans ?_ (le_abs_self _)
    rw [← Real.sin_sub_pi_div_two]
    have := sin_half (x := z - d - Real.pi / 2) (by linarith) (by linarith)
    linarith

/-- The `k` of the designer is at least the modulus of its `q`. -/
theorem modulus_nome {t : ℝ} (h0 : 0 < t) (h1 : t < 1 / 2) :
    (nome t ^ (0.25 : ℝ)) ^ 2 * rU (nome t) 0 ^ 2 ≤ kOf t * rT (nome t) 0 ^ 2 := by
  obtain ⟨k0, k1⟩ := kOf_bounds h0 h1
  obtain ⟨s0, s1⟩ := quarter_bounds k0 k1
  obtain ⟨e0, e1⟩ := eOf_bounds k0 k1
  obtain ⟨q0, q1⟩ := nome_bounds h0 h1
  have hm := modulus_le (q := nome t) e0 e1 (by unfold nome qOf; ring) q1
  have he : 2 * eOf (kOf t) * (1 + (1 - kOf t * kOf t) ^ (0.25 : ℝ)) = 1 - (1 - kOf t * kOf t) ^ (0.25 : ℝ) := by
    unfold eOf
    generalize (1 - kOf t * kOf t) ^ (0.25 : ℝ) = r at s0
    have : 1 + r ≠ 0 := by linarith
    field_simp
    norm_num
  have hr : ((1 - kOf t * kOf t) ^ (0.25 : ℝ)) ^ 4 = 1 - kOf t * kOf t := by
    rw [← Real.rpow_natCast, ← Real.rpow_mul (by nlinarith)]
    norm_num
  have hp : (nome t ^ (0.25 : ℝ)) ^ 4 = nome t := by
    rw [← Real.rpow_natCast, ← Real.rpow_mul q0.le]
    norm_num
  have h4 := theta_quart q0 (by linarith : nome t < 1)
  have hH := H_lower q0 q1
  obtain ⟨a0, -⟩ := rT_zero_bounds q0 q1
  generalize (1 - kOf t * kOf t) ^ (0.25 : ℝ) = r at *
  generalize kOf t = k at *
  generalize eOf k = e at *
  generalize nome t ^ (0.25 : ℝ) = p at *
  generalize nome t = q at *
  generalize rT q 0 = T at *
  generalize rT q Real.pi = H at *
  generalize rU q 0 = A at *
  have h5 : r * T ≤ H := by nlinarith
  have h6 : (r * T) ^ 4 ≤ H ^ 4 := pow_le_pow_left₀ (by positivity) h5 4
  have h7 : (p ^ 2 * A ^ 2) ^ 2 ≤ (k * T ^ 2) ^ 2 := by
    calc (p ^ 2 * A ^ 2) ^ 2 = p ^ 4 * A ^ 4 := by ring
      _ = T ^ 4 - H ^ 4 := by rw [hp, h4]
      _ ≤ T ^ 4 - (r * T) ^ 4 := by linarith
      _ = (k * T ^ 2) ^ 2 := by
        rw [mul_pow, hr]
        ring
  exact (le_abs_self _).trans (abs_le_of_sq_le_sq h7 (by positivity))

private theorem small_num {q : ℝ} (h0 : 0 < q) (h1 : q < 31 / 50) : q ^ (22 * 23) ≤ (1e-100 : ℝ) := by
  refine (pow_le_pow_left₀ h0.le h1.le _).trans ?_
  rw [show 22 * 23 = 2 * 253 from rfl, pow_mul]
  norm_num

/-- The numerator that is computed is close to the series. -/
theorem accNum_near (bld : Build) {q : ℝ} (q0 : 0 < q) (q1 : q < 31 / 50) {n c : ℕ} (hn : n ≤ 2 ^ 25) (c0 : 0 < c) (cn : c ≤ n) :
    ∃ N, computeAccNum bld q (n * 2 + 1) c = .ok N ∧ |N - ∑' i, sTerm q (c * PI / (n * 2 + 1)) i| ≤ 1 / 10 ^ 40 := by
  obtain ⟨m, hm, s1, -, e⟩ := accNum_ok bld (q := q) (order := n * 2 + 1) (c := c) (by omega) (by omega) (by omega) (N := 22) (by norm_num) (by omega)
    ((abs_numTerm_le q0.le _ _ _).trans (small_num q0 q1))
  refine ⟨_, e, ?_⟩
  have ht : ∀ i, numTerm q (n * 2 + 1) c i = sTerm q (c * PI / (n * 2 + 1)) i := fun i => by
    unfold numTerm sTerm
    push_cast
    rw [show ((i : ℝ) * 2 + 1) * c * PI / (n * 2 + 1) = (2 * i + 1) * (c * PI / (n * 2 + 1)) by ring]
    ring
  have hs := sin_lower (a := (2 * m + 1) * c) (o := 2 * n + 1) (by positivity) (by omega) (by omega) (by nlinarith)
  have hq : q ^ (m * (m + 1)) * (1 / 10 ^ 34) ≤ 1e-100 := by
    refine le_trans ?_ s1
    unfold numTerm
    rw [abs_mul, abs_mul, abs_of_nonneg (pow_nonneg q0.le _)]
    have h2 : |(((-1) ^ m : ℤ) : ℝ)| = 1 := by push_cast; rw [abs_pow, abs_neg, abs_one, one_pow]
    rw [h2, mul_one]
    refine mul_le_mul_of_nonneg_left ?_ (pow_nonneg q0.le _)
    refine hs.trans (le_of_eq ?_)
    congr 2
    push_cast
    ring
  rw [Finset.sum_congr rfl fun i _ => ht i, abs_sub_comm]
  refine (sTail q0.le (by linarith) _ (m + 1)).2.trans ?_
  rw [div_le_iff₀ (by linarith)]
  have h3 : q ^ ((m + 1) * (m + 1 + 1)) ≤ q ^ (m * (m + 1)) := pow_le_pow_of_le_one q0.le (by linarith) (by nlinarith)
  have h4 : q ^ (m * (m + 1)) ≤ 1 / 10 ^ 66 := by
    norm_num at hq ⊢
    linarith
  have h5 : (1 : ℝ) / 10 ^ 66 ≤ 1 / 10 ^ 40 * (1 - 31 / 50) := by norm_num
  have h6 : (1 : ℝ) / 10 ^ 40 * (1 - 31 / 50) ≤ 1 / 10 ^ 40 * (1 - q) := by gcongr
  linarith

/-- The denominator that is computed is close to the series. -/
theorem accDen_near (bld : Build) {q : ℝ} (q0 : 0 < q) (q1 : q < 31 / 50) {n c : ℕ} (hn : n ≤ 2 ^ 25) (c0 : 0 < c) (cn : c ≤ n) :
    ∃ D, computeAccDen bld q (n * 2 + 1) c = .ok D ∧ |D - ∑' i, cTerm q (c * PI / (n * 2 + 1)) i| ≤ 1 / 10 ^ 40 := by
  obtain ⟨m, hm, s1, -, e⟩ := accDen_ok bld (q := q) (order := n * 2 + 1) (c := c) (by omega) (by omega) (by omega) (N := 22) (by norm_num) (by omega)
    ((abs_denTerm_le q0.le _ _ _).trans ((pow_le_pow_of_le_one q0.le (by linarith) (by norm_num)).trans (small_num q0 q1)))
  refine ⟨_, e, ?_⟩
  have ht : ∀ i, denTerm q (n * 2 + 1) c i = cTerm q (c * PI / (n * 2 + 1)) i := fun i => by
    unfold denTerm cTerm
    push_cast
    rw [show ((i : ℝ) + 1) * 2 * c * PI / (n * 2 + 1) = 2 * (i + 1) * (c * PI / (n * 2 + 1)) by ring]
    ring
  have hs := cos_lower (a := (m + 1) * 2 * c) (o := 2 * n + 1) (by omega) (by omega) (by nlinarith)
  have hq : q ^ ((m + 1) * (m + 1)) * (1 / 10 ^ 34) ≤ 1e-100 := by
    refine le_trans ?_ s1
    unfold denTerm
    rw [abs_mul, abs_mul, abs_of_nonneg (pow_nonneg q0.le _)]
    have h2 : |((-(-1) ^ m : ℤ) : ℝ)| = 1 := by push_cast; rw [abs_neg, abs_pow, abs_neg, abs_one, one_pow]
    rw [h2, mul_one]
    refine mul_le_mul_of_nonneg_left ?_ (pow_nonneg q0.le _)
    refine hs.trans (le_of_eq ?_)
    congr 2
    push_cast
    ring
  rw [Finset.sum_congr rfl fun i _ => ht i, abs_sub_comm]
  refine (cTail q0.le (by linarith) _ (m + 1)).2.trans ?_
  rw [div_le_iff₀ (by linarith)]
  have h3 : q ^ ((m + 1 + 1) * (m + 1 + 1)) ≤ q ^ ((m + 1) * (m + 1)) := pow_le_pow_of_le_one q0.le (by linarith) (by nlinarith)
  have h4 : q ^ ((m + 1) * (m + 1)) ≤ 1 / 10 ^ 66 := by
    norm_num at hq ⊢
    linarith
  have h5 : (1 : ℝ) / 10 ^ 66 ≤ 1 / 10 ^ 40 * (1 - 31 / 50) := by norm_num
  have h6 : (1 : ℝ) / 10 ^ 40 * (1 - 31 / 50) ≤ 1 / 10 ^ 40 * (1 - q) := by gcongr
  linarith

/-- The last steps of `compute_coef` -/
private theorem finish {W k : ℝ} (W0 : 0 < W) (Wk : W < k) (k1 : k < 1) : 0 ≤ (1 - W * k) * (1 - W / k) ∧
    0 < Real.sqrt ((1 - W * k) * (1 - W / k)) / (1 + W) ∧ Real.sqrt ((1 - W * k) * (1 - W / k)) / (1 + W) < 1 := by
  have k0 : 0 < k := W0.trans Wk
  have a0 : 0 < 1 - W * k := by nlinarith
  have b0 : 0 < 1 - W / k := by
    rw [sub_pos, div_lt_one k0]
    exact Wk
  have p := mul_pos a0 b0
  refine ⟨p.le, div_pos (Real.sqrt_pos.mpr p) (by linarith), ?_⟩
  rw [div_lt_one (by linarith), Real.sqrt_lt' (by linarith)]
  have e : (1 - W * k) * (1 - W / k) = 1 - W * (k + 1 / k) + W ^ 2 := by
    field_simp
    ring
  rw [e]
  have : 0 < 1 / k := by positivity
  nlinarith [mul_pos W0 k0, mul_pos W0 this]

/-- Every coefficient lies between 0 and 1. -/
theorem computeCoef_range (bld : Build) {t : ℝ} (h0 : 0 < t) (h1 : t < 1 / 2) {n index : ℕ} (hn : n ≤ 2 ^ 25) (hi : index < n) :
    ∃ a, computeCoef bld index (kOf t) (nome t) (n * 2 + 1) = .ok a ∧ 0 < a ∧ a < 1 := by
  obtain ⟨k0, k1⟩ := kOf_bounds h0 h1
  obtain ⟨q0, q1⟩ := nome_bounds h0 h1
  obtain ⟨N, eN, hN⟩ := accNum_near bld q0 q1 (c := index + 1) hn (by omega) (by omega)
  obtain ⟨D, eD, hD⟩ := accDen_near bld q0 q1 (c := index + 1) hn (by omega) (by omega)
  push_cast at eN eD hN hD
  have hm := modulus_nome h0 h1
  have o1 : (0 : ℝ) < (n : ℝ) * 2 + 1 := by positivity
  have hst := step_pos (o := 2 * n + 1) (by omega) (by omega)
  push_cast at hst
  rw [show (2 : ℝ) * n + 1 = n * 2 + 1 by ring] at hst
  set u : ℝ := ((index : ℝ) + 1) * PI / (n * 2 + 1) with hu
  have hi' : (index : ℝ) + 1 ≤ n := by exact_mod_cast hi
  have u0 : PI / (n * 2 + 1) ≤ u := by
    rw [hu, div_le_div_iff_of_pos_right o1]
    nlinarith [PI_pos, (Nat.cast_nonneg index : (0 : ℝ) ≤ index)]
  have u1 : u ≤ PI / 2 - PI / (n * 2 + 1) / 2 := by
    rw [hu, le_sub_iff_add_le, div_div, mul_comm ((n : ℝ) * 2 + 1) 2, div_add_div _ _ o1.ne' (by positivity), div_le_div_iff₀ (by positivity) (by norm_num)]
    nlinarith [PI_pos, mul_pos o1 o1, mul_pos o1 PI_pos, mul_le_mul_of_nonneg_left hi' (mul_pos o1 PI_pos).le]
  have dp := PI_lt_pi
  have e1 : (1 : ℝ) / 10 ^ 10 ≤ 1 / (2 * 10 ^ 9) / 2 / 2 := by norm_num
  have hc : 1 / 10 ^ 10 ≤ Real.cos u := by
    rw [← Real.sin_pi_div_two_sub]
    have := sin_half (x := Real.pi / 2 - u) (by linarith [show (0 : ℝ) < 1 / (2 * 10 ^ 9) by norm_num])
      (by linarith [show (0 : ℝ) < 1 / (2 * 10 ^ 9) by norm_num])
    linarith
  have hs : 1 / 10 ^ 10 ≤ Real.sin u := by
    have := sin_half (x := u) (by linarith [show (0 : ℝ) < 1 / (2 * 10 ^ 9) by norm_num])
      (by linarith [show (0 : ℝ) < 1 / (2 * 10 ^ 9) by norm_num])
    have e2 : (1 : ℝ) / 10 ^ 10 ≤ 1 / (2 * 10 ^ 9) / 2 := by norm_num
    linarith
  have hS := S_lower q0 q1 (v := u) (by linarith [show (0 : ℝ) < 1 / 10 ^ 10 by norm_num])
  have N0 : 0 < N := by
    have := (abs_le.mp hN).1
    have e2 : (1 : ℝ) / 10 ^ 40 < 1 / 10 ^ 10 / 20 := by norm_num
    linarith
  have hr := ratio_lt q0 q1 hc hN (D := D + 0.5) (by
    rw [show D + 0.5 - (1 / 2 + ∑' i, cTerm (nome t) u i) = D - ∑' i, cTerm (nome t) u i by norm_num; ring]
    exact hD)
  obtain ⟨a0, -⟩ := rT_zero_bounds q0 q1
  have D0 : D + 0.5 ≠ 0 := by
    intro h
    rw [h] at hr
    nlinarith [mul_nonneg (sq_nonneg (rT (nome t) 0)) (sq_nonneg N)]
  have p0 : 0 < nome t ^ (0.25 : ℝ) := Real.rpow_pos_of_pos q0 _
  set p := nome t ^ (0.25 : ℝ) with hp
  set ww := N * p / (D + 0.5) with hww
  have W0 : 0 < ww * ww := by
    have : ww ≠ 0 := div_ne_zero (mul_pos N0 p0).ne' D0
    exact mul_self_pos.mpr this
  have Wk : ww * ww < kOf t := by
    rw [hww, div_mul_div_comm, div_lt_iff₀ (mul_self_pos.mpr D0)]
    have i1 : p ^ 2 * (rT (nome t) 0 ^ 2 * N ^ 2) < p ^ 2 * (rU (nome t) 0 ^ 2 * (D + 0.5) ^ 2) := by gcongr
    have i2 : p ^ 2 * rU (nome t) 0 ^ 2 * (D + 0.5) ^ 2 ≤ kOf t * rT (nome t) 0 ^ 2 * (D + 0.5) ^ 2 := by gcongr
    have i3 : rT (nome t) 0 ^ 2 * (N * p * (N * p)) < rT (nome t) 0 ^ 2 * (kOf t * ((D + 0.5) * (D + 0.5))) := by nlinarith
    exact lt_of_mul_lt_mul_left i3 (sq_nonneg _)
  obtain ⟨r0, x0, x1⟩ := finish W0 Wk k1
  set x := Real.sqrt ((1 - ww * ww * kOf t) * (1 - ww * ww / kOf t)) / (1 + ww * ww) with hx
  have d1 : 1 + ww * ww ≠ 0 := (by linarith : (0 : ℝ) < 1 + ww * ww).ne'
  have d2 : 1 + x ≠ 0 := (by linarith : (0 : ℝ) < 1 + x).ne'
  refine ⟨(1 - x) / (1 + x), ?_, div_pos (by linarith) (by linarith), (div_lt_one (by linarith)).mpr (by linarith)⟩
  unfold computeCoef
  rw [assertP_ok (by omega), ok_bind, assertP_ok (by omega), ok_bind]
  simp only
  rw [eN, ok_bind, powR_ok q0.le, ok_bind, eD, ok_bind, divR_ok D0, ok_bind, divR_ok k0.ne', ok_bind, sqrtR_ok r0, ok_bind,
    divR_ok d1, ok_bind, divR_ok d2]

/-- Every filter of the designer has coefficients between 0 and 1. -/
theorem design_range (bld : Build) {t : ℝ} (h0 : 0 < t) (h1 : t < 1 / 2) {n : ℕ} (n0 : 0 < n) (hn : n ≤ 2 ^ 25) (arr : Buf ℝ)
    (hl : n ≤ arr.len) :
    ∃ arr', computeCoefsSpecOrderTbw bld arr n t = .ok arr' ∧ arr'.addr = arr.addr ∧ arr'.len = arr.len ∧
      (∀ i < n, 0 < arr'.get i ∧ arr'.get i < 1) ∧ ∀ i, n ≤ i → arr'.get i = arr.get i := by
  choose v hv using fun i : Fin n => computeCoef_range bld h0 h1 hn i.2
  obtain ⟨arr', e1, e2, e3, e4, e5⟩ := coefLoop_ok bld (k := kOf t) (q := nome t) (n := n)
    (v := fun i => if h : i < n then v ⟨i, h⟩ else 0) (fun i hi => by rw [dif_pos hi]; exact (hv ⟨i, hi⟩).1) arr hl
  refine ⟨arr', ?_, e2, e3, fun i hi => ?_, e5⟩
  · unfold computeCoefsSpecOrderTbw
    rw [assertP_ok (by exact_mod_cast n0), ok_bind, assertP_ok h0, ok_bind, assertP_ok (by norm_num; linarith), ok_bind,
      transition_ok bld h0 h1, ok_bind, int32_ok (by omega) (by omega), ok_bind]
    exact e1
  · rw [e4 i hi, dif_pos hi]
    exact (hv ⟨i, hi⟩).2

end Panda.Designer
