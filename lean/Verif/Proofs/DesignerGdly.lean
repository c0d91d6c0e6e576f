import Mathlib.Analysis.SpecialFunctions.Trigonometric.Bounds
import Mathlib.Topology.MetricSpace.Basic
import Mathlib.Order.Interval.Set.Infinite
import Verif.Proofs.Designer

/-! # Design by group delay: the bisection -/

namespace Panda.Designer

/-- Invariants of a loop. -/
theorem whileU_inv {σ : Type} {cond : σ → Bool} {body : σ → Res σ} {I : σ → Prop}
    (hI : ∀ s s', I s → cond s = true → body s = .ok s' → I s') {s s' : σ} (hs : I s) (h : whileU cond body s = .ok s') :
    I s' ∧ cond s' = false := by
  have h' : ∃ n, whileF cond body n s = .ok s' := by
    unfold whileU at h
    split at h
    · exact ⟨_, h⟩
    · cases h
  clear h
  obtain ⟨n, h⟩ := h'
  · induction n generalizing s with
    | zero =>
      unfold whileF at h
      split at h
      · cases h
      · rename_i hc
        cases h
        exact ⟨hs, by simpa using hc⟩
    | succ n ih =>
      unfold whileF at h
      split at h
      · rename_i hc
        cases hb : body s with
        | error e =>
          rw [hb] at h
          cases h
        | ok s1 =>
          rw [hb, ok_bind] at h
          exact ih (hI s s1 hs hc hb) h
      · rename_i hc
        cases h
        exact ⟨hs, by simpa using hc⟩

/-! ## The filter with one coefficient -/

theorem eOf_le_of_third {k : ℝ} (h0 : 0 < k) (h1 : k ≤ 1 / 3) : eOf k ≤ 77 / 10000 := by
  have h2 : (97 / 100 : ℝ) ≤ (1 - k * k) ^ (0.25 : ℝ) := by
    have : (97 / 100 : ℝ) = ((97 / 100) ^ (4 : ℕ)) ^ (0.25 : ℝ) := by
      rw [← Real.rpow_natCast, ← Real.rpow_mul (by norm_num)]
      norm_num
    rw [this]
    refine Real.rpow_le_rpow (by norm_num) ?_ (by norm_num)
    norm_num
    nlinarith
  unfold eOf
  rw [div_le_iff₀ (by linarith)]
  linarith

theorem eOf_le_sq {k : ℝ} (h0 : 0 < k) (h1 : k < 1) : eOf k ≤ k * k / 2 := by
  have h3 : 0 < 1 - k * k := by nlinarith
  have h2 : 1 - k * k ≤ (1 - k * k) ^ (0.25 : ℝ) := by
    conv_lhs => rw [← Real.rpow_one (1 - k * k)]
    exact Real.rpow_le_rpow_of_exponent_ge h3 (by nlinarith) (by norm_num)
  unfold eOf
  rw [div_le_iff₀ (by linarith)]
  nlinarith

/-- `k` in terms of `e`. -/
theorem k_sq {k : ℝ} (h0 : 0 < k) (h1 : k < 1) : k ^ 2 * (1 + 2 * eOf k) ^ 4 = 16 * eOf k * (1 + 4 * eOf k ^ 2) := by
  obtain ⟨s0, s1⟩ := quarter_bounds h0 h1
  have h4 : ((1 - k * k) ^ (0.25 : ℝ)) ^ 4 = 1 - k * k := by
    rw [← Real.rpow_natCast, ← Real.rpow_mul (by nlinarith)]
    norm_num
  unfold eOf
  generalize (1 - k * k) ^ (0.25 : ℝ) = s at s0 s1 h4
  have hk : k ^ 2 = 1 - s ^ 4 := by rw [h4]; ring
  rw [hk]
  have : 1 + s ≠ 0 := by linarith
  field_simp
  ring

theorem qOf_le {e : ℝ} (h0 : 0 < e) (h1 : e ≤ 77 / 10000) : e ≤ qOf e ∧ qOf e ≤ e * (1 + 1 / 10 ^ 6) := by
  refine ⟨(qOf_bounds h0 (by linarith)).1.le, ?_⟩
  have e2 : e * e ≤ 6 / 10 ^ 5 := by nlinarith
  have e20 : 0 < e * e := mul_pos h0 h0
  have e4 : e * e * (e * e) ≤ 36 / 10 ^ 10 := by nlinarith
  have e40 : 0 < e * e * (e * e) := mul_pos e20 e20
  unfold qOf
  generalize e * e * (e * e) = z at e4 e40
  have i1 : z * (2 + z * (15 + 150 * z)) ≤ 1 / 10 ^ 6 := by
    have : z * (15 + 150 * z) ≤ 1 := by nlinarith
    have : 0 < z * (15 + 150 * z) := by positivity
    generalize z * (15 + 150 * z) = y at *
    nlinarith
  exact mul_le_mul_of_nonneg_left (by linarith) h0.le

theorem sum_pow_le {q : ℝ} (h0 : 0 ≤ q) (h1 : q ≤ 1 / 2) (n : ℕ) : ∑ i ∈ Finset.range n, q ^ (i + 1) ≤ 2 * q := by
  have : ∀ n, ∑ i ∈ Finset.range n, q ^ (i + 1) ≤ 2 * q * (1 - (1 / 2) ^ n) := by
    intro n
    induction n with
    | zero => simp
    | succ n ih =>
      rw [Finset.sum_range_succ]
      have h2 : q ^ (n + 1) ≤ q * (1 / 2) ^ n := by
        rw [pow_succ']
        exact mul_le_mul_of_nonneg_left (pow_le_pow_left₀ h0 h1 n) h0
      rw [pow_succ ((1 : ℝ) / 2)]
      nlinarith
  refine (this n).trans ?_
  have : (0 : ℝ) ≤ (1 / 2) ^ n := by positivity
  nlinarith

theorem sin_PI_third : |Real.sin (PI / 3) - Real.sqrt 3 / 2| ≤ 1 / 10 ^ 10 := by
  rw [← Real.sin_pi_div_three]
  have h1 : |PI / 3 - Real.pi / 3| ≤ 1 / 10 ^ 10 := by
    rw [abs_le]
    have := PI_lt_pi
    have h2 := Real.pi_lt_d20
    have h3 : (3.14159265358979323846 : ℝ) < PI := by norm_num [PI]
    constructor <;> norm_num at * <;> linarith
  refine le_trans ?_ h1
  have := Real.lipschitzWith_sin.dist_le_mul (PI / 3) (Real.pi / 3)
  simpa [Real.dist_eq] using this

theorem sqrt3_bounds : 1.73205 ≤ Real.sqrt 3 ∧ Real.sqrt 3 ≤ 1.73206 := by
  constructor
  · exact Real.le_sqrt_of_sq_le (by norm_num)
  · rw [Real.sqrt_le_left (by norm_num)]
    norm_num

/-- The sums for order 3. -/
theorem acc1_ok (bld : Build) {q : ℝ} (h0 : 0 < q) (h1 : q ≤ 78 / 10000) :
    ∃ num den, computeAccNum bld q 3 1 = .ok num ∧ computeAccDen bld q 3 1 = .ok den ∧
      8658 / 10000 ≤ num ∧ num ≤ 867 / 1000 ∧ |den| ≤ 2 * q := by
  have hpow : ∀ m : ℕ, 48 ≤ m → q ^ m ≤ 1e-100 := by
    intro m hm
    calc q ^ m ≤ q ^ 48 := pow_le_pow_of_le_one h0.le (by linarith) hm
      _ ≤ (78 / 10000) ^ 48 := pow_le_pow_left₀ h0.le h1 _
      _ ≤ 1e-100 := by norm_num
  obtain ⟨n, -, -, -, hn⟩ := accNum_ok bld (q := q) (order := 3) (c := 1) (by norm_num) (by norm_num) (by norm_num) (N := 7) (by norm_num) (by norm_num)
    ((abs_numTerm_le h0.le _ _ _).trans (hpow _ (by norm_num)))
  obtain ⟨d, -, -, -, hd⟩ := accDen_ok bld (q := q) (order := 3) (c := 1) (by norm_num) (by norm_num) (by norm_num) (N := 6) (by norm_num) (by norm_num)
    ((abs_denTerm_le h0.le _ _ _).trans (hpow _ (by norm_num)))
  refine ⟨_, _, hn, hd, ?_⟩
  have hr : |∑ i ∈ Finset.range n, numTerm q 3 1 (i + 1)| ≤ 2 * (q * q) := by
    refine (Finset.abs_sum_le_sum_abs _ _).trans ?_
    refine (Finset.sum_le_sum fun i _ => ?_).trans (sum_pow_le (q := q * q) (by positivity) (by nlinarith) n)
    refine (abs_numTerm_le h0.le _ _ _).trans ?_
    rw [← pow_two, ← pow_mul]
    exact pow_le_pow_of_le_one h0.le (by linarith) (by nlinarith)
  have h00 : numTerm q 3 1 0 = Real.sin (PI / 3) := by
    simp [numTerm]
  rw [Finset.sum_range_succ', h00]
  have hs := sin_PI_third
  obtain ⟨r1, r2⟩ := sqrt3_bounds
  have hq2 : q * q ≤ 61 / 10 ^ 6 := by nlinarith
  rw [abs_le] at hr hs
  norm_num at r1 r2 hq2 hs
  refine ⟨by linarith, by linarith, ?_⟩
  refine (Finset.abs_sum_le_sum_abs _ _).trans ?_
  refine (Finset.sum_le_sum fun i _ => ?_).trans (sum_pow_le h0.le (by linarith) (d + 1))
  refine (abs_denTerm_le h0.le _ _ _).trans ?_
  exact pow_le_pow_of_le_one h0.le (by linarith) (by nlinarith)

/-- The coefficient of the filter with one coefficient. -/
theorem coef1_ok (bld : Build) {k : ℝ} (h0 : 0 < k) (h1 : k ≤ 1 / 3) : ∃ W, 0 ≤ W ∧ W < k ∧
    W ^ 2 * (1 / 2 - 2 * qOf (eOf k)) ^ 4 ≤ (867 / 1000) ^ 4 * qOf (eOf k) ∧
    (8658 / 10000) ^ 4 * qOf (eOf k) ≤ W ^ 2 * (1 / 2 + 2 * qOf (eOf k)) ^ 4 ∧
    computeCoef bld 0 k (qOf (eOf k)) 3 =
      .ok ((1 - Real.sqrt ((1 - W * k) * (1 - W / k)) / (1 + W)) / (1 + Real.sqrt ((1 - W * k) * (1 - W / k)) / (1 + W))) := by
  obtain ⟨e0, -⟩ := eOf_bounds h0 (by linarith)
  have e1 := eOf_le_of_third h0 h1
  have hk := k_sq h0 (by linarith)
  obtain ⟨q0, q1⟩ := qOf_le e0 e1
  generalize eOf k = e at *
  generalize qOf e = q at *
  have hq0 : 0 < q := by linarith
  have hq1 : q ≤ 78 / 10000 := by
    have : e * (1 + 1 / 10 ^ 6) ≤ 77 / 10000 * (1 + 1 / 10 ^ 6) := mul_le_mul_of_nonneg_right e1 (by norm_num)
    norm_num at this q1 ⊢
    linarith
  obtain ⟨num, den, hn, hd, n1, n2, d1⟩ := acc1_ok bld hq0 hq1
  rw [abs_le] at d1
  have hden : 0 < den + 0.5 := by norm_num; linarith
  set r := q ^ (0.25 : ℝ) with hr
  have hr0 : 0 < r := Real.rpow_pos_of_pos hq0 _
  have hr4 : r ^ 4 = q := by
    rw [hr, ← Real.rpow_natCast, ← Real.rpow_mul hq0.le]
    norm_num
  set W := num * r / (den + 0.5) * (num * r / (den + 0.5)) with hW
  have hW2 : W ^ 2 * (den + 0.5) ^ 4 = num ^ 4 * q := by
    rw [hW, ← hr4]
    field_simp
  have hW0 : 0 ≤ W := mul_self_nonneg _
  have b1 : W ^ 2 * (1 / 2 - 2 * q) ^ 4 ≤ (867 / 1000) ^ 4 * q := by
    calc W ^ 2 * (1 / 2 - 2 * q) ^ 4 ≤ W ^ 2 * (den + 0.5) ^ 4 :=
          mul_le_mul_of_nonneg_left (pow_le_pow_left₀ (by linarith) (by norm_num; linarith) 4) (sq_nonneg _)
      _ = num ^ 4 * q := hW2
      _ ≤ _ := mul_le_mul_of_nonneg_right (pow_le_pow_left₀ (by linarith) n2 4) hq0.le
  have b2 : (8658 / 10000) ^ 4 * q ≤ W ^ 2 * (1 / 2 + 2 * q) ^ 4 := by
    calc (8658 / 10000) ^ 4 * q ≤ num ^ 4 * q := mul_le_mul_of_nonneg_right (pow_le_pow_left₀ (by norm_num) n1 4) hq0.le
      _ = W ^ 2 * (den + 0.5) ^ 4 := hW2.symm
      _ ≤ _ := mul_le_mul_of_nonneg_left (pow_le_pow_left₀ hden.le (by norm_num; linarith) 4) (sq_nonneg _)
  have hWk : W < k := by
    refine lt_of_pow_lt_pow_left₀ 2 h0.le ?_
    have c1 : W ^ 2 * (55 / 1000) ≤ 566 / 1000 * e := by
      have : (55 / 1000 : ℝ) ≤ (1 / 2 - 2 * q) ^ 4 := by
        calc (55 / 1000 : ℝ) ≤ (4844 / 10000) ^ 4 := by norm_num
          _ ≤ _ := pow_le_pow_left₀ (by norm_num) (by linarith) 4
      have := mul_le_mul_of_nonneg_left this (sq_nonneg W)
      norm_num at b1 q1 ⊢
      linarith
    have c2 : 16 * e ≤ k ^ 2 * (107 / 100) := by
      have : (1 + 2 * e) ^ 4 ≤ 107 / 100 := by
        calc (1 + 2 * e) ^ 4 ≤ (1 + 2 * (77 / 10000)) ^ 4 := pow_le_pow_left₀ (by linarith) (by linarith) 4
          _ ≤ _ := by norm_num
      have := mul_le_mul_of_nonneg_left this (sq_nonneg k)
      have : 16 * e ≤ 16 * e * (1 + 4 * e ^ 2) := by nlinarith [sq_nonneg e]
      linarith
    linarith
  refine ⟨W, hW0, hWk, b1, b2, ?_⟩
  have f1 : 0 ≤ 1 - W * k := by nlinarith
  have f2 : 0 ≤ 1 - W / k := by
    rw [sub_nonneg, div_le_one h0]
    exact hWk.le
  have hx : 0 ≤ Real.sqrt ((1 - W * k) * (1 - W / k)) / (1 + W) := by positivity
  unfold computeCoef
  rw [assertP_ok (by norm_num), ok_bind, assertP_ok (by norm_num), ok_bind]
  simp only [zero_add]
  rw [hn, ok_bind, powR_ok hq0.le, ok_bind, hd, ok_bind, divR_ok hden.ne', ok_bind, ← hr]
  simp only [← hW]
  rw [divR_ok h0.ne', ok_bind, sqrtR_ok (mul_nonneg f1 f2), ok_bind, divR_ok (by linarith), ok_bind, divR_ok (by linarith)]

/-- `x` of `compute_coef` for one coefficient lies in `[0, 1]`. -/
theorem x_bounds {W k : ℝ} (h0 : 0 ≤ W) (hk : W < k) (h1 : k ≤ 1 / 3) :
    0 ≤ Real.sqrt ((1 - W * k) * (1 - W / k)) / (1 + W) ∧ Real.sqrt ((1 - W * k) * (1 - W / k)) / (1 + W) ≤ 1 ∧
    (Real.sqrt ((1 - W * k) * (1 - W / k)) / (1 + W)) ^ 2 * (1 + W) ^ 2 = (1 - W * k) * (1 - W / k) := by
  have k0 : 0 < k := by linarith
  have f1 : 0 ≤ 1 - W * k := by nlinarith
  have f2 : 0 ≤ 1 - W / k := by
    rw [sub_nonneg, div_le_one k0]
    exact hk.le
  have f3 : 0 ≤ W / k := by positivity
  have f4 : 0 ≤ W * k := by positivity
  refine ⟨by positivity, ?_, ?_⟩
  · rw [div_le_one (by linarith)]
    have : Real.sqrt ((1 - W * k) * (1 - W / k)) ≤ 1 := by
      rw [Real.sqrt_le_left (by norm_num)]
      nlinarith
    linarith
  · rw [div_pow, Real.sq_sqrt (mul_nonneg f1 f2)]
    field_simp

theorem coef1_delay (bld : Build) {x : ℝ} (h0 : 0 ≤ x) (h1 : x ≤ 1) : cellGroupDelay bld ((1 - x) / (1 + x)) 0 false = .ok (2 * x) := by
  have hp : (1 : ℝ) + x ≠ 0 := by linarith
  have ha : 0 ≤ (1 - x) / (1 + x) := div_nonneg (by linarith) (by linarith)
  have ha1 : (1 - x) / (1 + x) ≤ 1 := by
    rw [div_le_one (by linarith)]
    linarith
  have hden : (1 - x) / (1 + x) * ((1 - x) / (1 + x)) + 2 * ((1 - x) / (1 + x)) * Real.cos (2 * (2 * PI * 0)) + 1 ≠ 0 := by
    rw [mul_zero, mul_zero, Real.cos_zero]
    positivity
  unfold cellGroupDelay
  rw [assertP_ok ha, ok_bind, assertP_ok ha1, ok_bind, assertP_ok (le_refl 0), ok_bind, assertP_ok (by norm_num), ok_bind]
  simp only [Bool.false_eq_true, if_false]
  rw [divR_ok hden, mul_zero, mul_zero, Real.cos_zero]
  congr 1
  field_simp
  ring

theorem kOf_le_third {t : ℝ} (h0 : 1 / 6 ≤ t) (h1 : t < 1 / 2) : kOf t ≤ 1 / 3 := by
  have p0 := PI_pos
  have p1 := PI_lt_pi
  have a0 : 0 < (1 - t * 2) * PI / 4 := by
    have : 0 < (1 - t * 2) * PI := mul_pos (by linarith) p0
    linarith
  have a1 : (1 - t * 2) * PI / 4 ≤ Real.pi / 6 := by
    have : (1 - t * 2) * PI ≤ 2 / 3 * Real.pi := mul_le_mul (by linarith) p1.le p0.le (by norm_num)
    linarith
  have t0 := Real.tan_pos_of_pos_of_lt_pi_div_two a0 (by linarith [Real.pi_pos])
  have t1 : Real.tan ((1 - t * 2) * PI / 4) ≤ 1 / Real.sqrt 3 := by
    rw [← Real.tan_pi_div_six]
    rcases a1.eq_or_lt with h | h
    · rw [h]
    · exact (Real.tan_lt_tan_of_lt_of_lt_pi_div_two (by linarith [Real.pi_pos]) (by linarith [Real.pi_pos]) h).le
  unfold kOf
  calc _ ≤ 1 / Real.sqrt 3 * (1 / Real.sqrt 3) := mul_le_mul t1 t1 t0.le (by positivity)
    _ = 1 / 3 := by
      rw [div_mul_div_comm, Real.mul_self_sqrt (by norm_num)]
      norm_num

theorem design1 (bld : Build) {t : ℝ} (h0 : 1 / 6 ≤ t) (h1 : t < 1 / 2) : ∃ a x W : ℝ, 0 ≤ x ∧ x ≤ 1 ∧
    0 ≤ W ∧ W < kOf t ∧ x ^ 2 * (1 + W) ^ 2 = (1 - W * kOf t) * (1 - W / kOf t) ∧
    W ^ 2 * (1 / 2 - 2 * qOf (eOf (kOf t))) ^ 4 ≤ (867 / 1000) ^ 4 * qOf (eOf (kOf t)) ∧
    (8658 / 10000) ^ 4 * qOf (eOf (kOf t)) ≤ W ^ 2 * (1 / 2 + 2 * qOf (eOf (kOf t))) ^ 4 ∧
    (∀ arr : Buf ℝ, 0 < arr.len → computeCoefsSpecOrderTbw bld arr 1 t = .ok (arr.upd 0 a)) ∧
    (∀ arr : Buf ℝ, 0 < arr.len → computeGroupDelay bld (arr.upd 0 a) 1 0 false = .ok (2 * x)) := by
  obtain ⟨k0, k1⟩ := kOf_bounds (by linarith : 0 < t) h1
  have k3 := kOf_le_third h0 h1
  obtain ⟨W, hW0, hWk, b1, b2, hc⟩ := coef1_ok bld k0 k3
  obtain ⟨x0, x1, x2⟩ := x_bounds hW0 hWk k3
  generalize Real.sqrt ((1 - W * kOf t) * (1 - W / kOf t)) / (1 + W) = x at hc x0 x1 x2
  refine ⟨(1 - x) / (1 + x), x, W, x0, x1, hW0, hWk, x2, b1, b2, ?_, ?_⟩
  · intro arr harr
    unfold computeCoefsSpecOrderTbw
    rw [assertP_ok (by norm_num), ok_bind, assertP_ok (by linarith), ok_bind, assertP_ok (by norm_num; linarith), ok_bind,
      transition_ok bld (by linarith) h1, ok_bind]
    show (pure arr >>= fun arr => computeCoef bld ((0 : ℕ) : ℤ) (kOf t) (qOf (eOf (kOf t))) (1 * 2 + 1) >>= fun c => arr.wr 0 c) = _
    rw [pure_bind', Nat.cast_zero, show (1 * 2 + 1 : ℤ) = 3 by norm_num, hc, ok_bind, Buf.wr, if_pos harr]
  · intro arr harr
    unfold computeGroupDelay
    rw [assertP_ok (by norm_num), ok_bind, assertP_ok (le_refl 0), ok_bind, assertP_ok (by norm_num), ok_bind]
    show (pure 0 >>= fun d => (arr.upd 0 _).rd 0 >>= fun c => cellGroupDelay bld c 0 false >>= fun y => pure (d + y)) = _
    rw [pure_bind', Buf.rd, if_pos (by exact harr), ok_bind]
    have : (arr.upd 0 ((1 - x) / (1 + x))).get 0 = (1 - x) / (1 + x) := by simp [Buf.upd]
    rw [this, coef1_delay bld x0 x1, ok_bind, zero_add]
    rfl

theorem kOf_sixth : 3333 / 10000 ≤ kOf (1 / 6) := by
  have e : (1 - 1 / 6 * 2) * PI / 4 = PI / 6 := by ring
  unfold kOf
  rw [e]
  have h1 : |PI / 6 - Real.pi / 6| ≤ 1 / 10 ^ 10 := by
    rw [abs_le]
    have := PI_lt_pi
    have h2 := Real.pi_lt_d20
    have h3 : (3.14159265358979323846 : ℝ) < PI := by norm_num [PI]
    constructor <;> norm_num at * <;> linarith
  have hs : |Real.sin (PI / 6) - 1 / 2| ≤ 1 / 10 ^ 10 := by
    rw [← Real.sin_pi_div_six]
    refine le_trans ?_ h1
    have := Real.lipschitzWith_sin.dist_le_mul (PI / 6) (Real.pi / 6)
    simpa [Real.dist_eq] using this
  have hc : |Real.cos (PI / 6) - Real.sqrt 3 / 2| ≤ 1 / 10 ^ 10 := by
    rw [← Real.cos_pi_div_six]
    refine le_trans ?_ h1
    have := Real.lipschitzWith_cos.dist_le_mul (PI / 6) (Real.pi / 6)
    simpa [Real.dist_eq] using this
  obtain ⟨r1, r2⟩ := sqrt3_bounds
  rw [abs_le] at hs hc
  norm_num at hs hc r1 r2
  have c0 : 0 < Real.cos (PI / 6) := by linarith
  have s0 : 0 < Real.sin (PI / 6) := by linarith
  have ht : 57734 / 100000 ≤ Real.tan (PI / 6) := by
    rw [Real.tan_eq_sin_div_cos, le_div_iff₀ c0]
    linarith
  nlinarith

theorem kOf_large : kOf (9 / 20) ≤ 1 / 100 := by
  have e : (1 - 9 / 20 * 2) * PI / 4 = PI / 40 := by ring
  unfold kOf
  rw [e]
  have p0 := PI_pos
  have p1 : PI ≤ 3.1416 := by norm_num [PI]
  norm_num at p1
  have hs : Real.sin (PI / 40) ≤ PI / 40 := Real.sin_le (by linarith)
  have hs0 : 0 < Real.sin (PI / 40) := Real.sin_pos_of_pos_of_lt_pi (by linarith) (by linarith [Real.pi_gt_three])
  have hc := Real.one_sub_sq_div_two_le_cos (x := PI / 40)
  have hc1 : 9 / 10 ≤ Real.cos (PI / 40) := by nlinarith
  have ht : Real.tan (PI / 40) ≤ 1 / 10 := by
    rw [Real.tan_eq_sin_div_cos, div_le_iff₀ (by linarith)]
    linarith
  have ht0 : 0 < Real.tan (PI / 40) := by
    rw [Real.tan_eq_sin_div_cos]
    exact div_pos hs0 (by linarith)
  nlinarith

theorem delay_low {x W k q e : ℝ} (hW : 0 ≤ W) (hWk : W < k) (k1 : 3333 / 10000 ≤ k) (k2 : k ≤ 1 / 3) (he : k ^ 2 / 16 ≤ e)
    (hq : e ≤ q) (hq1 : q ≤ 78 / 10000) (hx : x ^ 2 * (1 + W) ^ 2 = (1 - W * k) * (1 - W / k))
    (hb : (8658 / 10000) ^ 4 * q ≤ W ^ 2 * (1 / 2 + 2 * q) ^ 4) : x ≤ 45 / 100 := by
  have c1 : (1 / 2 + 2 * q) ^ 4 ≤ 71 / 1000 := by
    calc (1 / 2 + 2 * q) ^ 4 ≤ (1 / 2 + 2 * (78 / 10000)) ^ 4 := pow_le_pow_left₀ (by nlinarith) (by linarith) 4
      _ ≤ _ := by norm_num
  have c2 := mul_le_mul_of_nonneg_left c1 (sq_nonneg W)
  have c3 : 694 / 100000 ≤ q := by nlinarith
  have c4 : (234 / 1000) ^ 2 ≤ W ^ 2 := by
    norm_num at hb ⊢
    linarith
  have c5 : 234 / 1000 ≤ W := by
    by_contra hcon
    nlinarith
  have c6 : 702 / 1000 ≤ W / k := by
    rw [le_div_iff₀ (by linarith)]
    linarith
  have c7 : W / k < 1 := by
    rw [div_lt_one (by linarith)]
    exact hWk
  have c8 : (1 - W * k) * (1 - W / k) ≤ 1 * (298 / 1000) :=
    mul_le_mul (by nlinarith) (by linarith) (by linarith) (by norm_num)
  have c9 : (1234 / 1000) ^ 2 ≤ (1 + W) ^ 2 := pow_le_pow_left₀ (by norm_num) (by linarith) 2
  by_contra hcon
  have : (45 / 100) ^ 2 < x ^ 2 := pow_lt_pow_left₀ (not_le.mp hcon) (by norm_num) (by norm_num)
  have := mul_le_mul this.le c9 (by norm_num) (sq_nonneg x)
  norm_num at this c8
  linarith

theorem delay_high {x W k q e : ℝ} (h0 : 0 ≤ x) (hW : 0 ≤ W) (hWk : W < k) (k2 : k ≤ 1 / 100) (he0 : 0 < e) (he : e ≤ k * k / 2)
    (hk : k ^ 2 * (1 + 2 * e) ^ 4 = 16 * e * (1 + 4 * e ^ 2))
    (hq1 : q ≤ e * (1 + 1 / 10 ^ 6)) (hx : x ^ 2 * (1 + W) ^ 2 = (1 - W * k) * (1 - W / k))
    (hb : W ^ 2 * (1 / 2 - 2 * q) ^ 4 ≤ (867 / 1000) ^ 4 * q) : 46 / 100 ≤ x := by
  have k0 : 0 < k := by linarith
  have e1 : e ≤ 5 / 10 ^ 5 := by nlinarith
  have q1 : q ≤ 51 / 10 ^ 6 := by norm_num at *; linarith
  have c1 : (623 / 10000 : ℝ) ≤ (1 / 2 - 2 * q) ^ 4 := by
    calc (623 / 10000 : ℝ) ≤ (4998 / 10000) ^ 4 := by norm_num
      _ ≤ _ := pow_le_pow_left₀ (by norm_num) (by linarith) 4
  have c2 := mul_le_mul_of_nonneg_left c1 (sq_nonneg W)
  have c3 : W ^ 2 ≤ 91 / 10 * e := by
    norm_num at hb hq1 c2
    linarith
  have c4 : 15 * e ≤ k ^ 2 := by
    have : (1 + 2 * e) ^ 4 ≤ 16 / 15 := by
      calc (1 + 2 * e) ^ 4 ≤ (1 + 2 * (5 / 10 ^ 5)) ^ 4 := pow_le_pow_left₀ (by linarith) (by linarith) 4
        _ ≤ _ := by norm_num
    have := mul_le_mul_of_nonneg_left this (sq_nonneg k)
    have : 16 * e ≤ 16 * e * (1 + 4 * e ^ 2) := by nlinarith [sq_nonneg e]
    linarith
  have c5 : W / k ≤ 78 / 100 := by
    rw [div_le_iff₀ k0]
    by_contra hcon
    have : (78 / 100 * k) ^ 2 < W ^ 2 := pow_lt_pow_left₀ (not_le.mp hcon) (by positivity) (by norm_num)
    nlinarith
  have c6 : W * k ≤ 1 / 10000 := by nlinarith
  have c7 : 9999 / 10000 * (22 / 100) ≤ (1 - W * k) * (1 - W / k) := mul_le_mul (by linarith) (by linarith) (by norm_num) (by linarith)
  have c8 : (1 + W) ^ 2 ≤ (101 / 100) ^ 2 := pow_le_pow_left₀ (by linarith) (by linarith) 2
  by_contra hcon
  have : x ^ 2 ≤ (46 / 100) ^ 2 := pow_le_pow_left₀ h0 (not_le.mp hcon).le 2
  have := mul_le_mul this c8 (sq_nonneg _) (by norm_num)
  norm_num at this c7
  linarith

/-- Group delays of the filters with one coefficient are different. -/
theorem delays_differ {x W x' W' : ℝ} (h0' : 0 ≤ x')
    (hW : 0 ≤ W) (hWk : W < kOf (1 / 6)) (hx : x ^ 2 * (1 + W) ^ 2 = (1 - W * kOf (1 / 6)) * (1 - W / kOf (1 / 6)))
    (hb : (8658 / 10000) ^ 4 * qOf (eOf (kOf (1 / 6))) ≤ W ^ 2 * (1 / 2 + 2 * qOf (eOf (kOf (1 / 6)))) ^ 4)
    (hW' : 0 ≤ W') (hWk' : W' < kOf (9 / 20)) (hx' : x' ^ 2 * (1 + W') ^ 2 = (1 - W' * kOf (9 / 20)) * (1 - W' / kOf (9 / 20)))
    (hb' : W' ^ 2 * (1 / 2 - 2 * qOf (eOf (kOf (9 / 20)))) ^ 4 ≤ (867 / 1000) ^ 4 * qOf (eOf (kOf (9 / 20)))) : x < x' := by
  have l : x ≤ 45 / 100 := by
    obtain ⟨k0, k1⟩ := kOf_bounds (by norm_num : (0 : ℝ) < 1 / 6) (by norm_num)
    have k3 := kOf_le_third (le_refl (1 / 6)) (by norm_num)
    obtain ⟨e0, -⟩ := eOf_bounds k0 k1
    have e1 := eOf_le_of_third k0 k3
    obtain ⟨q0, q1⟩ := qOf_le e0 e1
    have hk := k_sq k0 k1
    refine delay_low hW hWk kOf_sixth k3 (e := eOf (kOf (1 / 6))) ?_ q0 ?_ hx hb
    · generalize eOf (kOf (1 / 6)) = e at *
      have h1 : 1 + 4 * e ^ 2 ≤ (1 + 2 * e) ^ 4 := by
        have : (1 + 2 * e) ^ 4 = 1 + 8 * e + 24 * e ^ 2 + 32 * e ^ 3 + 16 * e ^ 4 := by ring
        rw [this]
        have : 0 ≤ 20 * e ^ 2 + 32 * e ^ 3 + 16 * e ^ 4 := by positivity
        linarith
      have h2 : 0 < (1 + 2 * e) ^ 4 := by positivity
      have h3 : kOf (1 / 6) ^ 2 * (1 + 2 * e) ^ 4 ≤ 16 * e * (1 + 2 * e) ^ 4 := by
        rw [hk]
        exact mul_le_mul_of_nonneg_left h1 (by linarith)
      have := le_of_mul_le_mul_right h3 h2
      linarith
    · have : eOf (kOf (1 / 6)) * (1 + 1 / 10 ^ 6) ≤ 77 / 10000 * (1 + 1 / 10 ^ 6) := mul_le_mul_of_nonneg_right e1 (by norm_num)
      norm_num at this q1 ⊢
      linarith
  have r : 46 / 100 ≤ x' := by
    obtain ⟨k0, k1⟩ := kOf_bounds (by norm_num : (0 : ℝ) < 9 / 20) (by norm_num)
    have k3 := kOf_le_third (by norm_num : (1 / 6 : ℝ) ≤ 9 / 20) (by norm_num)
    obtain ⟨e0, -⟩ := eOf_bounds k0 k1
    have e1 := eOf_le_of_third k0 k3
    obtain ⟨q0, q1⟩ := qOf_le e0 e1
    exact delay_high h0' hW' hWk' kOf_large e0 (eOf_le_sq k0 k1) (k_sq k0 k1) q1 hx' hb'
  linarith

/-! ## The bisection -/

/-- A point of the bisection. -/
noncomputable def point (a b : ℝ) (m j : ℕ) : ℝ := a + (b - a) * (j / 2 ^ m)

theorem point_mid (a b : ℝ) (m j : ℕ) : (point a b m (j + 1) + point a b m j) * 0.5 = point a b (m + 1) (2 * j + 1) := by
  unfold point
  rw [pow_succ]
  push_cast
  norm_num
  field_simp
  ring

theorem point_double (a b : ℝ) (m j : ℕ) : point a b (m + 1) (2 * j) = point a b m j := by
  unfold point
  rw [pow_succ]
  push_cast
  congr 2
  field_simp

theorem point_mem {a b : ℝ} (h : a ≤ b) {m j : ℕ} (hj : j ≤ 2 ^ m) : a ≤ point a b m j ∧ point a b m j ≤ b := by
  have h1 : (j : ℝ) / 2 ^ m ≤ 1 := by
    rw [div_le_one (by positivity)]
    exact_mod_cast hj
  have h0 : (0 : ℝ) ≤ j / 2 ^ m := by positivity
  unfold point
  constructor <;> nlinarith

/-- Points up to a depth. -/
def points (a b : ℝ) (d : ℕ) : Set ℝ := {x | ∃ m ≤ d, ∃ j ≤ 2 ^ m, x = point a b m j}

theorem points_finite (a b : ℝ) (d : ℕ) : (points a b d).Finite := by
  refine ((((Finset.range (d + 1)) ×ˢ (Finset.range (2 ^ d + 1))).image fun p => point a b p.1 p.2).finite_toSet).subset ?_
  rintro x ⟨m, hm, j, hj, rfl⟩
  simp only [Finset.coe_image, Set.mem_image, Finset.mem_coe, Finset.mem_product, Finset.mem_range, Prod.exists]
  exact ⟨m, j, ⟨by omega, by have := Nat.pow_le_pow_right (by norm_num : 0 < 2) hm; omega⟩, rfl⟩

theorem exists_gap {S : Set ℝ} (hS : S.Finite) {g : ℝ} (hg : g ∉ S) : ∃ ε > 0, ∀ s ∈ S, ε < |s - g| := by
  have hc : Sᶜ ∈ nhds g := hS.isClosed.isOpen_compl.mem_nhds hg
  obtain ⟨ε, h0, hε⟩ := Metric.mem_nhds_iff.mp hc
  refine ⟨ε / 2, by linarith, fun s hs => ?_⟩
  by_contra hcon
  have : s ∈ Metric.ball g ε := by
    rw [Metric.mem_ball, Real.dist_eq]
    linarith
  exact hε this hs

/-- Group delays exist for which the bisection never converges: it ends after 1000 steps, and the result code is OK. -/
theorem gdly_no_conv (bld : Build) (stack1 stack2 : ℕ → ℝ) (arr : Buf ℝ) (hlen : 0 < arr.len) :
    ∃ g prec lb ub : ℝ, 0 < g ∧ 0 < prec ∧ 0 < lb ∧ lb < ub ∧ ∃ (r : GdlyResult) (gd : ℝ),
      computeCoefsSpecOrderGdly bld stack1 stack2 arr 1 g 0 prec lb ub (1 / 6) (9 / 20) = .ok r ∧ r.code = .ok ∧
      computeGroupDelay bld r.coefArr 1 0 false = .ok gd ∧ prec < |gd - g| := by
  classical
  obtain ⟨a, x, hax⟩ : ∃ a x : ℝ → ℝ, ∀ t, 1 / 6 ≤ t → t ≤ 9 / 20 → 0 ≤ x t ∧
      (∀ arr : Buf ℝ, 0 < arr.len → computeCoefsSpecOrderTbw bld arr 1 t = .ok (arr.upd 0 (a t))) ∧
      (∀ arr : Buf ℝ, 0 < arr.len → computeGroupDelay bld (arr.upd 0 (a t)) 1 0 false = .ok (2 * x t)) ∧
      x (1 / 6) < x (9 / 20) := by
    obtain ⟨a1, x1, W1, p1, -, p2, p3, p4, -, p6, p7, p8⟩ := design1 bld (le_refl (1 / 6)) (by norm_num)
    obtain ⟨a2, x2, W2, r1, -, r2, r3, r4, r5, -, r7, r8⟩ := design1 bld (by norm_num : (1 / 6 : ℝ) ≤ 9 / 20) (by norm_num)
    have hlt := delays_differ r1 p2 p3 p4 p6 r2 r3 r4 r5
    have : ∀ t : ℝ, ∃ a x : ℝ, 1 / 6 ≤ t → t ≤ 9 / 20 → 0 ≤ x ∧
        (∀ arr : Buf ℝ, 0 < arr.len → computeCoefsSpecOrderTbw bld arr 1 t = .ok (arr.upd 0 a)) ∧
        (∀ arr : Buf ℝ, 0 < arr.len → computeGroupDelay bld (arr.upd 0 a) 1 0 false = .ok (2 * x)) := by
      intro t
      by_cases h : 1 / 6 ≤ t ∧ t ≤ 9 / 20
      · obtain ⟨a, x, _, h0, -, -, -, -, -, -, h1, h2⟩ := design1 bld h.1 (lt_of_le_of_lt h.2 (by norm_num))
        exact ⟨a, x, fun _ _ => ⟨h0, h1, h2⟩⟩
      · exact ⟨0, 0, fun h1 h2 => absurd ⟨h1, h2⟩ h⟩
    choose a x hax using this
    refine ⟨fun t => if t = 1 / 6 then a1 else if t = 9 / 20 then a2 else a t,
      fun t => if t = 1 / 6 then x1 else if t = 9 / 20 then x2 else x t, fun t t0 t1 => ?_⟩
    have hne : ((9 : ℝ) / 20) ≠ 1 / 6 := by norm_num
    by_cases e1 : t = 1 / 6
    · subst e1
      simp only [if_true, if_neg hne]
      exact ⟨p1, p7, p8, hlt⟩
    · by_cases e2 : t = 9 / 20
      · subst e2
        simp only [if_true, if_neg hne]
        exact ⟨r1, r7, r8, hlt⟩
      · simp only [if_true, if_neg hne, if_neg e1, if_neg e2]
        obtain ⟨q1, q2, q3⟩ := hax t t0 t1
        exact ⟨q1, q2, q3, hlt⟩
  obtain ⟨l0, l1, l2, hlt⟩ := hax (1 / 6) le_rfl (by norm_num)
  obtain ⟨u0, u1, u2, -⟩ := hax (9 / 20) (by norm_num) le_rfl
  have hfin := (points_finite (1 / 6) (9 / 20) 1000).image fun t => 2 * x t
  obtain ⟨g, ⟨hg1, hg2⟩, hg⟩ := ((Set.Ioo_infinite (by linarith : 2 * x (1 / 6) < 2 * x (9 / 20))).sdiff hfin).nonempty
  obtain ⟨prec, hp, hprec⟩ := exists_gap hfin hg
  have hpt : ∀ t ∈ points (1 / 6) (9 / 20) 1000, prec < |2 * x t - g| := fun t ht => hprec _ ⟨t, ht, rfl⟩
  let A : ℝ → ℝ := fun t => attenOf (nome t) (1 * 2 + 1)
  let I : ℕ → Bisect → Prop := fun m s => s.nbrIt = m ∧ 0 < s.coefArr.len ∧
    ∃ j < 2 ^ m, s.lbTbw = point (1 / 6) (9 / 20) m j ∧ s.ubTbw = point (1 / 6) (9 / 20) m (j + 1)
  let J : Bisect → Prop := fun s => s.convFlag = true ∧ s.rsTbw ∈ points (1 / 6) (9 / 20) 1000 ∧ s.rsAttn = A s.rsTbw ∧
    s.rsGdly = 2 * x s.rsTbw ∧ computeGroupDelay bld s.coefArr 1 0 false = .ok (2 * x s.rsTbw)
  have hmem : ∀ t ∈ points (1 / 6) (9 / 20) 1000, 1 / 6 ≤ t ∧ t ≤ 9 / 20 := by
    rintro t ⟨m, -, j, hj, rfl⟩
    exact point_mem (by norm_num) hj
  have hbody : ∀ m < 1000, ∀ s, I m s → ∃ s', bisectBody bld 1 g 0 prec s = .ok s' ∧ I (m + 1) s' ∧ J s' := by
    rintro m hm s ⟨h1, h2, j, hj, h3, h4⟩
    have ht : (s.ubTbw + s.lbTbw) * 0.5 = point (1 / 6) (9 / 20) (m + 1) (2 * j + 1) := by rw [h3, h4, point_mid]
    have hin : point (1 / 6) (9 / 20) (m + 1) (2 * j + 1) ∈ points (1 / 6) (9 / 20) 1000 :=
      ⟨m + 1, hm, 2 * j + 1, by rw [pow_succ]; omega, rfl⟩
    unfold bisectBody
    rw [ht]
    generalize hT : point (1 / 6) (9 / 20) (m + 1) (2 * j + 1) = T at hin
    obtain ⟨T0, T1⟩ := hmem T hin
    obtain ⟨-, t1, t2, -⟩ := hax T T0 T1
    simp only
    rw [attenTbw_ok bld (by linarith) (lt_of_le_of_lt T1 (by norm_num)) (by norm_num : (0 : ℤ) < 1) (by norm_num), ok_bind, t1 _ h2, ok_bind,
      t2 _ h2, ok_bind]
    refine ⟨_, rfl, ⟨?_, ?_, ?_⟩, ⟨?_, hin, rfl, rfl, ?_⟩⟩
    · simp [h1]
    · exact h2
    · by_cases hup : (g - s.lbGdly) * (g - 2 * x T) < 0
      · refine ⟨2 * j, by rw [pow_succ]; omega, ?_, ?_⟩
        · simp only [if_pos hup]
          rw [point_double, h3]
        · simp only [if_pos hup]
          exact hT.symm
      · refine ⟨2 * j + 1, by rw [pow_succ]; omega, ?_, ?_⟩
        · simp only [if_neg hup]
          exact hT.symm
        · simp only [if_neg hup]
          rw [h4, show 2 * j + 1 + 1 = 2 * (j + 1) by ring, point_double]
    · simp only [gt_iff_lt, decide_eq_true_eq]
      exact hpt T hin
    · exact t2 _ h2
  have hloop : ∀ d m, m + d = 1000 → ∀ s, I m s → J s →
      ∃ s', whileU (fun s : Bisect => s.convFlag && decide (s.nbrIt < 1000)) (bisectBody bld 1 g 0 prec) s = .ok s' ∧ I 1000 s' ∧ J s' := by
    intro d
    induction d with
    | zero =>
      intro m hm s hI hJ
      obtain rfl : m = 1000 := by omega
      rw [whileU_step]
      refine ⟨s, ?_, hI, hJ⟩
      rw [if_neg]
      · rfl
      · simp [hI.1]
    | succ d ih =>
      intro m hm s hI hJ
      rw [whileU_step]
      rw [if_pos (by simp [hI.1, hJ.1]; omega)]
      obtain ⟨s', hs', hI', hJ'⟩ := hbody m (by omega) s hI
      rw [hs', ok_bind]
      exact ih (m + 1) (by omega) s' hI' hJ'
  obtain ⟨s1, hs1, hI1, hJ1⟩ := hbody 0 (by norm_num) ⟨arr, 1 / 6, 9 / 20, 2 * x (1 / 6), 0, 0, 0, 0, false⟩
    ⟨rfl, hlen, 0, by norm_num, by simp [point], by simp [point]⟩
  obtain ⟨s2, hs2, hI2, hJ2⟩ := hloop 999 1 rfl s1 hI1 hJ1
  obtain ⟨c1, c2, c3, c4, c5⟩ := hJ2
  obtain ⟨T0, T1⟩ := hmem _ c2
  have hA : 0 < s2.rsAttn := by
    rw [c3]
    exact (atten_ok bld (nome_bounds (by linarith) (lt_of_le_of_lt T1 (by norm_num))).1 (by norm_num) (by norm_num)).2
  refine ⟨g, prec, s2.rsAttn / 2, 2 * s2.rsAttn, by linarith, hp, by linarith, by linarith,
    ⟨.ok, s2.coefArr, some (s2.rsAttn, s2.rsTbw)⟩, 2 * x s2.rsTbw, ?_, rfl, c5, hpt _ c2⟩
  unfold computeCoefsSpecOrderGdly
  rw [assertP_ok (by norm_num), ok_bind, assertP_ok (by norm_num), ok_bind, assertP_ok (by linarith), ok_bind, assertP_ok (by norm_num),
    ok_bind, assertP_ok (by norm_num), ok_bind, assertP_ok hp, ok_bind, assertP_ok (by linarith), ok_bind, assertP_ok (by linarith),
    ok_bind, assertP_ok (by norm_num), ok_bind, assertP_ok (by norm_num), ok_bind, assertP_ok (by norm_num), ok_bind,
    u1 _ (by norm_num), ok_bind, l1 _ (by norm_num), ok_bind, u2 _ (by norm_num), ok_bind, l2 _ (by norm_num), ok_bind]
  have hpos : 0 < (2 * x (9 / 20) - g) * (g - 2 * x (1 / 6)) := mul_pos (by linarith) (by linarith)
  rw [if_neg (by linarith)]
  simp only [hs1, ok_bind, hs2]
  rw [if_neg (by simp [c1]), if_neg (by rintro (h | h) <;> linarith)]
  rfl

theorem bind_ok {α β : Type} {x : Res α} {f : α → Res β} {b : β} (h : (x >>= f) = .ok b) : ∃ a, x = .ok a ∧ f a = .ok b := by
  cases x with
  | error e => rw [err_bind] at h; exact absurd h (by simp)
  | ok a => exact ⟨a, rfl, h⟩

/-- One step of the bisection. -/
theorem bisectBody_spec {bld : Build} {n : ℤ} {g f prec lb ub : ℝ} {m : ℕ} {s s' : Bisect}
    (hI : s.nbrIt = m ∧ ∃ j < 2 ^ m, s.lbTbw = point lb ub m j ∧ s.ubTbw = point lb ub m (j + 1))
    (h : bisectBody bld n g f prec s = .ok s') :
    (s'.nbrIt = m + 1 ∧ ∃ j < 2 ^ (m + 1), s'.lbTbw = point lb ub (m + 1) j ∧ s'.ubTbw = point lb ub (m + 1) (j + 1)) ∧
    (∃ j, 0 < j ∧ j < 2 ^ (m + 1) ∧ s'.rsTbw = point lb ub (m + 1) j) ∧
    computeAttenFromOrderTbw bld n s'.rsTbw = .ok s'.rsAttn ∧
    (∃ arr', computeCoefsSpecOrderTbw bld arr' n s'.rsTbw = .ok s'.coefArr) ∧
    computeGroupDelay bld s'.coefArr n f false = .ok s'.rsGdly ∧ s'.convFlag = decide (prec < |s'.rsGdly - g|) := by
  obtain ⟨h1, j, hj, h3, h4⟩ := hI
  have ht : (s.ubTbw + s.lbTbw) * 0.5 = point lb ub (m + 1) (2 * j + 1) := by rw [h3, h4, point_mid]
  unfold bisectBody at h
  rw [ht] at h
  generalize hT : point lb ub (m + 1) (2 * j + 1) = T at h
  simp only at h
  obtain ⟨att, ha, h⟩ := bind_ok h
  obtain ⟨arr, hb, h⟩ := bind_ok h
  obtain ⟨gd, hg, h⟩ := bind_ok h
  obtain rfl := Except.ok.inj h
  have hlt : 2 * j + 1 < 2 ^ (m + 1) := by rw [pow_succ]; omega
  refine ⟨⟨by simp [h1], ?_⟩, ⟨2 * j + 1, by omega, hlt, hT.symm⟩, ha, ⟨_, hb⟩, hg, rfl⟩
  by_cases hup : (g - s.lbGdly) * (g - gd) < 0
  · refine ⟨2 * j, by omega, ?_, ?_⟩
    · simp only [if_pos hup]
      rw [point_double, h3]
    · simp only [if_pos hup]
      exact hT.symm
  · refine ⟨2 * j + 1, hlt, ?_, ?_⟩
    · simp only [if_neg hup]
      exact hT.symm
    · simp only [if_neg hup]
      rw [h4, show 2 * j + 1 + 1 = 2 * (j + 1) by ring, point_double]

/-- What the bisection guarantees. -/
theorem gdly_spec {bld : Build} {stack1 stack2 : ℕ → ℝ} {arr : Buf ℝ} {n : ℤ} {g f prec attLb attUb lb ub : ℝ} {r : GdlyResult}
    (h : computeCoefsSpecOrderGdly bld stack1 stack2 arr n g f prec attLb attUb lb ub = .ok r) :
    (r.code = .failGdTbw ∧ r.coefArr = arr ∧ r.written = none) ∨
    ∃ m ≤ 1000, ∃ j, 0 < j ∧ j < 2 ^ m ∧ ∃ att gd : ℝ, computeAttenFromOrderTbw bld n (point lb ub m j) = .ok att ∧
      (∃ arr', computeCoefsSpecOrderTbw bld arr' n (point lb ub m j) = .ok r.coefArr) ∧
      computeGroupDelay bld r.coefArr n f false = .ok gd ∧ (|gd - g| ≤ prec ∨ m = 1000) ∧
      (r.code = .failConv → |gd - g| ≤ prec) ∧ (r.code = .failAtten → att < attLb ∨ attUb < att) ∧ r.code ≠ .failGdTbw ∧
      (r.code ≠ .ok → r.written = none) ∧
      (r.code = .ok → attLb ≤ att ∧ att ≤ attUb ∧ r.written = some (att, point lb ub m j)) := by
  unfold computeCoefsSpecOrderGdly at h
  obtain ⟨_, -, h⟩ := bind_ok h
  obtain ⟨_, -, h⟩ := bind_ok h
  obtain ⟨_, -, h⟩ := bind_ok h
  obtain ⟨_, -, h⟩ := bind_ok h
  obtain ⟨_, -, h⟩ := bind_ok h
  obtain ⟨_, -, h⟩ := bind_ok h
  obtain ⟨_, -, h⟩ := bind_ok h
  obtain ⟨_, -, h⟩ := bind_ok h
  obtain ⟨_, -, h⟩ := bind_ok h
  obtain ⟨_, -, h⟩ := bind_ok h
  obtain ⟨_, -, h⟩ := bind_ok h
  obtain ⟨_, -, h⟩ := bind_ok h
  obtain ⟨_, -, h⟩ := bind_ok h
  obtain ⟨_, -, h⟩ := bind_ok h
  obtain ⟨lg, -, h⟩ := bind_ok h
  split at h
  · obtain rfl := Except.ok.inj h
    exact Or.inl ⟨rfl, rfl, rfl⟩
  right
  simp only at h
  obtain ⟨s1, hs1, h⟩ := bind_ok h
  obtain ⟨s2, hs2, h⟩ := bind_ok h
  let I : Bisect → Prop := fun s => ∃ m < 1000, (s.nbrIt = m + 1 ∧ ∃ j < 2 ^ (m + 1), s.lbTbw = point lb ub (m + 1) j ∧ s.ubTbw = point lb ub (m + 1) (j + 1)) ∧
    (∃ j, 0 < j ∧ j < 2 ^ (m + 1) ∧ s.rsTbw = point lb ub (m + 1) j) ∧
    computeAttenFromOrderTbw bld n s.rsTbw = .ok s.rsAttn ∧
    (∃ arr', computeCoefsSpecOrderTbw bld arr' n s.rsTbw = .ok s.coefArr) ∧
    computeGroupDelay bld s.coefArr n f false = .ok s.rsGdly ∧ s.convFlag = decide (prec < |s.rsGdly - g|)
  have hI1 : I s1 := ⟨0, by norm_num, bisectBody_spec ⟨rfl, 0, by norm_num, by simp [point], by simp [point]⟩ hs1⟩
  obtain ⟨⟨m, hm, ⟨c1, -⟩, ⟨j, j0, j1, c2⟩, c3, c4, c5, c6⟩, hend⟩ := whileU_inv (I := I) (fun s s' hI hcond hb => by
    obtain ⟨m, hm, hn, -⟩ := hI
    simp only [Bool.and_eq_true, decide_eq_true_eq] at hcond
    exact ⟨m + 1, by omega, bisectBody_spec hn hb⟩) hI1 hs2
  refine ⟨m + 1, hm, j, j0, j1, s2.rsAttn, s2.rsGdly, c2 ▸ c3, ?_⟩
  rw [← c2]
  have hconv : |s2.rsGdly - g| ≤ prec ∨ m + 1 = 1000 := by
    by_cases hc : prec < |s2.rsGdly - g|
    · right
      simp only [c6, c1, hc, decide_true, Bool.true_and, decide_eq_false_iff_not] at hend
      omega
    · exact Or.inl (not_lt.mp hc)
  split at h
  · rename_i hcode
    obtain rfl := Except.ok.inj h
    simp only [Bool.and_eq_true, c6, Bool.not_eq_true', decide_eq_false_iff_not, not_lt] at hcode
    exact ⟨c4, c5, hconv, fun _ => hcode.2, by simp, by simp, by simp, by simp⟩
  · split at h
    · rename_i hatt
      obtain rfl := Except.ok.inj h
      exact ⟨c4, c5, hconv, by simp, fun _ => hatt, by simp, by simp, by simp⟩
    · rename_i hatt
      obtain rfl := Except.ok.inj h
      rw [not_or, not_lt, gt_iff_lt, not_lt] at hatt
      exact ⟨c4, c5, hconv, by simp, by simp, by simp, by simp, fun _ => ⟨hatt.1, hatt.2, rfl⟩⟩

end Panda.Designer
