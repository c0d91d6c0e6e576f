import Mathlib.Analysis.SpecialFunctions.Trigonometric.ArctanDeriv
import Mathlib.Analysis.SpecialFunctions.Trigonometric.Deriv
import Mathlib.Analysis.SpecialFunctions.Complex.Arg
import Mathlib.Analysis.SpecialFunctions.Log.Deriv
import Mathlib.Analysis.Complex.ExponentialBounds
import Verif.Spec.Response
import Verif.Proofs.DesignerGdly

/-! # Group delay, phase delay and the number of coefficients -/

namespace Panda

/-- The denominator of the group delay is positive. -/
theorem delay_den_pos {a : ℝ} (ha : |a| < 1) (θ : ℝ) : 0 < a ^ 2 + 2 * a * Real.cos θ + 1 := by
  have hc := Real.abs_cos_le_one θ
  have h1 : |a * Real.cos θ| ≤ |a| := by
    rw [abs_mul]
    exact mul_le_of_le_one_right (abs_nonneg a) hc
  have h2 := neg_abs_le (a * Real.cos θ)
  have h3 : a ^ 2 = |a| ^ 2 := (sq_abs a).symm
  nlinarith [sq_nonneg (1 - |a|), abs_nonneg a]

theorem one_add_cos_pos {a : ℝ} (ha : |a| < 1) (θ : ℝ) : 0 < 1 + a * Real.cos θ := by
  have h1 : |a * Real.cos θ| ≤ |a| := by
    rw [abs_mul]
    exact mul_le_of_le_one_right (abs_nonneg a) (Real.abs_cos_le_one θ)
  have h2 := neg_abs_le (a * Real.cos θ)
  linarith

/-- Derivative of the phase of an all-pass section. -/
theorem hasDerivAt_apPhase {a : ℝ} (ha : |a| < 1) (θ : ℝ) :
    HasDerivAt (apPhase a) (-((1 - a ^ 2) / (a ^ 2 + 2 * a * Real.cos θ + 1))) θ := by
  have hp := one_add_cos_pos ha θ
  have hd := delay_den_pos ha θ
  have h1 : HasDerivAt (fun θ => a * Real.sin θ / (1 + a * Real.cos θ))
      ((a * Real.cos θ * (1 + a * Real.cos θ) - a * Real.sin θ * (a * -Real.sin θ)) / (1 + a * Real.cos θ) ^ 2) θ :=
    ((Real.hasDerivAt_sin θ).const_mul a).div (((Real.hasDerivAt_cos θ).const_mul a).const_add 1) hp.ne'
  have h2 := ((h1.arctan).const_mul 2).sub (hasDerivAt_id θ)
  refine h2.congr_deriv ?_
  have hs : Real.sin θ ^ 2 = 1 - Real.cos θ ^ 2 := by linarith [Real.sin_sq_add_cos_sq θ]
  have e1 : 1 + (a * Real.sin θ / (1 + a * Real.cos θ)) ^ 2 = (a ^ 2 + 2 * a * Real.cos θ + 1) / (1 + a * Real.cos θ) ^ 2 := by
    rw [div_pow, mul_pow, hs]
    field_simp
    ring
  have e2 : a * Real.cos θ * (1 + a * Real.cos θ) - a * Real.sin θ * (a * -Real.sin θ) = a * Real.cos θ + a ^ 2 := by
    have : a * Real.sin θ * (a * -Real.sin θ) = -(a ^ 2 * Real.sin θ ^ 2) := by ring
    rw [this, hs]
    ring
  rw [e1, e2]
  have hD : a * Real.cos θ = (a ^ 2 + 2 * a * Real.cos θ + 1 - a ^ 2 - 1) / 2 := by ring
  have hq : (1 + a * Real.cos θ) ^ 2 ≠ 0 := by positivity
  have e3 : 1 / ((a ^ 2 + 2 * a * Real.cos θ + 1) / (1 + a * Real.cos θ) ^ 2) * ((a * Real.cos θ + a ^ 2) / (1 + a * Real.cos θ) ^ 2) =
      (a * Real.cos θ + a ^ 2) / (a ^ 2 + 2 * a * Real.cos θ + 1) := by
    rw [one_div_div, div_mul_div_comm, mul_comm _ ((1 + a * Real.cos θ) ^ 2), mul_div_mul_left _ _ hq]
  rw [e3]
  generalize hDD : a ^ 2 + 2 * a * Real.cos θ + 1 = D at hd
  rw [hDD] at hD
  rw [hD]
  field_simp
  ring

namespace Designer

/-- Group delay of a cell. -/
noncomputable def delayOf (a fFs : ℝ) (phFlag : Bool) : ℝ :=
  2 * (1 - a * a) / (a * a + (if phFlag then -2 else 2) * a * Real.cos (2 * (2 * PI * fFs)) + 1)

theorem cell_ok (bld : Build) {a f : ℝ} (a0 : 0 ≤ a) (a1 : a < 1) (f0 : 0 ≤ f) (f1 : f < 1 / 2) (ph : Bool) :
    cellGroupDelay bld a f ph = .ok (delayOf a f ph) ∧ 0 < delayOf a f ph ∧
    HasDerivAt (fun w => apPhase (if ph then -a else a) (2 * w)) (-delayOf a f ph) (2 * PI * f) := by
  have ha : |if ph then -a else a| < 1 := by
    rw [abs_lt]
    cases ph <;> simp <;> constructor <;> linarith
  have hd := delay_den_pos ha (2 * (2 * PI * f))
  have he : (if ph then -a else a) ^ 2 + 2 * (if ph then -a else a) * Real.cos (2 * (2 * PI * f)) + 1 =
      a * a + (if ph then -2 else 2) * a * Real.cos (2 * (2 * PI * f)) + 1 := by
    cases ph <;> simp <;> ring
  refine ⟨?_, ?_, ?_⟩
  · unfold cellGroupDelay
    rw [assertP_ok a0, ok_bind, assertP_ok a1.le, ok_bind, assertP_ok f0, ok_bind, assertP_ok (by norm_num; linarith), ok_bind]
    simp only
    rw [divR_ok (by rw [← he]; exact hd.ne')]
    rfl
  · unfold delayOf
    rw [← he]
    exact div_pos (by nlinarith) hd
  · have h1 := (hasDerivAt_apPhase ha (2 * (2 * PI * f))).comp (2 * PI * f) ((hasDerivAt_id (2 * PI * f)).const_mul 2)
    refine h1.congr_deriv ?_
    unfold delayOf
    rw [← he]
    have : (if ph then -a else a) ^ 2 = a * a := by cases ph <;> simp <;> ring
    rw [this]
    ring

/-- Group delay of a filter. -/
theorem groupDelay_ok (bld : Build) (arr : Buf ℝ) {n : ℕ} (hn : 0 < n) (hl : n ≤ arr.len) (hc : ∀ i < n, 0 ≤ arr.get i ∧ arr.get i < 1)
    {f : ℝ} (f0 : 0 ≤ f) (f1 : f < 1 / 2) (ph : Bool) :
    computeGroupDelay bld arr n f ph = .ok (∑ i ∈ Finset.range ((n + 1) / 2), delayOf (arr.get (2 * i)) f ph) := by
  unfold computeGroupDelay
  rw [assertP_ok (by exact_mod_cast hn), ok_bind, assertP_ok f0, ok_bind, assertP_ok (by norm_num; linarith), ok_bind, Int.toNat_natCast]
  have key : ∀ m : ℕ, m ≤ (n + 1) / 2 → forN (fun i dlyTotal => do
      let dly ← cellGroupDelay bld (← arr.rd (2 * i)) f ph
      pure (dlyTotal + dly)) m (0 : ℝ) = .ok (∑ i ∈ Finset.range m, delayOf (arr.get (2 * i)) f ph) := by
    intro m hm
    induction m with
    | zero => rfl
    | succ m ih =>
      obtain ⟨c0, c1⟩ := hc (2 * m) (by omega)
      show (forN _ m 0 >>= fun s => _) = _
      rw [ih (by omega), ok_bind, Finset.sum_range_succ]
      have : arr.rd (2 * m) = .ok (arr.get (2 * m)) := by simp [Buf.rd, show 2 * m < arr.len by omega]
      simp only [this, ok_bind, (cell_ok bld c0 c1 f0 f1 ph).1]
      rfl
  exact key _ le_rfl

/-- Derivative of the phase of branch 0. -/
theorem hasDerivAt_branchPhase {c : ℕ → ℝ} {b : ℕ} (θ : ℝ) : ∀ j : ℕ, (∀ i < j, |c (2 * i + b)| < 1) →
    HasDerivAt (fun θ => branchPhase c b θ j)
      (-∑ i ∈ Finset.range j, (1 - c (2 * i + b) ^ 2) / (c (2 * i + b) ^ 2 + 2 * c (2 * i + b) * Real.cos θ + 1)) θ
  | 0, _ => by
    simp only [branchPhase, Finset.range_zero, Finset.sum_empty, neg_zero]
    exact hasDerivAt_const θ 0
  | j + 1, h => by
    simp only [branchPhase]
    rw [Finset.sum_range_succ, neg_add]
    exact (hasDerivAt_branchPhase θ j fun i hi => h i (by omega)).add (hasDerivAt_apPhase (h j (by omega)) θ)

/-! ## The number of coefficients -/

theorem rpow_tenth_le {att : ℝ} (h : 1 ≤ att) : (10 : ℝ) ^ (-att / 10) ≤ 4 / 5 := by
  have h1 : (10 : ℝ) ^ (-att / 10) ≤ (10 : ℝ) ^ (-(1 : ℝ) / 10) := Real.rpow_le_rpow_of_exponent_le (by norm_num) (by linarith)
  refine h1.trans ?_
  have h0 : (0 : ℝ) ≤ (10 : ℝ) ^ (-(1 : ℝ) / 10) := by positivity
  refine le_of_pow_le_pow_left₀ (n := 10) (by norm_num) (by norm_num) ?_
  rw [← Real.rpow_natCast, ← Real.rpow_mul (by norm_num)]
  norm_num

theorem aOf_le_four {att : ℝ} (h : 1 ≤ att) : aOf att ≤ 4 := by
  have h1 := rpow_tenth_le h
  unfold aOf
  rw [div_le_iff₀ (by linarith)]
  linarith

theorem log_31_50 : Real.log (31 / 50) ≤ -(1 / 3) := by
  have := Real.log_le_sub_one_of_pos (by norm_num : (0 : ℝ) < 31 / 50)
  norm_num at this ⊢
  linarith

theorem realOrder_bounds {att q : ℝ} (h : 1 ≤ att) (h0 : 0 < q) (h1 : q < 31 / 50) :
    0 ≤ realOrder att q ∧ realOrder att q ≤ 2 * att + 10 := by
  have ha0 := aOf_pos (by linarith : 0 < att)
  have ha := aOf_le_four h
  have hq : Real.log q ≤ -(1 / 3) := (Real.log_le_log h0 h1.le).trans log_31_50
  have hlog : Real.log (aOf att * aOf att / 16) ≤ 0 := Real.log_nonpos (by positivity) (by nlinarith)
  unfold realOrder
  refine ⟨div_nonneg_of_nonpos hlog (by linarith), ?_⟩
  have hp := (p2_bounds (by linarith : 0 < att))
  have hge : (10 : ℝ) ^ (-att / 10) ≤ aOf att := by
    unfold aOf
    rw [le_div_iff₀ (by linarith)]
    nlinarith
  have h2 : Real.log (aOf att) ≥ -att / 10 * Real.log 10 := by
    rw [← Real.log_rpow (by norm_num)]
    exact Real.log_le_log hp.1 hge
  have h3 : Real.log 10 ≤ 2.32 := by
    have h2 := Real.log_two_lt_d9
    have : Real.log 10 ≤ Real.log (2 ^ (10 / 3 : ℝ)) := by
      refine Real.log_le_log (by norm_num) ?_
      refine le_of_pow_le_pow_left₀ (n := 3) (by norm_num) (by positivity) ?_
      rw [← Real.rpow_natCast (2 ^ (10 / 3 : ℝ)), ← Real.rpow_mul (by norm_num)]
      norm_num
    rw [Real.log_rpow (by norm_num)] at this
    linarith
  have h4 : Real.log 16 ≤ 2.8 := by
    have h2 := Real.log_two_lt_d9
    rw [show (16 : ℝ) = 2 ^ 4 by norm_num, Real.log_pow]
    norm_num
    linarith
  have h5 : Real.log (aOf att * aOf att / 16) = 2 * Real.log (aOf att) - Real.log 16 := by
    rw [Real.log_div (by positivity) (by norm_num), Real.log_mul ha0.ne' ha0.ne']
    ring
  have h6 : 0 < Real.log 10 := Real.log_pos (by norm_num)
  have h7 : -(att / 5 * 2.32) - 2.8 ≤ Real.log (aOf att * aOf att / 16) := by
    rw [h5]
    nlinarith
  rw [div_le_iff_of_neg (by linarith)]
  nlinarith

theorem nbr_ok (bld : Build) {att t : ℝ} (ha0 : 1 ≤ att) (ha1 : att ≤ 10 ^ 9) (h0 : 0 < t) (h1 : t < 1 / 2) :
    computeNbrCoefsFromProto bld att t = .ok ((fixOrder ⌈realOrder att (nome t)⌉ - 1).tdiv 2) ∧
    0 ≤ ⌈realOrder att (nome t)⌉ := by
  obtain ⟨q0, q1⟩ := nome_bounds h0 h1
  obtain ⟨r0, r1⟩ := realOrder_bounds ha0 q0 q1
  have c0 : 0 ≤ ⌈realOrder att (nome t)⌉ := Int.ceil_nonneg r0
  have c1 : ⌈realOrder att (nome t)⌉ ≤ 2 * 10 ^ 9 + 10 := by
    rw [Int.ceil_le]
    push_cast
    linarith
  rw [nbr_eq bld (by linarith) h0 h1]
  refine ⟨?_, c0⟩
  unfold ceilInt
  rw [if_pos ⟨by omega, by omega⟩]
  rfl

theorem aOf_surj {a : ℝ} (h : 0 < a) : ∃ att, 0 < att ∧ aOf att = a := by
  refine ⟨-10 * Real.logb 10 (a / (1 + a)), ?_, ?_⟩
  · have := Real.logb_neg (b := 10) (by norm_num) (by positivity) ((div_lt_one (by linarith)).mpr (by linarith) : a / (1 + a) < 1)
    linarith
  · unfold aOf
    have : -(-10 * Real.logb 10 (a / (1 + a))) / 10 = Real.logb 10 (a / (1 + a)) := by ring
    rw [this, Real.rpow_logb (by norm_num) (by norm_num) (by positivity)]
    field_simp
    ring

theorem nbr_negative (bld : Build) {t : ℝ} (h0 : 0 < t) (h1 : t < 1 / 2) :
    ∃ att, 0 < att ∧ computeNbrCoefsFromProto bld att t = .ok (-2) ∧ ∃ q, computeOrder bld att q = .ok (-3) := by
  obtain ⟨q0, q1⟩ := nome_bounds h0 h1
  have hl := Real.log_neg q0 (by linarith)
  obtain ⟨att, ha0, ha⟩ := aOf_surj (a := 4 * Real.exp (-3 / 2 * Real.log (nome t))) (by positivity)
  have hr : realOrder att (nome t) = (-3 : ℤ) := by
    unfold realOrder
    rw [ha, show 4 * Real.exp (-3 / 2 * Real.log (nome t)) * (4 * Real.exp (-3 / 2 * Real.log (nome t))) / 16 =
      Real.exp (-3 / 2 * Real.log (nome t)) * Real.exp (-3 / 2 * Real.log (nome t)) by ring, ← Real.exp_add, Real.log_exp]
    rw [eq_comm, eq_div_iff hl.ne]
    push_cast
    ring
  have hc : ceilInt (realOrder att (nome t)) = .ok (-3) := by
    unfold ceilInt
    rw [hr, Int.ceil_intCast]
    rw [if_pos ⟨by omega, by omega⟩]
    rfl
  refine ⟨att, ha0, ?_, nome t, ?_⟩
  · rw [nbr_eq bld ha0 h0 h1, hc, ok_bind]
    rfl
  · rw [order_eq bld ha0 q0 (by linarith), hc, ok_bind]
    rfl

/-! ## Phase delay -/

theorem phaseDelay_zero (bld : Build) {f : ℝ} (f0 : 0 < f) (f1 : f < 1 / 2) : computePhaseDelay bld 0 f = .ok (1 / f - 1) := by
  have hPI := PI_pos
  have hw0 : 0 < 2 * PI * f := by positivity
  have hw1 : 2 * PI * f < Real.pi := by nlinarith [PI_lt_pi]
  unfold computePhaseDelay
  rw [assertP_ok (by norm_num), ok_bind, assertP_ok (by norm_num), ok_bind, assertP_ok f0.le, ok_bind, assertP_ok (by norm_num; linarith),
    ok_bind]
  have harg : atan2 (0 * 0 * Real.sin (2 * PI * f) - Real.sin (2 * PI * f))
      (0 + Real.cos (2 * PI * f) + 0 * (Real.cos (2 * PI * f) * (0 + Real.cos (2 * PI * f)) + Real.sin (2 * PI * f) * Real.sin (2 * PI * f))) =
      -(2 * PI * f) := by
    unfold atan2
    have : (⟨0 + Real.cos (2 * PI * f) + 0 * (Real.cos (2 * PI * f) * (0 + Real.cos (2 * PI * f)) + Real.sin (2 * PI * f) * Real.sin (2 * PI * f)),
        0 * 0 * Real.sin (2 * PI * f) - Real.sin (2 * PI * f)⟩ : ℂ) = Complex.cos (-(2 * PI * f) : ℝ) + Complex.sin (-(2 * PI * f) : ℝ) * Complex.I := by
      rw [← Complex.ofReal_cos, ← Complex.ofReal_sin, Real.cos_neg, Real.sin_neg]
      generalize Real.cos (2 * PI * f) = c
      generalize Real.sin (2 * PI * f) = s
      apply Complex.ext <;> simp
    rw [this, Complex.arg_cos_add_sin_mul_I ⟨by linarith, by linarith⟩]
  simp only
  rw [harg, if_pos (by linarith), divR_ok hw0.ne']
  congr 1
  field_simp
  ring

theorem phaseDelay_dc (bld : Build) {a : ℝ} (a0 : 0 ≤ a) (a1 : a ≤ 1) : computePhaseDelay bld a 0 = .error .domain := by
  unfold computePhaseDelay
  rw [assertP_ok a0, ok_bind, assertP_ok a1, ok_bind, assertP_ok (by norm_num), ok_bind, assertP_ok (by norm_num), ok_bind]
  simp [divR]

theorem cell_one_dc (bld : Build) : cellGroupDelay bld 1 0 true = .error .domain := by
  unfold cellGroupDelay
  rw [assertP_ok (by norm_num), ok_bind, assertP_ok (by norm_num), ok_bind, assertP_ok (by norm_num), ok_bind, assertP_ok (by norm_num), ok_bind]
  norm_num [divR]

/-- Frequencies from 1/2 to 1 are accepted by `compute_coefs_spec_order_gdly`, but not by `compute_group_delay`. -/
theorem gdly_high_freq {bld : Build} (hb : bld.ndebug = false) (stack1 stack2 : ℕ → ℝ) (arr : Buf ℝ) {f g prec attLb attUb : ℝ}
    (f0 : 1 / 2 ≤ f) (f1 : f < 1) (hg : 0 < g) (hp : 0 < prec) (ha : 0 < attLb) (hab : attLb < attUb) :
    computeCoefsSpecOrderGdly bld stack1 stack2 arr 1 g f prec attLb attUb (1 / 6) (9 / 20) = .error .assertFail := by
  obtain ⟨a1, _, _, -, -, -, -, -, -, -, p7, -⟩ := design1 bld (le_refl (1 / 6)) (by norm_num)
  obtain ⟨a2, _, _, -, -, -, -, -, -, -, r7, -⟩ := design1 bld (by norm_num : (1 / 6 : ℝ) ≤ 9 / 20) (by norm_num)
  unfold computeCoefsSpecOrderGdly
  rw [assertP_ok (by norm_num), ok_bind, assertP_ok (by norm_num), ok_bind, assertP_ok hg, ok_bind, assertP_ok (by linarith),
    ok_bind, assertP_ok f1, ok_bind, assertP_ok hp, ok_bind, assertP_ok ha, ok_bind, assertP_ok hab,
    ok_bind, assertP_ok (by norm_num), ok_bind, assertP_ok (by norm_num), ok_bind, assertP_ok (by norm_num), ok_bind,
    r7 _ (by norm_num), ok_bind, p7 _ (by norm_num), ok_bind]
  have : ∀ arr : Buf ℝ, computeGroupDelay bld arr 1 f false = .error .assertFail := by
    intro arr
    unfold computeGroupDelay
    rw [assertP_ok (by norm_num), ok_bind, assertP_ok (by linarith), ok_bind, assertP_false hb (by norm_num; linarith), err_bind]
  rw [this, err_bind]

end Designer

end Panda
