import Verif.Proofs.DesignerTotal
import Verif.Proofs.IirStop

/-!
# Every filter of the designer is stable (C75), and the designer is total below half the sample rate (C63)

Real arithmetic, see Model/Designer.lean. The literal `PI` of def.h is not π, and the series are cut off: the coefficients are not exactly
those of an elliptic filter. The proofs (Proofs/Theta.lean, Proofs/ThetaBounds.lean, Proofs/DesignerRange.lean) use the identities between
theta functions and bounds on the errors.
-/

namespace Panda.Designer

/-- **C75** `compute_coefs_spec_order_tbw`: for every transition bandwidth and number of coefficients (up to 2^25), no assertion fails, no
function is evaluated outside of its domain, no integer overflows, the loops end, exactly the `n` coefficients are written, and all of them
are strictly between 0 and 1. -/
theorem C75_range (bld : Build) (t : ℝ) (h0 : 0 < t) (h1 : t < 1 / 2) (n : ℕ) (n0 : 0 < n) (hn : n ≤ 2 ^ 25) (arr : Buf ℝ)
    (hl : n ≤ arr.len) :
    ∃ arr', computeCoefsSpecOrderTbw bld arr n t = .ok arr' ∧ arr'.addr = arr.addr ∧ arr'.len = arr.len ∧
      (∀ i < n, 0 < arr'.get i ∧ arr'.get i < 1) ∧ ∀ i, n ≤ i → arr'.get i = arr.get i :=
  design_range bld h0 h1 n0 hn arr hl

/-- **C75** `compute_coefs`, for attenuations from 1 dB to 10^7 dB: the array needs the number of elements that
`compute_nbr_coefs_from_proto` returns, exactly these are written, with the same coefficients as by `compute_coefs_spec_order_tbw`. -/
theorem C75_attenuation (bld : Build) (att t : ℝ) (ha0 : 1 ≤ att) (ha1 : att ≤ 10 ^ 7) (h0 : 0 < t) (h1 : t < 1 / 2) :
    ∃ n : ℕ, 0 < n ∧ computeNbrCoefsFromProto bld att t = .ok n ∧ ∀ arr : Buf ℝ, n ≤ arr.len →
      ∃ arr', computeCoefs bld arr att t = .ok (n, arr') ∧ computeCoefsSpecOrderTbw bld arr n t = .ok arr' ∧
        (∀ i < n, 0 < arr'.get i ∧ arr'.get i < 1) ∧ ∀ i, n ≤ i → arr'.get i = arr.get i := by
  obtain ⟨n, n0, n1, e1, e2⟩ := computeCoefs_ok bld ha0 ha1 h0 h1
  refine ⟨n, n0, e1, fun arr hl => ?_⟩
  obtain ⟨arr', e3, e4⟩ := e2 arr hl
  obtain ⟨arr'', e5, -, -, r1, r2⟩ := design_range bld h0 h1 n0 n1 arr hl
  obtain rfl := Except.ok.inj (e4.symm.trans e5)
  exact ⟨arr', e3, e4, r1, r2⟩

/-- **C75** Stability: every cell `(a + z⁻²) / (1 + a z⁻²)` of a designed filter has its poles inside the unit circle. -/
theorem C75_poles (bld : Build) (t : ℝ) (h0 : 0 < t) (h1 : t < 1 / 2) (n : ℕ) (n0 : 0 < n) (hn : n ≤ 2 ^ 25) (arr : Buf ℝ)
    (hl : n ≤ arr.len) :
    ∃ arr', computeCoefsSpecOrderTbw bld arr n t = .ok arr' ∧ ∀ i < n, ∀ z : ℂ, z ^ 2 + arr'.get i = 0 → ‖z‖ < 1 := by
  obtain ⟨arr', e, -, -, r, -⟩ := design_range bld h0 h1 n0 hn arr hl
  refine ⟨arr', e, fun i hi z hz => ?_⟩
  obtain ⟨a0, a1⟩ := r i hi
  have h2 : ‖z‖ ^ 2 = arr'.get i := by
    rw [← norm_pow, eq_neg_of_add_eq_zero_left hz, norm_neg, Complex.norm_real, Real.norm_of_nonneg a0.le]
  nlinarith [norm_nonneg z]

/-- The limit on the number of coefficients is necessary in principle: with more than 2^31 / 3 coefficients, `(i * 2 + 1) * c` overflows
in the second iteration. -/
theorem C75_overflow (bld : Build) (hb : bld.ndebug = true) (t : ℝ) (h0 : 0 < t) (h1 : t < 1 / 2) (n : ℕ) (hn : 2 ^ 31 ≤ 3 * n)
    (hn1 : n < 2 ^ 30) : ∃ c : ℤ, 1 ≤ c ∧ c ≤ n ∧ computeAccNum bld (nome t) (n * 2 + 1) c = .error .overflow := by
  refine ⟨n, by omega, le_rfl, ?_⟩
  obtain ⟨q0, q1⟩ := nome_bounds h0 h1
  have ho : ((n * 2 + 1 : ℤ) : ℝ) ≠ 0 := by positivity
  unfold computeAccNum
  rw [assertP_ok (by omega), ok_bind]
  have ha : assertLt bld n ((n * 2 + 1) * 2) = .ok () := by
    unfold assertLt
    rw [if_pos hb]
    rfl
  rw [ha, ok_bind]
  simp only
  rw [int32_ok (by norm_num) (by norm_num), ok_bind, show ((0 : ℤ) * (0 + 1)) = ((0 : ℕ) : ℤ) by norm_num, ipowp_ok, ok_bind,
    int32_ok (by omega) (by omega), ok_bind, divR_ok ho, ok_bind, pure_bind', whileU_step, if_pos]
  · simp only
    rw [int32_ok (by norm_num) (by norm_num), ok_bind, show ((0 + 1 : ℤ) * (0 + 1 + 1)) = ((2 : ℕ) : ℤ) by norm_num, ipowp_ok, ok_bind]
    have : int32 (((0 + 1) * 2 + 1) * (n : ℤ)) = .error .overflow := by
      unfold int32
      rw [if_neg (by omega)]
    rw [this]
    rfl
  · have hs := sin_lower (a := n) (o := 2 * n + 1) (by omega) (by omega) (by omega) (by omega)
    simp only [pow_zero, one_mul, Int.cast_one, mul_one, decide_eq_true_eq, zero_mul, zero_add]
    refine lt_of_lt_of_le (by norm_num) (hs.trans (le_of_eq ?_))
    congr 2
    push_cast
    ring

/-- **C63** for measurement frequencies below half the sample rate: with arguments in the documented ranges,
`compute_coefs_spec_order_gdly` fails no assertion and has no undefined behaviour, and always returns (at most 1000 iterations). It
writes no element after the `n`-th; the coefficients (unless `FAIL_GD_TBW`) are strictly between 0 and 1. Missing: frequencies of at
least half the sample rate, for which it is false. -/
theorem C63_total_partial (bld : Build) (stack1 stack2 : ℕ → ℝ) (arr : Buf ℝ) (n : ℕ) (n0 : 0 < n) (n1 : n ≤ 256) (hl : n ≤ arr.len)
    (g f prec attLb attUb lb ub : ℝ) (hg : 0 < g) (f0 : 0 ≤ f) (f1 : f < 1 / 2) (hp : 0 < prec) (ha : 0 < attLb) (hab : attLb < attUb)
    (h0 : 0 < lb) (h01 : lb < ub) (h1 : ub < 1 / 2) :
    ∃ r, computeCoefsSpecOrderGdly bld stack1 stack2 arr n g f prec attLb attUb lb ub = .ok r ∧
      r.coefArr.addr = arr.addr ∧ r.coefArr.len = arr.len ∧ (∀ i, n ≤ i → r.coefArr.get i = arr.get i) ∧
      (r.code ≠ .failGdTbw → ∀ i < n, 0 < r.coefArr.get i ∧ r.coefArr.get i < 1) :=
  gdly_total bld stack1 stack2 arr n0 n1 hl hg f0 f1 hp ha hab h0 h01 h1

/-- A very steep filter with 100 coefficients -/
example (bld : Build) : ∃ arr', computeCoefsSpecOrderTbw bld ⟨0, 100, fun _ => 0⟩ 100 (1 / 10000) = .ok arr' ∧ arr'.addr = 0 ∧ arr'.len = 100 ∧
    (∀ i < 100, 0 < arr'.get i ∧ arr'.get i < 1) ∧ ∀ i, 100 ≤ i → arr'.get i = 0 :=
  C75_range bld (1 / 10000) (by norm_num) (by norm_num) 100 (by norm_num) (by norm_num) ⟨0, 100, fun _ => 0⟩ le_rfl

example (bld : Build) : ∃ n : ℕ, computeNbrCoefsFromProto bld 100 (1 / 100) = .ok n := by
  obtain ⟨n, -, h, -⟩ := C75_attenuation bld 100 (1 / 100) (by norm_num) (by norm_num) (by norm_num) (by norm_num)
  exact ⟨n, h⟩

example (bld : Build) : ∃ r, computeCoefsSpecOrderGdly bld (fun _ => 0) (fun _ => 0) ⟨0, 8, fun _ => 7⟩ 8 3 (1 / 10) (1 / 1000) 40 120 (1 / 100)
    (1 / 10) = .ok r := by
  obtain ⟨r, h, -⟩ := C63_total_partial bld (fun _ => 0) (fun _ => 0) ⟨0, 8, fun _ => 7⟩ 8 (by norm_num) (by norm_num) (le_refl 8) 3 (1 / 10)
    (1 / 1000) 40 120 (1 / 100) (1 / 10) (by norm_num) (by norm_num) (by norm_num) (by norm_num) (by norm_num) (by norm_num) (by norm_num)
    (by norm_num) (by norm_num)
  exact ⟨r, h⟩

example : ∃ c : ℤ, 1 ≤ c ∧ c ≤ (2 ^ 30 - 1 : ℕ) ∧ computeAccNum ⟨true, false, true⟩ (nome (1 / 10)) ((2 ^ 30 - 1 : ℕ) * 2 + 1) c = .error .overflow :=
  C75_overflow ⟨true, false, true⟩ rfl (1 / 10) (by norm_num) (by norm_num) (2 ^ 30 - 1) (by norm_num) (by norm_num)

end Panda.Designer
