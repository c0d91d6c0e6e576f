import Verif.Proofs.DesignerDelay
import Verif.Proofs.IirStop

/-!
# The filter designer (C44, C45, C46, C47, C48, C61, C62, C63)

`PolyphaseIir2Designer` and the helper functions it uses, in real arithmetic (see Model/Designer.lean for the idealisation).
Frequencies `f` are relative to the sample rate.
-/

namespace Panda.Designer

/-- **C44** Negation: for every transition band width there is an attenuation greater than 0 dB for which `compute_order` is negative
and the number of coefficients is -2. -/
theorem C44_false (bld : Build) (t : ℝ) (h0 : 0 < t) (h1 : t < 1 / 2) :
    ∃ att, 0 < att ∧ computeNbrCoefsFromProto bld att t = .ok (-2) ∧ ∃ q, computeOrder bld att q = .ok (-3) :=
  nbr_negative bld h0 h1

/-- **C44** for attenuations of at least 1 dB: the number of coefficients is positive. Missing: attenuations between 0 and 1 dB, for
which it is false, and absurd ones of more than a billion dB. -/
theorem C44_positive_partial (bld : Build) (att t : ℝ) (ha0 : 1 ≤ att) (ha1 : att ≤ 10 ^ 9) (h0 : 0 < t) (h1 : t < 1 / 2) :
    ∃ n : ℤ, computeNbrCoefsFromProto bld att t = .ok n ∧ 1 ≤ n := by
  obtain ⟨h, hc⟩ := nbr_ok bld ha0 ha1 h0 h1
  refine ⟨_, h, ?_⟩
  have h1 := fixOrder_pos hc
  have h2 := half_order (n := ⌈realOrder att (nome t)⌉)
  omega

/-- **C61** The number of coefficients is sufficient and minimal: the attenuation with it is as demanded, with less it is not. -/
theorem C61_sufficient_minimal (bld : Build) (att t : ℝ) (ha0 : 1 ≤ att) (ha1 : att ≤ 10 ^ 9) (h0 : 0 < t) (h1 : t < 1 / 2) (n : ℤ)
    (h : computeNbrCoefsFromProto bld att t = .ok n) :
    (∃ x, computeAttenFromOrderTbw bld n t = .ok x ∧ att ≤ x) ∧
    ∀ m : ℤ, 0 < m → m < n → ∃ x, computeAttenFromOrderTbw bld m t = .ok x ∧ x < att := by
  obtain ⟨h', hc⟩ := nbr_ok bld ha0 ha1 h0 h1
  obtain rfl := Except.ok.inj (h'.symm.trans h)
  obtain ⟨q0, q1⟩ := nome_bounds h0 h1
  have h5 : ⌈realOrder att (nome t)⌉ ≤ 2 * 10 ^ 9 + 10 := by
    rw [Int.ceil_le]
    push_cast
    linarith [(realOrder_bounds ha0 q0 q1).2]
  have h6 := fixOrder_le (n := ⌈realOrder att (nome t)⌉)
  have h2 := half_order (n := ⌈realOrder att (nome t)⌉)
  have h3 := fixOrder_pos hc
  constructor
  · refine ⟨_, attenTbw_ok bld h0 h1 (by omega) (by omega), ?_⟩
    rw [h2, le_attenOf (by linarith) q0 (by linarith)]
    exact (Int.le_ceil _).trans (by exact_mod_cast fixOrder_ge _)
  · intro m hm hmn
    refine ⟨_, attenTbw_ok bld h0 h1 hm (by omega), ?_⟩
    by_contra hcon
    rw [not_lt, le_attenOf (by linarith) q0 (by linarith), ← Int.ceil_le] at hcon
    rcases fixOrder_le (n := ⌈realOrder att (nome t)⌉) with h4 | h4 <;> omega

/-- 96 dB with the transition band of the first stage -/
example (bld : Build) : ∃ n : ℤ, computeNbrCoefsFromProto bld 96 (9 / 98) = .ok n ∧ 1 ≤ n :=
  C44_positive_partial bld 96 (9 / 98) (by norm_num) (by norm_num) (by norm_num) (by norm_num)

/-- **C45** `ipowp` computes powers, in every monoid. -/
theorem C45_power {M : Type} [Monoid M] (bld : Build) (x : M) (n : ℕ) : ipowp bld x n = .ok (x ^ n) := ipowp_ok bld x n

/-- **C45** For negative exponents the assertion fails; without assertions the loop does not end. -/
theorem C45_negative {M : Type} [Monoid M] (bld : Build) (x : M) (n : ℤ) (hn : n < 0) :
    ipowp bld x n = .error (if bld.ndebug then .nonterm else .assertFail) := ipowp_neg bld x n hn

example (bld : Build) : ipowp bld (3 : ℤ) 5 = .ok 243 := C45_power bld 3 5

/-- **C46** The group delay of a cell is positive, and it is the negative derivative of the phase of the cell, for
`(a + z⁻²) / (1 + a z⁻²)` and (with `ph_flag`) for `(a - z⁻²) / (1 - a z⁻²)`, whose phase is that for `-a`, except for a constant. -/
theorem C46_cell (bld : Build) (a f : ℝ) (a0 : 0 ≤ a) (a1 : a < 1) (f0 : 0 ≤ f) (f1 : f < 1 / 2) (ph : Bool) :
    ∃ d, cellGroupDelay bld a f ph = .ok d ∧ 0 < d ∧
      HasDerivAt (fun w => apPhase (if ph then -a else a) (2 * w)) (-d) (2 * PI * f) :=
  ⟨_, cell_ok bld a0 a1 f0 f1 ph⟩

/-- **C46** The group delay of a filter is the sum of the group delays of its cells with even index. -/
theorem C46_additive (bld : Build) (arr : Buf ℝ) (n : ℕ) (hn : 0 < n) (hl : n ≤ arr.len)
    (hc : ∀ i < n, 0 ≤ arr.get i ∧ arr.get i < 1) (f : ℝ) (f0 : 0 ≤ f) (f1 : f < 1 / 2) (ph : Bool) :
    ∃ d : ℕ → ℝ, (∀ i < n, cellGroupDelay bld (arr.get i) f ph = .ok (d i) ∧ 0 < d i) ∧
      computeGroupDelay bld arr n f ph = .ok (∑ i ∈ Finset.range ((n + 1) / 2), d (2 * i)) :=
  ⟨fun i => delayOf (arr.get i) f ph, fun i hi => ⟨(cell_ok bld (hc i hi).1 (hc i hi).2 f0 f1 ph).1,
    (cell_ok bld (hc i hi).1 (hc i hi).2 f0 f1 ph).2.1⟩, groupDelay_ok bld arr hn hl hc f0 f1 ph⟩

/-- **C46** The group delay of a filter is the negative derivative of the phase of its first branch. -/
theorem C46_filter (bld : Build) (arr : Buf ℝ) (n : ℕ) (hn : 0 < n) (hl : n ≤ arr.len)
    (hc : ∀ i < n, 0 ≤ arr.get i ∧ arr.get i < 1) (f : ℝ) (f0 : 0 ≤ f) (f1 : f < 1 / 2) :
    ∃ d, computeGroupDelay bld arr n f false = .ok d ∧ 0 < d ∧
      HasDerivAt (fun w => branchPhase arr.get 0 (2 * w) ((n + 1) / 2)) (-d) (2 * PI * f) := by
  refine ⟨_, groupDelay_ok bld arr hn hl hc f0 f1 false, ?_, ?_⟩
  · refine Finset.sum_pos (fun i hi => ?_) ⟨0, by simp; omega⟩
    rw [Finset.mem_range] at hi
    exact (cell_ok bld (hc (2 * i) (by omega)).1 (hc (2 * i) (by omega)).2 f0 f1 false).2.1
  · have h1 := (hasDerivAt_branchPhase (c := arr.get) (b := 0) (2 * (2 * PI * f)) ((n + 1) / 2) fun i hi => by
      obtain ⟨c0, c1⟩ := hc (2 * i) (by omega)
      rw [add_zero, abs_lt]
      constructor <;> linarith).comp (2 * PI * f) ((hasDerivAt_id (2 * PI * f)).const_mul 2)
    refine h1.congr_deriv ?_
    rw [mul_one, neg_mul, Finset.sum_mul]
    congr 1
    refine Finset.sum_congr rfl fun i _ => ?_
    simp only [delayOf, add_zero, Bool.false_eq_true, if_false]
    rw [← pow_two]
    ring

/-- **C46** Negation for the documented range of the coefficient, which includes 1: the delay at frequency 0 with `ph_flag` is 0/0. -/
theorem C46_false (bld : Build) : cellGroupDelay bld 1 0 true = .error .domain := cell_one_dc bld

/-- A filter with the coefficients 1/8, 1/2, 3/4 -/
example (bld : Build) : ∃ d, computeGroupDelay bld ⟨0, 3, fun i => if i = 0 then 1 / 8 else if i = 1 then 1 / 2 else 3 / 4⟩ 3 (1 / 100) false = .ok d ∧
    0 < d := by
  obtain ⟨d, h1, h2, -⟩ := C46_filter bld ⟨0, 3, fun i => if i = 0 then 1 / 8 else if i = 1 then 1 / 2 else 3 / 4⟩ 3 (by norm_num) le_rfl
    (fun i _ => by dsimp only; split_ifs <;> norm_num) (1 / 100) (by norm_num) (by norm_num)
  exact ⟨d, h1, h2⟩

/-- **C47** Negation: there are specifications (one coefficient, transition bandwidth 1/6 to 9/20) for which the result code is OK, but
the group delay differs from the demanded one by more than the precision. Reason: `conv_flag` is set if the loop has *not* converged,
and it is tested with the wrong sense after the loop. -/
theorem C47_false (bld : Build) (stack1 stack2 : ℕ → ℝ) (arr : Buf ℝ) (hlen : 0 < arr.len) :
    ∃ g prec lb ub : ℝ, 0 < g ∧ 0 < prec ∧ 0 < lb ∧ lb < ub ∧ ∃ (r : GdlyResult) (gd : ℝ),
      computeCoefsSpecOrderGdly bld stack1 stack2 arr 1 g 0 prec lb ub (1 / 6) (9 / 20) = .ok r ∧ r.code = .ok ∧
      computeGroupDelay bld r.coefArr 1 0 false = .ok gd ∧ prec < |gd - g| :=
  gdly_no_conv bld stack1 stack2 arr hlen

/-- **C47** What the result codes mean. `FAIL_GD_TBW`: nothing is written. Otherwise the coefficients are a design for a transition
bandwidth `lb + (ub - lb) j / 2^m` reached by bisection, whose attenuation is in the demanded range if the code is OK (then
attenuation and transition bandwidth are written), and out of it for `FAIL_ATTEN`. The group delay is within the precision, or 1000
steps were made. For `FAIL_CONV` it is always within the precision. Missing: that OK means within the precision (it is false). -/
theorem C47_codes_partial (bld : Build) (stack1 stack2 : ℕ → ℝ) (arr : Buf ℝ) (n : ℤ) (g f prec attLb attUb lb ub : ℝ) (r : GdlyResult)
    (h : computeCoefsSpecOrderGdly bld stack1 stack2 arr n g f prec attLb attUb lb ub = .ok r) :
    (r.code = .failGdTbw ∧ r.coefArr = arr ∧ r.written = none) ∨
    ∃ m ≤ 1000, ∃ j : ℕ, 0 < j ∧ j < 2 ^ m ∧ ∃ att gd tbw : ℝ, tbw = lb + (ub - lb) * (j / 2 ^ m) ∧
      computeAttenFromOrderTbw bld n tbw = .ok att ∧
      (∃ arr', computeCoefsSpecOrderTbw bld arr' n tbw = .ok r.coefArr) ∧
      computeGroupDelay bld r.coefArr n f false = .ok gd ∧ (|gd - g| ≤ prec ∨ m = 1000) ∧
      (r.code = .failConv → |gd - g| ≤ prec) ∧ (r.code = .failAtten → att < attLb ∨ attUb < att) ∧ r.code ≠ .failGdTbw ∧
      (r.code ≠ .ok → r.written = none) ∧
      (r.code = .ok → attLb ≤ att ∧ att ≤ attUb ∧ r.written = some (att, tbw)) := by
  rcases gdly_spec h with h | ⟨m, hm, j, j0, j1, att, gd, h1, h2, h3, h4⟩
  · exact Or.inl h
  · exact Or.inr ⟨m, hm, j, j0, j1, att, gd, _, rfl, h1, h2, h3, h4⟩

/-- The hypothesis of `C47_codes_partial` is met by the specification of `C47_false`. -/
example (bld : Build) : ∃ g prec lb ub r, computeCoefsSpecOrderGdly bld (fun _ => 0) (fun _ => 0) ⟨0, 1, fun _ => 0⟩ 1 g 0 prec lb ub
    (1 / 6) (9 / 20) = .ok r := by
  obtain ⟨g, prec, lb, ub, -, -, -, -, r, -, h, -⟩ := C47_false bld (fun _ => 0) (fun _ => 0) ⟨0, 1, fun _ => 0⟩ (by norm_num)
  exact ⟨g, prec, lb, ub, r, h⟩

/-- **C48** The loops of `compute_acc_num` and `compute_acc_den` end for every `q` between 0 and 1. -/
theorem C48_terminates (bld : Build) (q : ℝ) (q0 : 0 < q) (q1 : q < 1) (order c : ℤ) :
    computeAccNum bld q order c ≠ .error .nonterm ∧ computeAccDen bld q order c ≠ .error .nonterm :=
  ⟨accNum_ends bld q0 q1 order c, accDen_ends bld q0 q1 order c⟩

/-- **C48** What `compute_acc_num` returns: a partial sum of the series. `q` is at most 0.62, which holds for the values that
`compute_transition_param` computes; it takes at most 23 iterations. -/
theorem C48_num (bld : Build) (q : ℝ) (q0 : 0 < q) (q1 : q ≤ 31 / 50) (order c : ℤ) (hc : 1 ≤ c) (ho : c < order * 2)
    (ho1 : order < 2 ^ 30) (hc1 : c ≤ 2 ^ 25) :
    ∃ n ≤ 22, computeAccNum bld q order c =
      .ok (∑ i ∈ Finset.range (n + 1), (-1) ^ i * q ^ (i * (i + 1)) * Real.sin ((2 * i + 1) * c * PI / order)) := by
  have hN : q ^ (22 * (22 + 1)) ≤ 1e-100 :=
    (pow_le_pow_left₀ q0.le q1 _).trans (by rw [show 22 * (22 + 1) = 2 * 253 from rfl, pow_mul]; norm_num)
  obtain ⟨n, hn, -, -, h⟩ := accNum_ok bld hc ho ho1 le_rfl hc1 ((abs_numTerm_le q0.le order c 22).trans hN)
  refine ⟨n, hn, h.trans ?_⟩
  congr 1
  refine Finset.sum_congr rfl fun i _ => ?_
  unfold numTerm
  push_cast
  rw [show ((i : ℝ) * 2 + 1) * c * PI = (2 * i + 1) * c * PI by ring]
  ring

/-- **C48** The same for `compute_acc_den`. -/
theorem C48_den (bld : Build) (q : ℝ) (q0 : 0 < q) (q1 : q ≤ 31 / 50) (order c : ℤ) (hc : 1 ≤ c) (ho : c < order * 2)
    (ho1 : order < 2 ^ 30) (hc1 : c ≤ 2 ^ 25) :
    ∃ n ≤ 21, computeAccDen bld q order c =
      .ok (∑ i ∈ Finset.range (n + 1), (-1) ^ (i + 1) * q ^ ((i + 1) ^ 2) * Real.cos (2 * (i + 1) * c * PI / order)) := by
  have hN : q ^ ((21 + 1) * (21 + 1)) ≤ 1e-100 :=
    (pow_le_pow_left₀ q0.le q1 _).trans (by rw [show (21 + 1) * (21 + 1) = 2 * 242 from rfl, pow_mul]; norm_num)
  obtain ⟨n, hn, -, -, h⟩ := accDen_ok bld hc ho ho1 (by norm_num) hc1 ((abs_denTerm_le q0.le order c 21).trans hN)
  refine ⟨n, hn, h.trans ?_⟩
  congr 1
  refine Finset.sum_congr rfl fun i _ => ?_
  unfold denTerm
  push_cast
  rw [show ((i : ℝ) + 1) * 2 * c * PI = 2 * (i + 1) * c * PI by ring]
  ring

/-- **C48** The bound on `q` always holds: `q` as computed from the transition bandwidth. -/
theorem C48_nome (bld : Build) (t : ℝ) (h0 : 0 < t) (h1 : t < 1 / 2) :
    ∃ k q, computeTransitionParam bld t = .ok (k, q) ∧ 0 < k ∧ k < 1 ∧ 0 < q ∧ q ≤ 31 / 50 :=
  ⟨_, _, transition_ok bld h0 h1, (kOf_bounds h0 h1).1, (kOf_bounds h0 h1).2, (nome_bounds h0 h1).1, (nome_bounds h0 h1).2.le⟩

/-- Slow convergence, but termination -/
example (bld : Build) : computeAccNum bld (1 - 1 / 10 ^ 9) 7 2 ≠ .error .nonterm :=
  (C48_terminates bld _ (by norm_num) (by norm_num) 7 2).1

example (bld : Build) : ∃ x y, computeAccNum bld (1 / 2) 7 2 = .ok x ∧ computeAccDen bld (1 / 2) 7 2 = .ok y := by
  obtain ⟨n, -, h⟩ := C48_num bld (1 / 2) (by norm_num) (by norm_num) 7 2 (by norm_num) (by norm_num) (by norm_num) (by norm_num)
  obtain ⟨m, -, h'⟩ := C48_den bld (1 / 2) (by norm_num) (by norm_num) 7 2 (by norm_num) (by norm_num) (by norm_num) (by norm_num)
  exact ⟨_, _, h, h'⟩

/-- **C62** Negation: the phase delay of a cell with coefficient 0, `z⁻²`, is 2 samples (`-apPhase 0 (2 w) / w`). The result of
`compute_phase_delay` is `1 / f - 1` (equal to 2 only for `f = 1/3`). -/
theorem C62_false (bld : Build) (f : ℝ) (f0 : 0 < f) (f1 : f < 1 / 2) :
    computePhaseDelay bld 0 f = .ok (1 / f - 1) ∧ -apPhase 0 (2 * (2 * PI * f)) / (2 * PI * f) = 2 ∧ (f ≠ 1 / 3 → 1 / f - 1 ≠ 2) := by
  have hPI := PI_pos
  refine ⟨phaseDelay_zero bld f0 f1, ?_, fun h1 h2 => h1 ?_⟩
  · simp only [apPhase, zero_mul, zero_div, Real.arctan_zero, mul_zero, zero_sub, neg_neg]
    field_simp
  · field_simp at h2 ⊢
    linarith

/-- **C62** At frequency 0, which is in the documented range, `compute_phase_delay` divides by zero. -/
theorem C62_false_dc (bld : Build) (a : ℝ) (a0 : 0 ≤ a) (a1 : a ≤ 1) : computePhaseDelay bld a 0 = .error .domain :=
  phaseDelay_dc bld a0 a1

private theorem apPhase_range {a w : ℝ} (a0 : 0 ≤ a) (a1 : a < 1) (w0 : 0 < w) (w1 : w < Real.pi) :
    -Real.pi < apPhase a w ∧ apPhase a w < 0 := by
  have hs : 0 < Real.sin w := Real.sin_pos_of_pos_of_lt_pi w0 w1
  have hc : -1 ≤ Real.cos w := Real.neg_one_le_cos w
  have hc1 : -1 < Real.cos w := by
    rw [← Real.cos_pi]
    exact Real.cos_lt_cos_of_nonneg_of_le_pi w0.le le_rfl w1
  have hd : 0 < 1 + a * Real.cos w := by nlinarith
  have ht : 0 ≤ a * Real.sin w / (1 + a * Real.cos w) := by positivity
  unfold apPhase
  constructor
  · have := Real.arctan_nonneg.mpr ht
    linarith
  · have h1 : a * Real.sin w / (1 + a * Real.cos w) < Real.tan (w / 2) := by
      have hch : 0 < Real.cos (w / 2) := Real.cos_pos_of_mem_Ioo ⟨by linarith, by linarith⟩
      have e1 : Real.sin w = 2 * Real.sin (w / 2) * Real.cos (w / 2) := by
        rw [← Real.sin_two_mul]
        ring_nf
      have e2 : Real.cos w = 2 * Real.cos (w / 2) ^ 2 - 1 := by
        rw [← Real.cos_two_mul]
        ring_nf
      have hsh : 0 < Real.sin (w / 2) := Real.sin_pos_of_pos_of_lt_pi (by linarith) (by linarith)
      rw [Real.tan_eq_sin_div_cos, div_lt_div_iff₀ hd hch, e1, e2]
      nlinarith [mul_pos hsh (sub_pos.mpr a1)]
    have h2 : Real.arctan (a * Real.sin w / (1 + a * Real.cos w)) < Real.arctan (Real.tan (w / 2)) := Real.arctan_strictMono h1
    rw [Real.arctan_tan (by linarith) (by linarith)] at h2
    linarith

/-- **C62** What `compute_phase_delay` returns: `1 / f` (one period) minus the phase delay, in samples, of the cell `(a + z⁻¹) / (1 + a z⁻¹)`.
Missing: that it is the phase delay of the cell `(a + z⁻²) / (1 + a z⁻²)` the filters are made of; it is false. -/
theorem C62_value_partial (bld : Build) (a f : ℝ) (a0 : 0 ≤ a) (a1 : a < 1) (f0 : 0 < f) (f1 : f < 1 / 2) :
    computePhaseDelay bld a f = .ok (1 / f - -apPhase a (2 * PI * f) / (2 * PI * f)) := by
  have hPI := PI_pos
  have hw0 : 0 < 2 * PI * f := by positivity
  have hw1 : 2 * PI * f < Real.pi := by nlinarith [PI_lt_pi]
  obtain ⟨r1, r2⟩ := apPhase_range a0 a1 hw0 hw1
  unfold computePhaseDelay
  rw [assertP_ok a0, ok_bind, assertP_ok a1.le, ok_bind, assertP_ok f0.le, ok_bind, assertP_ok (by norm_num; linarith), ok_bind]
  set w := 2 * PI * f
  set φ := apPhase a w
  have hcis := Bern.cis_apPhase (by rw [abs_of_nonneg a0]; exact a1) w
  have hre : Real.cos φ * (1 + a * Real.cos w) + Real.sin φ * (a * Real.sin w) = a + Real.cos w := by
    have := congrArg Complex.re hcis
    simp [Bern.cis, -Complex.ofReal_sin, -Complex.ofReal_cos] at this
    linarith
  have him : Real.sin φ * (1 + a * Real.cos w) - Real.cos φ * (a * Real.sin w) = -Real.sin w := by
    have := congrArg Complex.im hcis
    simp [Bern.cis, -Complex.ofReal_sin, -Complex.ofReal_cos] at this
    linarith
  have hsc := Real.sin_sq_add_cos_sq w
  have harg : atan2 (a * a * Real.sin w - Real.sin w)
      (a + Real.cos w + a * (Real.cos w * (a + Real.cos w) + Real.sin w * Real.sin w)) = φ := by
    unfold atan2
    have hm : 0 < 1 + 2 * a * Real.cos w + a ^ 2 := by nlinarith [Real.neg_one_le_cos w, sq_nonneg (1 - a)]
    have e : (⟨a + Real.cos w + a * (Real.cos w * (a + Real.cos w) + Real.sin w * Real.sin w), a * a * Real.sin w - Real.sin w⟩ : ℂ)
        = ((1 + 2 * a * Real.cos w + a ^ 2 : ℝ) : ℂ) * (Complex.cos φ + Complex.sin φ * Complex.I) := by
      rw [← Complex.ofReal_cos, ← Complex.ofReal_sin]
      apply Complex.ext
      · simp only [Complex.mul_re, Complex.add_re, Complex.ofReal_re, Complex.ofReal_im, Complex.I_re, Complex.I_im, Complex.add_im,
          Complex.mul_im]
        linear_combination -(1 + a * Real.cos w) * hre + (a * Real.sin w) * him + (a ^ 2 * Real.cos φ) * hsc
      · simp only [Complex.mul_re, Complex.add_re, Complex.ofReal_re, Complex.ofReal_im, Complex.I_re, Complex.I_im, Complex.add_im,
          Complex.mul_im]
        linear_combination -(a * Real.sin w) * hre - (1 + a * Real.cos w) * him + (a ^ 2 * Real.sin φ) * hsc
    rw [e, Complex.arg_mul_cos_add_sin_mul_I hm ⟨r1, by linarith [Real.pi_pos]⟩]
  simp only
  rw [harg, if_pos r2, divR_ok hw0.ne']
  congr 1
  have : 2 * PI = w / f := by
    simp only [w]
    field_simp
  rw [this]
  field_simp
  ring

/-- A coefficient of the size the designer computes, at a quarter of the sample rate -/
example (bld : Build) : ∃ d, computePhaseDelay bld (1 / 2) (1 / 4) = .ok d :=
  ⟨_, C62_value_partial bld (1 / 2) (1 / 4) (by norm_num) (by norm_num) (by norm_num) (by norm_num)⟩

/-- **C63** Negation: `compute_coefs_spec_order_gdly` is documented (and asserts) to accept measurement frequencies in [0, 1), but
for [1/2, 1) it fails in an assertion of `compute_group_delay`. -/
theorem C63_false (bld : Build) (hb : bld.ndebug = false) (stack1 stack2 : ℕ → ℝ) (arr : Buf ℝ) (f g prec attLb attUb : ℝ)
    (f0 : 1 / 2 ≤ f) (f1 : f < 1) (hg : 0 < g) (hp : 0 < prec) (ha : 0 < attLb) (hab : attLb < attUb) :
    computeCoefsSpecOrderGdly bld stack1 stack2 arr 1 g f prec attLb attUb (1 / 6) (9 / 20) = .error .assertFail :=
  gdly_high_freq hb stack1 stack2 arr f0 f1 hg hp ha hab

example : computePhaseDelay ⟨true, false, false⟩ 0 (1 / 100) = .ok 99 := by
  have := (C62_false ⟨true, false, false⟩ (1 / 100) (by norm_num) (by norm_num)).1
  norm_num at this
  exact this

end Panda.Designer
