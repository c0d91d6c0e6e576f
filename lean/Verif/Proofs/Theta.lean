import Mathlib.Analysis.Normed.Ring.InfiniteSum
import Mathlib.Analysis.SpecificLimits.Normed
import Mathlib.Analysis.SpecialFunctions.Trigonometric.Basic
import Mathlib.Topology.Algebra.InfiniteSum.NatInt
import Mathlib.Tactic.LinearCombination

/-!
# Theta functions

The series which the filter designer evaluates. `T q w = Σ q^(n²) w^n` and `U q w = Σ q^(n² + n) w^n` (over all integers), their squares,
and what follows for the real series.
-/

namespace Panda.Theta

/-- Terms of `T` -/
noncomputable def tT (q : ℝ) (w : ℂ) (n : ℤ) : ℂ := (q : ℂ) ^ (n * n) * w ^ n

/-- Terms of `U` -/
noncomputable def tU (q : ℝ) (w : ℂ) (n : ℤ) : ℂ := (q : ℂ) ^ (n * n + n) * w ^ n

noncomputable def T (q : ℝ) (w : ℂ) : ℂ := ∑' n, tT q w n
noncomputable def U (q : ℝ) (w : ℂ) : ℂ := ∑' n, tU q w n

variable {q : ℝ} {w : ℂ}

private theorem zpow_le {q : ℝ} (q0 : 0 < q) (q1 : q < 1) {e : ℤ} {k : ℕ} (h : (k : ℤ) ≤ e) : q ^ e ≤ q ^ k := by
  rw [← zpow_natCast]
  exact zpow_le_zpow_right_of_le_one₀ q0 q1.le h

theorem summable_T (q0 : 0 < q) (q1 : q < 1) (hw : ‖w‖ = 1) : Summable fun n => ‖tT q w n‖ := by
  have hg := summable_geometric_of_lt_one q0.le q1
  have hn : ∀ n, ‖tT q w n‖ = q ^ (n * n) := fun n => by
    simp only [tT, norm_mul, norm_zpow, hw, one_zpow, mul_one, Complex.norm_real, Real.norm_eq_abs, abs_of_pos q0]
  refine Summable.of_nat_of_neg_add_one ?_ ?_
  · refine Summable.of_nonneg_of_le (fun n => norm_nonneg _) (fun n => ?_) hg
    rw [hn]
    exact zpow_le q0 q1 (by nlinarith [n.zero_le])
  · refine Summable.of_nonneg_of_le (fun n => norm_nonneg _) (fun n => ?_) hg
    rw [hn]
    exact zpow_le q0 q1 (by nlinarith [n.zero_le])

theorem summable_U (q0 : 0 < q) (q1 : q < 1) (hw : ‖w‖ = 1) : Summable fun n => ‖tU q w n‖ := by
  have hg := summable_geometric_of_lt_one q0.le q1
  have hn : ∀ n, ‖tU q w n‖ = q ^ (n * n + n) := fun n => by
    simp only [tU, norm_mul, norm_zpow, hw, one_zpow, mul_one, Complex.norm_real, Real.norm_eq_abs, abs_of_pos q0]
  refine Summable.of_nat_of_neg_add_one ?_ ?_
  · refine Summable.of_nonneg_of_le (fun n => norm_nonneg _) (fun n => ?_) hg
    rw [hn]
    exact zpow_le q0 q1 (by nlinarith [n.zero_le])
  · refine Summable.of_nonneg_of_le (fun n => norm_nonneg _) (fun n => ?_) hg
    rw [hn]
    exact zpow_le q0 q1 (by nlinarith [n.zero_le])

/-- Pairs of integers with even sum, and with odd sum. -/
def evenP (p : ℤ × ℤ) : ℤ × ℤ := (p.1 + p.2, p.1 - p.2)
def oddP (p : ℤ × ℤ) : ℤ × ℤ := (p.1 + p.2 + 1, p.1 - p.2)

theorem evenP_inj : Function.Injective evenP := by
  rintro ⟨a, b⟩ ⟨c, d⟩ h
  simp only [evenP, Prod.mk.injEq] at h ⊢
  omega

theorem oddP_inj : Function.Injective oddP := by
  rintro ⟨a, b⟩ ⟨c, d⟩ h
  simp only [oddP, Prod.mk.injEq] at h ⊢
  omega

theorem isCompl_range : IsCompl (Set.range evenP) (Set.range oddP) := by
  rw [isCompl_iff, disjoint_iff, codisjoint_iff]
  constructor
  · ext ⟨a, b⟩
    simp only [Set.inf_eq_inter, Set.mem_inter_iff, Set.mem_range, evenP, oddP, Prod.mk.injEq, Prod.exists, Set.bot_eq_empty,
      Set.mem_empty_iff_false, iff_false, not_and, not_exists, forall_exists_index]
    omega
  · ext ⟨a, b⟩
    simp only [Set.sup_eq_union, Set.mem_union, Set.mem_range, evenP, oddP, Prod.mk.injEq, Prod.exists, Set.top_eq_univ, Set.mem_univ,
      iff_true]
    rcases Int.even_or_odd (a + b) with ⟨s, hs⟩ | ⟨s, hs⟩
    · exact Or.inl ⟨s, a - s, by omega, by omega⟩
    · exact Or.inr ⟨s, a - s - 1, by omega, by omega⟩

theorem hasSum_split {f : ℤ × ℤ → ℂ} {a b : ℂ} (ha : HasSum (f ∘ evenP) a) (hb : HasSum (f ∘ oddP) b) : HasSum f (a + b) :=
  HasSum.add_isCompl isCompl_range ((evenP_inj.hasSum_range_iff).mpr ha) ((oddP_inj.hasSum_range_iff).mpr hb)

theorem hasSum_prod {f g : ℤ → ℂ} (hf : Summable fun n => ‖f n‖) (hg : Summable fun n => ‖g n‖) :
    HasSum (fun p : ℤ × ℤ => f p.1 * g p.2) ((∑' n, f n) * ∑' n, g n) := by
  rw [tsum_mul_tsum_of_summable_norm hf hg]
  exact (summable_mul_of_summable_norm hf hg).hasSum

private theorem hcongr {f g : ℤ × ℤ → ℂ} {a : ℂ} (hg : HasSum g a) (h : ∀ p, f p = g p) : HasSum f a := by
  rwa [funext h]

theorem tT_two (n : ℤ) : tT (q ^ 2) (w ^ 2) n = (q : ℂ) ^ (2 * (n * n)) * w ^ (2 * n) := by
  unfold tT
  rw [zpow_mul (q : ℂ) 2, zpow_mul w]
  norm_cast

theorem tU_two (n : ℤ) : tU (q ^ 2) (w ^ 2) n = (q : ℂ) ^ (2 * (n * n + n)) * w ^ (2 * n) := by
  unfold tU
  rw [zpow_mul, zpow_mul w]
  norm_cast

theorem tT_one (n : ℤ) : tT (q ^ 2) 1 n = (q : ℂ) ^ (2 * (n * n)) := by
  unfold tT
  rw [zpow_mul (q : ℂ) 2, one_zpow, mul_one]
  norm_cast

theorem tU_one (n : ℤ) : tU (q ^ 2) 1 n = (q : ℂ) ^ (2 * (n * n + n)) := by
  unfold tU
  rw [zpow_mul, one_zpow, mul_one]
  norm_cast

private theorem collect {a b c d e f g h : ℤ} {x y : ℂ} (hx : x ≠ 0) (hy : y ≠ 0) (h1 : a + c = e + g) (h2 : b + d = f + h) :
    x ^ a * y ^ b * (x ^ c * y ^ d) = x ^ e * y ^ f * (x ^ g * y ^ h) := by
  rw [mul_mul_mul_comm, ← zpow_add₀ hx, ← zpow_add₀ hy, h1, h2, zpow_add₀ hx, zpow_add₀ hy, mul_mul_mul_comm]

theorem T_sq (q0 : 0 < q) (q1 : q < 1) (hw : ‖w‖ = 1) :
    T q w ^ 2 = T (q ^ 2) (w ^ 2) * T (q ^ 2) 1 + q * w * (U (q ^ 2) (w ^ 2) * U (q ^ 2) 1) := by
  have w0 : w ≠ 0 := by
    intro h
    simp [h] at hw
  have qc : (q : ℂ) ≠ 0 := by exact_mod_cast q0.ne'
  have h2 : ‖w ^ 2‖ = 1 := by simp [hw]
  have p0 : 0 < q ^ 2 := by positivity
  have p1 : q ^ 2 < 1 := by nlinarith
  have h1 := hasSum_prod (summable_T q0 q1 hw) (summable_T q0 q1 hw)
  have he := hasSum_prod (summable_T p0 p1 h2) (summable_T (w := 1) p0 p1 (by simp))
  have ho := (hasSum_prod (summable_U p0 p1 h2) (summable_U (w := 1) p0 p1 (by simp))).mul_left ((q : ℂ) * w)
  rw [sq]
  refine h1.unique (hasSum_split (hcongr he fun p => ?_) (hcongr ho fun p => ?_))
  · obtain ⟨s, d⟩ := p
    rw [tT_two, tT_one]
    simp only [Function.comp, evenP, tT]
    have := collect (a := (s + d) * (s + d)) (b := s + d) (c := (s - d) * (s - d)) (d := s - d) (e := 2 * (s * s)) (f := 2 * s)
      (g := 2 * (d * d)) (h := 0) qc w0 (by ring) (by ring)
    rw [this, zpow_zero, mul_one]
  · obtain ⟨s, d⟩ := p
    rw [tU_two, tU_one]
    simp only [Function.comp, oddP, tT]
    have := collect (a := (s + d + 1) * (s + d + 1)) (b := s + d + 1) (c := (s - d) * (s - d)) (d := s - d) (e := 1) (f := 1)
      (g := 2 * (s * s + s) + 2 * (d * d + d)) (h := 2 * s) qc w0 (by ring) (by ring)
    rw [this, zpow_one, zpow_one, zpow_add₀ qc]
    ring

theorem U_sq (q0 : 0 < q) (q1 : q < 1) (hw : ‖w‖ = 1) :
    w * U q w ^ 2 = w * (U (q ^ 2) (w ^ 2) * T (q ^ 2) 1) + T (q ^ 2) (w ^ 2) * U (q ^ 2) 1 := by
  have w0 : w ≠ 0 := by
    intro h
    simp [h] at hw
  have qc : (q : ℂ) ≠ 0 := by exact_mod_cast q0.ne'
  have h2 : ‖w ^ 2‖ = 1 := by simp [hw]
  have p0 : 0 < q ^ 2 := by positivity
  have p1 : q ^ 2 < 1 := by nlinarith
  have h1 := (hasSum_prod (summable_U q0 q1 hw) (summable_U q0 q1 hw)).mul_left w
  have he := (hasSum_prod (summable_U p0 p1 h2) (summable_T (w := 1) p0 p1 (by simp))).mul_left w
  have ho := hasSum_prod (summable_T p0 p1 h2) (summable_U (w := 1) p0 p1 (by simp))
  have ho' : HasSum (fun p : ℤ × ℤ => tT (q ^ 2) (w ^ 2) (p.1 + 1) * tU (q ^ 2) 1 p.2) (T (q ^ 2) (w ^ 2) * U (q ^ 2) 1) :=
    ((Equiv.prodCongr (Equiv.addRight (1 : ℤ)) (Equiv.refl ℤ)).hasSum_iff).mpr ho
  rw [sq]
  refine h1.unique (hasSum_split (hcongr he fun p => ?_) (hcongr ho' fun p => ?_))
  · obtain ⟨s, d⟩ := p
    rw [tU_two, tT_one]
    simp only [Function.comp, evenP, tU]
    have := collect (a := (s + d) * (s + d) + (s + d)) (b := s + d) (c := (s - d) * (s - d) + (s - d)) (d := s - d)
      (e := 2 * (s * s + s)) (f := 2 * s) (g := 2 * (d * d)) (h := 0) qc w0 (by ring) (by ring)
    rw [this, zpow_zero, mul_one]
  · obtain ⟨s, d⟩ := p
    rw [tT_two, tU_one]
    simp only [Function.comp, oddP, tU]
    have := collect (a := (s + d + 1) * (s + d + 1) + (s + d + 1)) (b := s + d + 1) (c := (s - d) * (s - d) + (s - d)) (d := s - d)
      (e := 2 * ((s + 1) * (s + 1))) (f := 2 * (s + 1)) (g := 2 * (d * d + d)) (h := -1) qc w0 (by ring) (by ring)
    rw [this, zpow_neg_one]
    field_simp

/-- `T` on the unit circle -/
noncomputable def rT (q φ : ℝ) : ℝ := 1 + 2 * ∑' i : ℕ, q ^ ((i + 1) * (i + 1)) * Real.cos ((i + 1) * φ)

/-- `U` on the unit circle, rotated -/
noncomputable def rU (q φ : ℝ) : ℝ := 2 * ∑' i : ℕ, q ^ (i * (i + 1)) * Real.cos ((2 * i + 1) * (φ / 2))

/-- `e^{iφ}` -/
noncomputable def unit (φ : ℝ) : ℂ := Complex.exp (φ * Complex.I)

theorem norm_unit (φ : ℝ) : ‖unit φ‖ = 1 := Complex.norm_exp_ofReal_mul_I φ

theorem unit_zpow (φ : ℝ) (n : ℤ) : unit φ ^ n = unit (n * φ) := by
  unfold unit
  rw [← Complex.exp_int_mul]
  congr 1
  push_cast
  ring

theorem unit_mul (a b : ℝ) : unit a * unit b = unit (a + b) := by
  unfold unit
  rw [← Complex.exp_add]
  congr 1
  push_cast
  ring

theorem unit_add_neg (φ : ℝ) : unit φ + unit (-φ) = ((2 * Real.cos φ : ℝ) : ℂ) := by
  unfold unit
  push_cast
  rw [Complex.two_cos]

theorem T_unit (q0 : 0 < q) (q1 : q < 1) (φ : ℝ) : T q (unit φ) = rT q φ := by
  have hs := (summable_T q0 q1 (norm_unit φ)).of_norm
  have h1 : Summable fun n : ℕ => tT q (unit φ) n := hs.comp_injective Nat.cast_injective
  have h2 : Summable fun n : ℕ => tT q (unit φ) (-(n + 1 : ℕ)) := hs.comp_injective fun a b h => by simpa using h
  have h2' : Summable fun n : ℕ => tT q (unit φ) (-(n + 1)) := by
    convert h2 using 3
    push_cast
    ring
  have h3 : Summable fun n : ℕ => tT q (unit φ) ((n + 1 : ℕ) : ℤ) := (summable_nat_add_iff 1).mpr h1
  unfold T
  rw [tsum_of_nat_of_neg_add_one h1 h2', h1.tsum_eq_zero_add, add_assoc, ← h3.tsum_add h2', rT]
  push_cast
  rw [← tsum_mul_left]
  congr 1
  · simp [tT]
  · refine tsum_congr fun i => ?_
    have e := unit_add_neg (((i : ℝ) + 1) * φ)
    unfold tT
    rw [unit_zpow, unit_zpow, show (-((i : ℤ) + 1)) * (-((i : ℤ) + 1)) = ((i + 1) * (i + 1) : ℕ) by push_cast; ring,
      show ((i : ℤ) + 1) * ((i : ℤ) + 1) = ((i + 1) * (i + 1) : ℕ) by push_cast; ring, zpow_natCast, ← mul_add]
    push_cast at e ⊢
    rw [show -((i : ℝ) + 1) * φ = -((i + 1) * φ) by ring, e]
    ring

theorem U_unit (q0 : 0 < q) (q1 : q < 1) (φ : ℝ) : unit (φ / 2) * U q (unit φ) = rU q φ := by
  have hs := (summable_U q0 q1 (norm_unit φ)).of_norm
  have h1 : Summable fun n : ℕ => tU q (unit φ) n := hs.comp_injective Nat.cast_injective
  have h2 : Summable fun n : ℕ => tU q (unit φ) (-(n + 1 : ℕ)) := hs.comp_injective fun a b h => by simpa using h
  have h2' : Summable fun n : ℕ => tU q (unit φ) (-(n + 1)) := by
    convert h2 using 3
    push_cast
    ring
  unfold U
  rw [tsum_of_nat_of_neg_add_one h1 h2', ← h1.tsum_add h2', rU, ← tsum_mul_left]
  push_cast
  rw [← tsum_mul_left]
  refine tsum_congr fun i => ?_
  have e := unit_add_neg ((2 * (i : ℝ) + 1) * (φ / 2))
  unfold tU
  rw [unit_zpow, unit_zpow, show (-((i : ℤ) + 1)) * (-((i : ℤ) + 1)) + -((i : ℤ) + 1) = (i * (i + 1) : ℕ) by push_cast; ring,
    show (i : ℤ) * (i : ℤ) + i = (i * (i + 1) : ℕ) by push_cast; ring, zpow_natCast, ← mul_add, mul_left_comm, mul_add (unit _), unit_mul, unit_mul]
  push_cast at e ⊢
  rw [show φ / 2 + (i : ℝ) * φ = (2 * i + 1) * (φ / 2) by ring, show φ / 2 + -((i : ℝ) + 1) * φ = -((2 * i + 1) * (φ / 2)) by ring, e]
  ring

theorem unit_zero : unit 0 = 1 := by simp [unit]

theorem rT_sq (q0 : 0 < q) (q1 : q < 1) (φ : ℝ) :
    rT q φ ^ 2 = rT (q ^ 2) (2 * φ) * rT (q ^ 2) 0 + q * (rU (q ^ 2) (2 * φ) * rU (q ^ 2) 0) := by
  have p0 : 0 < q ^ 2 := by positivity
  have p1 : q ^ 2 < 1 := by nlinarith
  have h := T_sq q0 q1 (norm_unit φ)
  have e2 : unit φ ^ 2 = unit (2 * φ) := by
    rw [← zpow_natCast, unit_zpow]
    norm_num
  have e3 := U_unit p0 p1 (2 * φ)
  have e4 := U_unit p0 p1 0
  rw [mul_div_cancel_left₀ φ (two_ne_zero)] at e3
  rw [zero_div, unit_zero, one_mul] at e4
  have e5 := T_unit p0 p1 0
  rw [unit_zero] at e5
  rw [T_unit q0 q1, e2, T_unit p0 p1, e5, e4] at h
  have : ((rT q φ ^ 2 : ℝ) : ℂ) = ((rT (q ^ 2) (2 * φ) * rT (q ^ 2) 0 + q * (rU (q ^ 2) (2 * φ) * rU (q ^ 2) 0) : ℝ) : ℂ) := by
    push_cast
    rw [h, ← e3]
    ring
  exact_mod_cast this

theorem rU_sq (q0 : 0 < q) (q1 : q < 1) (φ : ℝ) :
    rU q φ ^ 2 = rU (q ^ 2) (2 * φ) * rT (q ^ 2) 0 + rT (q ^ 2) (2 * φ) * rU (q ^ 2) 0 := by
  have p0 : 0 < q ^ 2 := by positivity
  have p1 : q ^ 2 < 1 := by nlinarith
  have h := U_sq q0 q1 (norm_unit φ)
  have e2 : unit φ ^ 2 = unit (2 * φ) := by
    rw [← zpow_natCast, unit_zpow]
    norm_num
  have e3 := U_unit p0 p1 (2 * φ)
  have e4 := U_unit p0 p1 0
  rw [mul_div_cancel_left₀ φ (two_ne_zero)] at e3
  rw [zero_div, unit_zero, one_mul] at e4
  have e5 := T_unit p0 p1 0
  rw [unit_zero] at e5
  have e6 := U_unit q0 q1 φ
  have e7 : unit φ = unit (φ / 2) ^ 2 := by
    rw [sq, unit_mul]
    congr 1
    ring
  rw [e2, T_unit p0 p1, e5, e4] at h
  have : ((rU q φ ^ 2 : ℝ) : ℂ) = ((rU (q ^ 2) (2 * φ) * rT (q ^ 2) 0 + rT (q ^ 2) (2 * φ) * rU (q ^ 2) 0 : ℝ) : ℂ) := by
    push_cast
    rw [← e6, ← e3, mul_pow, ← e7, h]
    ring
  exact_mod_cast this

theorem rT_two_pi (φ : ℝ) : rT q (φ + 2 * Real.pi) = rT q φ := by
  unfold rT
  congr 2
  refine tsum_congr fun i => ?_
  rw [show ((i : ℝ) + 1) * (φ + 2 * Real.pi) = (i + 1) * φ + ((i + 1 : ℕ) : ℝ) * (2 * Real.pi) by push_cast; ring, Real.cos_add_nat_mul_two_pi]

theorem rU_two_pi (φ : ℝ) : rU q (φ + 2 * Real.pi) = -rU q φ := by
  unfold rU
  rw [← mul_neg, ← tsum_neg]
  congr 1
  refine tsum_congr fun i => ?_
  rw [show (2 * (i : ℝ) + 1) * ((φ + 2 * Real.pi) / 2) = (2 * i + 1) * (φ / 2) + Real.pi + (i : ℝ) * (2 * Real.pi) by ring,
    Real.cos_add_nat_mul_two_pi, Real.cos_add_pi]
  ring

/-- `θ₂² θ₄(u)² - θ₃² θ₁(u)² = θ₄² θ₂(u)²` -/
theorem theta_quad (q0 : 0 < q) (q1 : q < 1) (φ : ℝ) :
    rU q 0 ^ 2 * rT q (φ + Real.pi) ^ 2 - rT q 0 ^ 2 * rU q (φ + Real.pi) ^ 2 = rT q Real.pi ^ 2 * rU q φ ^ 2 := by
  have h1 := rT_sq q0 q1 (φ + Real.pi)
  have h2 := rU_sq q0 q1 (φ + Real.pi)
  have h3 := rT_sq q0 q1 0
  have h4 := rU_sq q0 q1 0
  have h5 := rT_sq q0 q1 (0 + Real.pi)
  have h6 := rU_sq q0 q1 φ
  rw [mul_add, rT_two_pi, rU_two_pi] at h1 h2 h5
  rw [mul_zero] at h3 h4 h5
  rw [zero_add] at h5
  rw [h1, h2, h3, h4, h5, h6]
  ring

/-- `θ₃⁴ - θ₄⁴ = θ₂⁴` -/
theorem theta_quart (q0 : 0 < q) (q1 : q < 1) : rT q 0 ^ 4 - rT q Real.pi ^ 4 = q * rU q 0 ^ 4 := by
  have h3 := rT_sq q0 q1 0
  have h4 := rU_sq q0 q1 0
  have h5 := rT_sq q0 q1 (0 + Real.pi)
  rw [mul_add, rT_two_pi, rU_two_pi] at h5
  rw [mul_zero] at h3 h4 h5
  rw [zero_add] at h5
  rw [show rT q 0 ^ 4 = (rT q 0 ^ 2) ^ 2 by ring, show rT q Real.pi ^ 4 = (rT q Real.pi ^ 2) ^ 2 by ring,
    show rU q 0 ^ 4 = (rU q 0 ^ 2) ^ 2 by ring, h3, h4, h5]
  ring

end Panda.Theta
