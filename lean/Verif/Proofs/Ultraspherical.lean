import Mathlib.Analysis.Calculus.Deriv.Pow
import Mathlib.Analysis.Calculus.Deriv.Mul
import Mathlib.Algebra.Polynomial.Roots
import Mathlib.Analysis.SpecialFunctions.Complex.Arg
import Mathlib.Analysis.Real.Pi.Bounds
import Mathlib.Tactic.FieldSimp
import Mathlib.Tactic.Linarith
import Mathlib.Tactic.Positivity
import Mathlib.Tactic.Ring
import Verif.Spec.Ultraspherical

/-!
# Gegenbauer polynomials: coefficients, monotonicity, Lipschitz bounds

The coefficients of the window, as functions of the parameter `x`, and lists of integers which represent polynomials.
-/

namespace Panda.FirDesign

open Finset

/-! ## The coefficients of `C_m (x cos θ)` -/

/-- Shift of a sequence by one. -/
def sh (f : ℕ → ℝ) : ℕ → ℝ
  | 0 => 0
  | i + 1 => f i

/-- `C_m (x cos θ) = Σ lau m i cos ((m - 2 i) θ)` -/
noncomputable def lau (mu x : ℝ) : ℕ → ℕ → ℝ
  | 0, i => if i = 0 then 1 else 0
  | 1, i => if i ≤ 1 then mu * x else 0
  | m + 2, i => ((m + 1 + mu) * x * (lau mu x (m + 1) i + sh (lau mu x (m + 1)) i) - (m + 2 * mu) * sh (lau mu x m) i) / (m + 2)

theorem lau_zero_of_lt (mu x : ℝ) : ∀ m i, m < i → lau mu x m i = 0
  | 0, i, h => by rw [lau, if_neg (by omega)]
  | 1, i, h => by rw [lau, if_neg (by omega)]
  | m + 2, i, h => by
    obtain ⟨i, rfl⟩ : ∃ k, i = k + 1 := ⟨i - 1, by omega⟩
    rw [lau, sh, sh, lau_zero_of_lt mu x (m + 1) (i + 1) (by omega), lau_zero_of_lt mu x (m + 1) i (by omega),
      lau_zero_of_lt mu x m i (by omega)]
    simp

theorem lau_symm (mu x : ℝ) : ∀ m i, i ≤ m → lau mu x m (m - i) = lau mu x m i
  | 0, i, h => by
    have : i = 0 := by omega
    subst this
    rfl
  | 1, i, h => by
    rw [lau, lau, if_pos (by omega), if_pos (by omega)]
  | m + 2, i, h => by
    rw [lau, lau]
    rcases Nat.eq_zero_or_pos i with rfl | hi
    · have e : m + 2 - 0 = m + 1 + 1 := by omega
      rw [e]
      simp only [sh]
      rw [lau_zero_of_lt mu x (m + 1) (m + 1 + 1) (by omega), lau_zero_of_lt mu x m (m + 1) (by omega)]
      have := lau_symm mu x (m + 1) 0 (by omega)
      rw [Nat.sub_zero] at this
      rw [this]
      simp
    · obtain ⟨i, rfl⟩ : ∃ k, i = k + 1 := ⟨i - 1, by omega⟩
      rcases Nat.lt_or_ge i (m + 1) with h1 | h1
      · have e : m + 2 - (i + 1) = (m - i) + 1 := by omega
        rw [e]
        simp only [sh]
        have a := lau_symm mu x (m + 1) i (by omega)
        have b := lau_symm mu x (m + 1) (i + 1) (by omega)
        have c := lau_symm mu x m i (by omega)
        rw [show m + 1 - i = m - i + 1 by omega] at a
        rw [show m + 1 - (i + 1) = m - i by omega] at b
        rw [a, b, c]
        ring
      · have e : i = m + 1 := by omega
        subst e
        have e : m + 2 - (m + 1 + 1) = 0 := by omega
        rw [e]
        simp only [sh]
        rw [lau_zero_of_lt mu x (m + 1) (m + 1 + 1) (by omega), lau_zero_of_lt mu x m (m + 1) (by omega)]
        have := lau_symm mu x (m + 1) 0 (by omega)
        rw [Nat.sub_zero] at this
        rw [this]
        simp

/-- `Σ f i cos ((m - 2 i) θ)` -/
noncomputable def cosSum (f : ℕ → ℝ) (m : ℕ) (θ : ℝ) : ℝ := ∑ i ∈ range (m + 1), f i * Real.cos (((m : ℝ) - 2 * i) * θ)

theorem cosSum_sh (f : ℕ → ℝ) (m : ℕ) (θ : ℝ) (h : f (m + 1) = 0) : cosSum (sh f) (m + 2) θ = cosSum f m θ := by
  unfold cosSum
  rw [sum_range_succ', sum_range_succ]
  simp only [sh, h, zero_mul, add_zero]
  refine sum_congr rfl fun i _ => ?_
  congr 2
  push_cast
  ring

theorem cosSum_mul (f : ℕ → ℝ) (m : ℕ) (θ : ℝ) (h : f (m + 1) = 0) :
    cosSum (fun i => f i + sh f i) (m + 1) θ = 2 * Real.cos θ * cosSum f m θ := by
  have e : cosSum (fun i => f i + sh f i) (m + 1) θ = cosSum f (m + 1) θ + cosSum (sh f) (m + 1) θ := by
    unfold cosSum
    rw [← sum_add_distrib]
    exact sum_congr rfl fun i _ => by ring
  rw [e]
  unfold cosSum
  rw [sum_range_succ, h, zero_mul, add_zero, sum_range_succ' (fun i => sh f i * _)]
  simp only [sh, zero_mul, add_zero]
  rw [← sum_add_distrib, mul_sum]
  refine sum_congr rfl fun i _ => ?_
  have a : Real.cos ((((m + 1 : ℕ) : ℝ) - 2 * (i : ℝ)) * θ) = Real.cos (((m : ℝ) - 2 * i) * θ + θ) := by
    congr 1
    push_cast
    ring
  have b : Real.cos ((((m + 1 : ℕ) : ℝ) - 2 * ((i + 1 : ℕ) : ℝ)) * θ) = Real.cos (((m : ℝ) - 2 * i) * θ - θ) := by
    congr 1
    push_cast
    ring
  rw [a, b, Real.cos_add, Real.cos_sub]
  ring

theorem gegen_cos (mu x θ : ℝ) : ∀ m, gegen mu m (x * Real.cos θ) = cosSum (lau mu x m) m θ
  | 0 => by simp [gegen, cosSum, lau]
  | 1 => by
    simp only [gegen, cosSum, sum_range_succ, sum_range_zero, lau]
    rw [if_pos (by omega), if_pos (by omega)]
    have a : Real.cos ((((1 : ℕ) : ℝ) - 2 * ((0 : ℕ) : ℝ)) * θ) = Real.cos θ := by
      congr 1
      push_cast
      ring
    have b : Real.cos ((((1 : ℕ) : ℝ) - 2 * ((1 : ℕ) : ℝ)) * θ) = Real.cos θ := by
      rw [← Real.cos_neg]
      congr 1
      push_cast
      ring
    rw [a, b]
    ring
  | m + 2 => by
    rw [gegen, gegen_cos mu x θ (m + 1), gegen_cos mu x θ m]
    have a := cosSum_mul (lau mu x (m + 1)) (m + 1) θ (lau_zero_of_lt _ _ _ _ (by omega))
    have b := cosSum_sh (lau mu x m) m θ (lau_zero_of_lt _ _ _ _ (by omega))
    have e : cosSum (lau mu x (m + 2)) (m + 2) θ
        = ((m + 1 + mu) * x * cosSum (fun i => lau mu x (m + 1) i + sh (lau mu x (m + 1)) i) (m + 1 + 1) θ
          - (m + 2 * mu) * cosSum (sh (lau mu x m)) (m + 2) θ) / (m + 2) := by
      unfold cosSum
      rw [mul_sum, mul_sum, ← sum_sub_distrib, sum_div]
      refine sum_congr rfl fun i _ => ?_
      rw [lau]
      push_cast
      ring_nf
    rw [e, a, b]
    ring

/-! ## The window is determined by its response -/

theorem coef_zero (n : ℕ) (d : ℕ → ℝ) (hs : ∀ i ≤ 2 * n, d (2 * n - i) = d i)
    (h : ∀ ω : ℝ, ∑ i ∈ range (2 * n + 1), d i * Real.cos (((i : ℝ) - n) * ω) = 0) : ∀ i ≤ 2 * n, d i = 0 := by
  have hsin : ∀ ω : ℝ, ∑ i ∈ range (2 * n + 1), d i * Real.sin (((i : ℝ) - n) * ω) = 0 := by
    intro ω
    have e : ∑ i ∈ range (2 * n + 1), d i * Real.sin (((i : ℝ) - n) * ω)
        = ∑ i ∈ range (2 * n + 1), -(d i * Real.sin (((i : ℝ) - n) * ω)) := by
      rw [← sum_range_reflect]
      refine sum_congr rfl fun i hi => ?_
      have hi' : i ≤ 2 * n := by
        have := mem_range.mp hi
        omega
      have e1 : 2 * n + 1 - 1 - i = 2 * n - i := by omega
      rw [e1, hs i hi', ← mul_neg, ← Real.sin_neg]
      congr 2
      rw [Nat.cast_sub hi']
      push_cast
      ring
    rw [sum_neg_distrib] at e
    linarith
  let p : Polynomial ℂ := ∑ i ∈ range (2 * n + 1), Polynomial.monomial i (d i : ℂ)
  have hp : ∀ ω : ℝ, p.eval (Complex.exp (ω * Complex.I)) = 0 := by
    intro ω
    have e : p.eval (Complex.exp (ω * Complex.I)) = Complex.exp (n * ω * Complex.I) *
        ((∑ i ∈ range (2 * n + 1), d i * Real.cos (((i : ℝ) - n) * ω) : ℝ)
          + (∑ i ∈ range (2 * n + 1), d i * Real.sin (((i : ℝ) - n) * ω) : ℝ) * Complex.I) := by
      simp only [p]
      rw [Polynomial.eval_finsetSum]
      push_cast
      rw [sum_mul, ← sum_add_distrib, mul_sum]
      refine sum_congr rfl fun i _ => ?_
      rw [Polynomial.eval_monomial, ← Complex.exp_nat_mul]
      have e2 : (d i : ℂ) * Complex.cos (((i : ℂ) - n) * ω) + (d i : ℂ) * Complex.sin (((i : ℂ) - n) * ω) * Complex.I
          = d i * Complex.exp (((i : ℂ) - n) * ω * Complex.I) := by
        rw [Complex.exp_mul_I]
        ring
      rw [e2, mul_left_comm (Complex.exp _), ← Complex.exp_add]
      congr 2
      ring
    rw [e, h, hsin]
    simp
  have hz : p = 0 := by
    apply Polynomial.eq_zero_of_infinite_isRoot
    have hinj : Function.Injective fun k : ℕ => Complex.exp (((1 / ((k : ℝ) + 1) : ℝ) : ℂ) * Complex.I) := by
      intro a b hab
      have hb : ∀ k : ℕ, (-Real.pi < ((((1 / ((k : ℝ) + 1) : ℝ) : ℂ) * Complex.I).im)) ∧
          ((((1 / ((k : ℝ) + 1) : ℝ) : ℂ) * Complex.I).im) ≤ Real.pi := by
        intro k
        have e : ((((1 / ((k : ℝ) + 1) : ℝ) : ℂ) * Complex.I).im) = 1 / ((k : ℝ) + 1) := by
          rw [Complex.im_ofReal_mul, Complex.I_im, mul_one]
        rw [e]
        have h0 : 0 < 1 / ((k : ℝ) + 1) := by positivity
        have h1 : 1 / ((k : ℝ) + 1) ≤ 1 := by
          rw [div_le_one (by positivity)]
          have : (0 : ℝ) ≤ k := k.cast_nonneg
          linarith
        have := Real.pi_gt_three
        constructor <;> linarith
      have := Complex.exp_inj_of_neg_pi_lt_of_le_pi (hb a).1 (hb a).2 (hb b).1 (hb b).2 hab
      have h2 := mul_right_cancel₀ Complex.I_ne_zero this
      have h3 : (1 / ((a : ℝ) + 1) : ℝ) = 1 / ((b : ℝ) + 1) := by exact_mod_cast h2
      have ha : ((a : ℝ) + 1) ≠ 0 := by positivity
      have hb' : ((b : ℝ) + 1) ≠ 0 := by positivity
      field_simp at h3
      have : (a : ℝ) = b := by linarith
      exact_mod_cast this
    exact Set.infinite_of_injective_forall_mem hinj fun k => hp _
  intro i hi
  have h1 : p.coeff i = (d i : ℂ) := by
    simp only [p]
    rw [Polynomial.finsetSum_coeff]
    simp only [Polynomial.coeff_monomial]
    rw [sum_ite_eq' , if_pos (mem_range.mpr (by omega))]
  rw [hz, Polynomial.coeff_zero] at h1
  exact_mod_cast h1.symm

theorem lau_response (n : ℕ) (mu x ω : ℝ) :
    ∑ i ∈ range (2 * n + 1), lau mu x (2 * n) i * Real.cos (((i : ℝ) - n) * ω) = gegen mu (2 * n) (x * Real.cos (ω / 2)) := by
  rw [gegen_cos]
  unfold cosSum
  refine sum_congr rfl fun i _ => ?_
  rw [← Real.cos_neg]
  congr 2
  push_cast
  ring

/-- The window is the sequence of the coefficients, divided by the middle one. -/
theorem window_unique {n : ℕ} {mu x : ℝ} {win : ℕ → ℝ} (h : IsUltraspherical n mu x win) {i : ℕ} (hi : i ≤ 2 * n) :
    win i = lau mu x (2 * n) i / lau mu x (2 * n) n := by
  obtain ⟨c, hc⟩ := h.response
  have hz := coef_zero n (fun i => win i - c * lau mu x (2 * n) i)
    (fun i hi => by rw [h.symm i hi, lau_symm mu x (2 * n) i hi])
    (fun ω => by
      have e1 := hc ω
      rw [← lau_response, mul_sum, ← sub_eq_zero, ← sum_sub_distrib] at e1
      rw [← e1]
      exact sum_congr rfl fun i _ => by ring)
  have e : ∀ i ≤ 2 * n, win i = c * lau mu x (2 * n) i := fun i hi => sub_eq_zero.mp (hz i hi)
  have h1 := e n (by omega)
  rw [h.one] at h1
  have h2 : lau mu x (2 * n) n ≠ 0 := fun h0 => by
    rw [h0, mul_zero] at h1
    exact one_ne_zero h1
  rw [e i hi, eq_div_iff h2, mul_right_comm, ← h1, one_mul]

theorem window_exists {n : ℕ} {mu x : ℝ} (h : lau mu x (2 * n) n ≠ 0) :
    IsUltraspherical n mu x fun i => lau mu x (2 * n) i / lau mu x (2 * n) n where
  symm i hi := by simp only [lau_symm mu x (2 * n) i hi]
  one := div_self h
  response := ⟨1 / lau mu x (2 * n) n, fun ω => by
    rw [← lau_response, mul_sum]
    exact sum_congr rfl fun i _ => by ring⟩

/-! ## Monotonicity for `x ≥ 1` -/

theorem gegen_pos {mu x : ℝ} (hmu : 1 / 2 ≤ mu) (hx : 1 ≤ x) : ∀ m, 0 < gegen mu m x ∧ gegen mu m x ≤ gegen mu (m + 1) x
  | 0 => by
    rw [gegen, gegen]
    constructor
    · norm_num
    · nlinarith
  | m + 1 => by
    obtain ⟨h1, h2⟩ := gegen_pos hmu hx m
    have h3 : 0 < gegen mu (m + 1) x := lt_of_lt_of_le h1 h2
    refine ⟨h3, ?_⟩
    rw [show m + 1 + 1 = m + 2 by rfl, gegen, le_div_iff₀ (by positivity)]
    have hm : (0 : ℝ) ≤ m := m.cast_nonneg
    have h4 : (m + 1 + mu) * gegen mu (m + 1) x ≤ (m + 1 + mu) * x * gegen mu (m + 1) x := by
      have : (m + 1 + mu) * gegen mu (m + 1) x * 1 ≤ (m + 1 + mu) * gegen mu (m + 1) x * x :=
        mul_le_mul_of_nonneg_left hx (by positivity)
      linarith
    have h5 : (m + 2 * mu) * gegen mu m x ≤ (m + 2 * mu) * gegen mu (m + 1) x := mul_le_mul_of_nonneg_left h2 (by linarith)
    nlinarith

theorem gegen_mono_aux {mu x x' : ℝ} (hmu : 1 / 2 ≤ mu) (hx : 1 ≤ x) (hxx : x < x') :
    ∀ m, 0 ≤ gegen mu m x' - gegen mu m x ∧ gegen mu m x' - gegen mu m x < gegen mu (m + 1) x' - gegen mu (m + 1) x
  | 0 => by
    simp only [gegen]
    constructor
    · norm_num
    · nlinarith
  | m + 1 => by
    obtain ⟨h1, h2⟩ := gegen_mono_aux hmu hx hxx m
    refine ⟨by linarith, ?_⟩
    have hm : (0 : ℝ) ≤ m := m.cast_nonneg
    have h3 := (gegen_pos hmu hx (m + 1)).1
    rw [show m + 1 + 1 = m + 2 by rfl, gegen, gegen, ← sub_div, lt_div_iff₀ (by positivity)]
    set a := gegen mu (m + 1) x
    set a' := gegen mu (m + 1) x'
    set b := gegen mu m x
    set b' := gegen mu m x'
    have h4 : a' - a ≤ x' * a' - x * a := by nlinarith
    have h5 : (m + 1 + mu) * (a' - a) ≤ (m + 1 + mu) * (x' * a' - x * a) := mul_le_mul_of_nonneg_left h4 (by positivity)
    have h6 : (m + 2 * mu) * (b' - b) < (m + 2 * mu) * (a' - a) := mul_lt_mul_of_pos_left h2 (by linarith)
    nlinarith

theorem gegen_strictMono {mu x x' : ℝ} (hmu : 1 / 2 ≤ mu) (hx : 1 ≤ x) (hxx : x < x') {m : ℕ} (hm : 1 ≤ m) :
    gegen mu m x < gegen mu m x' := by
  obtain ⟨m, rfl⟩ : ∃ k, m = k + 1 := ⟨m - 1, by omega⟩
  obtain ⟨h1, h2⟩ := gegen_mono_aux hmu hx hxx m
  linarith

theorem gegen_continuous (mu : ℝ) : ∀ m, Continuous (gegen mu m)
  | 0 => by
    have : gegen mu 0 = fun _ => 1 := by
      funext x
      rfl
    rw [this]
    exact continuous_const
  | 1 => by
    have : gegen mu 1 = fun x => 2 * mu * x := by
      funext x
      rfl
    rw [this]
    fun_prop
  | m + 2 => by
    have : gegen mu (m + 2) = fun x => (2 * (m + 1 + mu) * x * gegen mu (m + 1) x - (m + 2 * mu) * gegen mu m x) / (m + 2) := by
      funext x
      rfl
    rw [this]
    have a := gegen_continuous mu (m + 1)
    have b := gegen_continuous mu m
    fun_prop

/-! ## Bounds for the coefficients -/

theorem sh_bound {f : ℕ → ℝ} {b : ℝ} (hb : 0 ≤ b) (h : ∀ i, |f i| ≤ b) (i : ℕ) : |sh f i| ≤ b := by
  cases i with
  | zero => simpa [sh] using hb
  | succ i => exact h i

theorem sh_sub (f g : ℕ → ℝ) (i : ℕ) : sh f i - sh g i = sh (fun i => f i - g i) i := by
  cases i <;> simp [sh]

theorem lau_bound {x : ℝ} (hx : |x| ≤ 5 / 4) : ∀ m i, |lau (3 / 4) x m i| ≤ 4 ^ m
  | 0, i => by
    rw [lau]
    split_ifs <;> norm_num
  | 1, i => by
    rw [lau]
    split_ifs
    · rw [abs_mul, abs_of_nonneg (by norm_num : (0 : ℝ) ≤ 3 / 4)]
      linarith
    · norm_num
  | m + 2, i => by
    have a := lau_bound hx (m + 1) i
    have b := sh_bound (by positivity) (lau_bound hx (m + 1)) i
    have c := sh_bound (by positivity) (lau_bound hx m) i
    have hm : (0 : ℝ) ≤ m := m.cast_nonneg
    rw [lau, abs_div, abs_of_pos (by positivity : (0 : ℝ) < m + 2), div_le_iff₀ (by positivity)]
    set p := lau (3 / 4) x (m + 1) i
    set q := sh (lau (3 / 4) x (m + 1)) i
    set r := sh (lau (3 / 4) x m) i
    have h1 : |p + q| ≤ 2 * 4 ^ (m + 1) := (abs_add_le _ _).trans (by linarith)
    have h2 : |x * (p + q)| ≤ 5 / 4 * (2 * 4 ^ (m + 1)) := by
      rw [abs_mul]
      exact mul_le_mul hx h1 (abs_nonneg _) (by norm_num)
    have h3 : |(m + 1 + 3 / 4 : ℝ) * x * (p + q)| ≤ (m + 2) * (5 / 4 * (2 * 4 ^ (m + 1))) := by
      rw [mul_assoc, abs_mul, abs_of_nonneg (by positivity : (0 : ℝ) ≤ m + 1 + 3 / 4)]
      exact mul_le_mul (by linarith) h2 (abs_nonneg _) (by positivity)
    have h4 : |(m + 2 * (3 / 4) : ℝ) * r| ≤ (m + 2) * 4 ^ m := by
      rw [abs_mul, abs_of_nonneg (by positivity : (0 : ℝ) ≤ m + 2 * (3 / 4))]
      exact mul_le_mul (by linarith) c (abs_nonneg _) (by positivity)
    refine (abs_sub _ _).trans ((add_le_add h3 h4).trans ?_)
    have h5 : (0 : ℝ) ≤ (m + 2) * 4 ^ m := by positivity
    rw [pow_succ, pow_add]
    nlinarith

theorem lau_lip {x x0 : ℝ} (hx : |x| ≤ 5 / 4) (hx0 : |x0| ≤ 5 / 4) :
    ∀ m i, |lau (3 / 4) x m i - lau (3 / 4) x0 m i| ≤ 5 ^ m * |x - x0|
  | 0, i => by
    rw [lau, lau, sub_self, abs_zero]
    positivity
  | 1, i => by
    rw [lau, lau]
    split_ifs
    · rw [← mul_sub, abs_mul, abs_of_nonneg (by norm_num : (0 : ℝ) ≤ 3 / 4)]
      have := abs_nonneg (x - x0)
      linarith
    · simp
  | m + 2, i => by
    have a := lau_lip hx hx0 (m + 1) i
    have b := sh_bound (by positivity) (lau_lip hx hx0 (m + 1)) i
    have c := sh_bound (by positivity) (lau_lip hx hx0 m) i
    rw [← sh_sub] at b c
    have a0 := lau_bound hx0 (m + 1) i
    have b0 := sh_bound (by positivity) (lau_bound hx0 (m + 1)) i
    have hm : (0 : ℝ) ≤ m := m.cast_nonneg
    rw [lau, lau, ← sub_div, abs_div, abs_of_pos (by positivity : (0 : ℝ) < m + 2), div_le_iff₀ (by positivity)]
    set p := lau (3 / 4) x (m + 1) i
    set q := sh (lau (3 / 4) x (m + 1)) i
    set r := sh (lau (3 / 4) x m) i
    set p0 := lau (3 / 4) x0 (m + 1) i
    set q0 := sh (lau (3 / 4) x0 (m + 1)) i
    set r0 := sh (lau (3 / 4) x0 m) i
    set D := |x - x0|
    have hD : 0 ≤ D := abs_nonneg _
    have e : (m + 1 + 3 / 4 : ℝ) * x * (p + q) - (m + 2 * (3 / 4)) * r - ((m + 1 + 3 / 4) * x0 * (p0 + q0) - (m + 2 * (3 / 4)) * r0)
        = (m + 1 + 3 / 4) * (x * ((p - p0) + (q - q0)) + (x - x0) * (p0 + q0)) - (m + 2 * (3 / 4)) * (r - r0) := by ring
    rw [e]
    have h1 : |(p - p0) + (q - q0)| ≤ 2 * (5 ^ (m + 1) * D) := (abs_add_le _ _).trans (by linarith)
    have h2 : |x * ((p - p0) + (q - q0))| ≤ 5 / 4 * (2 * (5 ^ (m + 1) * D)) := by
      rw [abs_mul]
      exact mul_le_mul hx h1 (abs_nonneg _) (by norm_num)
    have h1' : |p0 + q0| ≤ 2 * 4 ^ (m + 1) := (abs_add_le _ _).trans (by linarith)
    have h2' : |(x - x0) * (p0 + q0)| ≤ D * (2 * 4 ^ (m + 1)) := by
      rw [abs_mul]
      exact mul_le_mul_of_nonneg_left h1' hD
    have h3 : |(m + 1 + 3 / 4 : ℝ) * (x * ((p - p0) + (q - q0)) + (x - x0) * (p0 + q0))|
        ≤ (m + 2) * (5 / 4 * (2 * (5 ^ (m + 1) * D)) + D * (2 * 4 ^ (m + 1))) := by
      rw [abs_mul, abs_of_nonneg (by positivity : (0 : ℝ) ≤ m + 1 + 3 / 4)]
      exact mul_le_mul (by linarith) ((abs_add_le _ _).trans (by linarith)) (abs_nonneg _) (by positivity)
    have h4 : |(m + 2 * (3 / 4) : ℝ) * (r - r0)| ≤ (m + 2) * (5 ^ m * D) := by
      rw [abs_mul, abs_of_nonneg (by positivity : (0 : ℝ) ≤ m + 2 * (3 / 4))]
      exact mul_le_mul (by linarith) c (abs_nonneg _) (by positivity)
    refine (abs_sub _ _).trans ((add_le_add h3 h4).trans ?_)
    have h5 : (0 : ℝ) ≤ (m + 2) * D := by positivity
    have h6 : (4 : ℝ) ^ m ≤ 5 ^ m := by gcongr; norm_num
    have h7 : (0 : ℝ) ≤ 5 ^ m := by positivity
    have h8 : 5 / 4 * (2 * (5 ^ (m + 1) * D)) + D * (2 * 4 ^ (m + 1)) + 5 ^ m * D ≤ 5 ^ (m + 2) * D := by
      rw [pow_succ, pow_succ, pow_add]
      nlinarith
    nlinarith

end Panda.FirDesign
