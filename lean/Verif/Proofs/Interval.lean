import Mathlib.Analysis.Real.Pi.Bounds
import Mathlib.Analysis.SpecialFunctions.Trigonometric.Bounds
import Mathlib.Analysis.Real.Sqrt
import Mathlib.Tactic.Linarith
import Mathlib.Tactic.NormNum
import Mathlib.Tactic.Positivity
import Mathlib.Tactic.Ring
import Mathlib.Tactic.FieldSimp

/-! # Interval arithmetic with fixed point numbers -/

namespace Panda

/-- The real numbers from `lo / 10^40` to `hi / 10^40`. -/
structure Iv where
  lo : ℤ
  hi : ℤ

namespace Iv

/-- The unit. -/
def S : ℤ := 10 ^ 40

/-- `x` is in the interval. -/
def Has (I : Iv) (x : ℝ) : Prop := (I.lo : ℝ) ≤ x * 10 ^ 40 ∧ x * 10 ^ 40 ≤ I.hi

theorem S_pos : (0 : ℤ) < S := by decide +kernel
theorem S_real : ((S : ℤ) : ℝ) = 10 ^ 40 := by norm_num [S]

/-- Quotient rounded up. -/
def cdiv (a b : ℤ) : ℤ := -((-a) / b)

theorem floor_le {a b : ℤ} (hb : 0 < b) {y : ℝ} (h : (a : ℝ) ≤ y * b) : ((a / b : ℤ) : ℝ) ≤ y := by
  have hb' : (0 : ℝ) < b := by exact_mod_cast hb
  have h1 : (a / b) * b ≤ a := Int.ediv_mul_le a hb.ne'
  have h2 : ((a / b : ℤ) : ℝ) * b ≤ a := by exact_mod_cast h1
  exact le_of_mul_le_mul_right (h2.trans h) hb'

theorem le_ceil {a b : ℤ} (hb : 0 < b) {y : ℝ} (h : y * b ≤ (a : ℝ)) : y ≤ ((cdiv a b : ℤ) : ℝ) := by
  have := floor_le (a := -a) (y := -y) hb (by push_cast; linarith)
  unfold cdiv
  push_cast at this ⊢
  linarith

/-- `a / b`, `b > 0` -/
def rat (a b : ℤ) : Iv := ⟨a * S / b, cdiv (a * S) b⟩

theorem has_rat {a b : ℤ} (hb : 0 < b) {x : ℝ} (h : x * b = a) : (rat a b).Has x := by
  have e : x * 10 ^ 40 * b = ((a * S : ℤ) : ℝ) := by
    push_cast
    rw [S_real, ← h]
    ring
  exact ⟨floor_le hb e.ge, le_ceil hb e.le⟩

def add (I J : Iv) : Iv := ⟨I.lo + J.lo, I.hi + J.hi⟩

theorem Has.add {I J : Iv} {x y : ℝ} (hx : I.Has x) (hy : J.Has y) : (I.add J).Has (x + y) := by
  unfold Has Iv.add at *
  push_cast
  constructor <;> linarith [hx.1, hx.2, hy.1, hy.2]

def neg (I : Iv) : Iv := ⟨-I.hi, -I.lo⟩

theorem Has.neg {I : Iv} {x : ℝ} (hx : I.Has x) : I.neg.Has (-x) := by
  unfold Has Iv.neg at *
  push_cast
  constructor <;> linarith [hx.1, hx.2]

def sub (I J : Iv) : Iv := ⟨I.lo - J.hi, I.hi - J.lo⟩

theorem Has.sub {I J : Iv} {x y : ℝ} (hx : I.Has x) (hy : J.Has y) : (I.sub J).Has (x - y) := by
  unfold Has Iv.sub at *
  push_cast
  constructor <;> linarith [hx.1, hx.2, hy.1, hy.2]

/-- Product with an integer `n ≥ 0`. -/
def nsmul (n : ℕ) (I : Iv) : Iv := ⟨n * I.lo, n * I.hi⟩

theorem Has.nsmul {I : Iv} {x : ℝ} (n : ℕ) (hx : I.Has x) : (I.nsmul n).Has (n * x) := by
  unfold Has Iv.nsmul at *
  have : (0 : ℝ) ≤ n := n.cast_nonneg
  push_cast
  constructor
  · have := mul_le_mul_of_nonneg_left hx.1 this
    linarith
  · have := mul_le_mul_of_nonneg_left hx.2 this
    linarith

/-- Quotient by an integer `n > 0`. -/
def divN (I : Iv) (n : ℕ) : Iv := ⟨I.lo / n, cdiv I.hi n⟩

theorem Has.divN {I : Iv} {x : ℝ} {n : ℕ} (hn : 0 < n) (hx : I.Has x) : (I.divN n).Has (x / n) := by
  have hn' : (0 : ℤ) < n := by exact_mod_cast hn
  have hn'' : (n : ℝ) ≠ 0 := by positivity
  refine ⟨floor_le hn' ?_, le_ceil hn' ?_⟩
  · rw [show x / n * 10 ^ 40 * ((n : ℤ) : ℝ) = x * 10 ^ 40 by push_cast; field_simp]
    exact hx.1
  · rw [show x / n * 10 ^ 40 * ((n : ℤ) : ℝ) = x * 10 ^ 40 by push_cast; field_simp]
    exact hx.2

/-- Least and greatest of four products. -/
def mulMin (I J : Iv) : ℤ := min (min (I.lo * J.lo) (I.lo * J.hi)) (min (I.hi * J.lo) (I.hi * J.hi))
def mulMax (I J : Iv) : ℤ := max (max (I.lo * J.lo) (I.lo * J.hi)) (max (I.hi * J.lo) (I.hi * J.hi))

def mul (I J : Iv) : Iv := ⟨mulMin I J / S, cdiv (mulMax I J) S⟩

theorem mul_between {a b c d x y m M : ℝ} (hx : a ≤ x ∧ x ≤ b) (hy : c ≤ y ∧ y ≤ d)
    (h1 : m ≤ a * c) (h2 : m ≤ a * d) (h3 : m ≤ b * c) (h4 : m ≤ b * d)
    (g1 : a * c ≤ M) (g2 : a * d ≤ M) (g3 : b * c ≤ M) (g4 : b * d ≤ M) : m ≤ x * y ∧ x * y ≤ M := by
  obtain ⟨x1, x2⟩ := hx
  obtain ⟨y1, y2⟩ := hy
  have A : m ≤ x * c ∧ x * c ≤ M := by
    rcases le_total 0 c with h | h
    · exact ⟨h1.trans (mul_le_mul_of_nonneg_right x1 h), (mul_le_mul_of_nonneg_right x2 h).trans g3⟩
    · exact ⟨h3.trans (mul_le_mul_of_nonpos_right x2 h), (mul_le_mul_of_nonpos_right x1 h).trans g1⟩
  have B : m ≤ x * d ∧ x * d ≤ M := by
    rcases le_total 0 d with h | h
    · exact ⟨h2.trans (mul_le_mul_of_nonneg_right x1 h), (mul_le_mul_of_nonneg_right x2 h).trans g4⟩
    · exact ⟨h4.trans (mul_le_mul_of_nonpos_right x2 h), (mul_le_mul_of_nonpos_right x1 h).trans g2⟩
  rcases le_total 0 x with h | h
  · exact ⟨A.1.trans (mul_le_mul_of_nonneg_left y1 h), (mul_le_mul_of_nonneg_left y2 h).trans B.2⟩
  · exact ⟨B.1.trans (mul_le_mul_of_nonpos_left y2 h), (mul_le_mul_of_nonpos_left y1 h).trans A.2⟩

theorem Has.mul {I J : Iv} {x y : ℝ} (hx : I.Has x) (hy : J.Has y) : (I.mul J).Has (x * y) := by
  have h := mul_between (m := ((mulMin I J : ℤ) : ℝ)) (M := ((mulMax I J : ℤ) : ℝ)) hx hy
    (by exact_mod_cast (min_le_left _ _).trans (min_le_left _ _)) (by exact_mod_cast (min_le_left _ _).trans (min_le_right _ _))
    (by exact_mod_cast (min_le_right _ _).trans (min_le_left _ _)) (by exact_mod_cast (min_le_right _ _).trans (min_le_right _ _))
    (by exact_mod_cast (le_max_left _ _).trans (le_max_left _ _)) (by exact_mod_cast (le_max_right _ _).trans (le_max_left _ _))
    (by exact_mod_cast (le_max_left _ _).trans (le_max_right _ _)) (by exact_mod_cast (le_max_right _ _).trans (le_max_right _ _))
  have e : x * y * 10 ^ 40 * (S : ℤ) = x * 10 ^ 40 * (y * 10 ^ 40) := by
    rw [S_real]
    ring
  exact ⟨floor_le S_pos (by rw [e]; exact h.1), le_ceil S_pos (by rw [e]; exact h.2)⟩

/-- Reciprocal of positive numbers. -/
def inv (I : Iv) : Option Iv := if 0 < I.lo then some ⟨S * S / I.hi, cdiv (S * S) I.lo⟩ else none

theorem Has.pos {I : Iv} {x : ℝ} (hx : I.Has x) (h : 0 < I.lo) : 0 < x := by
  have h1 : (0 : ℝ) < I.lo := by exact_mod_cast h
  have := hx.1
  by_contra hc
  have : x * 10 ^ 40 ≤ 0 := by nlinarith
  linarith

theorem Has.inv {I J : Iv} {x : ℝ} (hx : I.Has x) (h : I.inv = some J) : J.Has x⁻¹ ∧ 0 < x := by
  unfold Iv.inv at h
  split at h
  · rename_i hlo
    obtain rfl := Option.some.inj h
    have hp := hx.pos hlo
    have hhi : 0 < I.hi := by
      have : (0 : ℝ) < I.hi := by have := hx.2; have : 0 < x * 10 ^ 40 := by positivity
                                  linarith
      exact_mod_cast this
    refine ⟨⟨floor_le hhi ?_, le_ceil hlo ?_⟩, hp⟩
    · push_cast
      rw [S_real, show x⁻¹ * 10 ^ 40 * (I.hi : ℝ) = 10 ^ 40 * (I.hi * x⁻¹) by ring]
      refine mul_le_mul_of_nonneg_left ?_ (by positivity)
      rw [← div_eq_mul_inv, le_div_iff₀ hp, mul_comm]
      exact hx.2
    · push_cast
      rw [S_real, show x⁻¹ * 10 ^ 40 * (I.lo : ℝ) = 10 ^ 40 * (I.lo * x⁻¹) by ring]
      refine mul_le_mul_of_nonneg_left ?_ (by positivity)
      rw [← div_eq_mul_inv, div_le_iff₀ hp, mul_comm]
      exact hx.1
  · cases h

/-- Quotient by positive numbers. -/
def div (I J : Iv) : Option Iv := J.inv.map I.mul

theorem Has.div {I J K : Iv} {x y : ℝ} (hx : I.Has x) (hy : J.Has y) (h : I.div J = some K) : K.Has (x / y) ∧ 0 < y := by
  unfold Iv.div at h
  rw [Option.map_eq_some_iff] at h
  obtain ⟨L, hL, rfl⟩ := h
  obtain ⟨h1, h2⟩ := hy.inv hL
  rw [div_eq_mul_inv]
  exact ⟨hx.mul h1, h2⟩

/-- Newton's iteration for the integer square root (the result is checked). -/
def newton (a : ℤ) : ℕ → ℤ → ℤ
  | 0, x => x
  | n + 1, x => let y := (x + a / x) / 2; if y < x then newton a n y else x

/-- Square root of non-negative numbers. -/
def sqrt (I : Iv) : Option Iv :=
  let a := newton (I.lo * S) 200 (S * 2)
  let b := newton (I.hi * S) 200 (S * 2) + 1
  if 0 ≤ a ∧ 0 ≤ b ∧ a * a ≤ I.lo * S ∧ I.hi * S ≤ b * b then some ⟨a, b⟩ else none

theorem Has.sqrt {I J : Iv} {x : ℝ} (hx : I.Has x) (h : I.sqrt = some J) : J.Has (Real.sqrt x) ∧ 0 ≤ x := by
  unfold Iv.sqrt at h
  simp only at h
  split at h
  · rename_i hc
    obtain rfl := Option.some.inj h
    generalize newton (I.lo * S) 200 (S * 2) = a at hc
    generalize newton (I.hi * S) 200 (S * 2) + 1 = b at hc
    obtain ⟨ha, hb, h1, h2⟩ := hc
    have ha' : (0 : ℝ) ≤ a := by exact_mod_cast ha
    have hb' : (0 : ℝ) ≤ b := by exact_mod_cast hb
    have h1' : (a : ℝ) * a ≤ I.lo * 10 ^ 40 := by rw [← S_real]; exact_mod_cast h1
    have h2' : (I.hi : ℝ) * 10 ^ 40 ≤ b * b := by rw [← S_real]; exact_mod_cast h2
    have hx0 : 0 ≤ x := by
      have hlo : (0 : ℝ) ≤ I.lo := by nlinarith
      have := hx.1
      by_contra hcon
      nlinarith
    have e : Real.sqrt x * 10 ^ 40 = Real.sqrt (x * 10 ^ 40 * 10 ^ 40) := by
      rw [mul_assoc, Real.sqrt_mul hx0, Real.sqrt_mul_self (by positivity)]
    refine ⟨⟨?_, ?_⟩, hx0⟩
    · rw [e]
      refine Real.le_sqrt_of_sq_le ?_
      have := mul_le_mul_of_nonneg_right hx.1 (by positivity : (0 : ℝ) ≤ 10 ^ 40)
      rw [pow_two]
      linarith
    · rw [e]
      refine Real.sqrt_le_iff.mpr ⟨hb', ?_⟩
      have := mul_le_mul_of_nonneg_right hx.2 (by positivity : (0 : ℝ) ≤ 10 ^ 40)
      rw [pow_two]
      linarith
  · cases h

/-- Powers. -/
def pow (I : Iv) : ℕ → Iv
  | 0 => ⟨S, S⟩
  | n + 1 => (I.pow n).mul I

theorem Has.pow {I : Iv} {x : ℝ} (hx : I.Has x) (n : ℕ) : (I.pow n).Has (x ^ n) := by
  induction n with
  | zero => exact ⟨by rw [pow_zero, one_mul]; exact S_real.le, by rw [pow_zero, one_mul]; exact S_real.ge⟩
  | succ n ih =>
    rw [pow_succ]
    exact ih.mul hx

/-- 1 -/
def one : Iv := ⟨S, S⟩

theorem has_one : one.Has 1 := ⟨by rw [one_mul]; exact S_real.le, by rw [one_mul]; exact S_real.ge⟩

theorem Has.mono {I J : Iv} {x : ℝ} (hx : I.Has x) (h1 : J.lo ≤ I.lo) (h2 : I.hi ≤ J.hi) : J.Has x :=
  ⟨le_trans (by exact_mod_cast h1) hx.1, le_trans hx.2 (by exact_mod_cast h2)⟩

/-- `cos` of numbers with absolute value at most 1. -/
def cosSmall (I : Iv) : Iv :=
  let y := I.mul I
  let e := (y.mul y).nsmul 5
  let d := cdiv e.hi 96
  let c := one.sub (y.divN 2)
  ⟨c.lo - d, c.hi + d⟩

theorem Has.cosSmall {I : Iv} {x : ℝ} (hx : I.Has x) (h : |x| ≤ 1) : I.cosSmall.Has (Real.cos x) := by
  have h1 := Real.cos_bound h
  have hy := hx.mul hx
  have he := (hy.mul hy).nsmul 5
  have hc := has_one.sub (hy.divN (by norm_num : 0 < 2))
  unfold Iv.cosSmall
  simp only
  have hd : (x * x * (x * x)) * 10 ^ 40 * (5 / 96) ≤ ((cdiv ((((I.mul I).mul (I.mul I)).nsmul 5).hi) 96 : ℤ) : ℝ) := by
    refine le_ceil (by norm_num) ?_
    have := he.2
    push_cast at this ⊢
    linarith
  have e4 : |x| ^ 4 = x * x * (x * x) := by
    rw [show |x| ^ 4 = (|x| ^ 2) ^ 2 by ring, sq_abs]
    ring
  rw [e4, abs_le] at h1
  have h10 : (0 : ℝ) < 10 ^ 40 := by positivity
  have l1 := mul_le_mul_of_nonneg_right h1.1 h10.le
  have l2 := mul_le_mul_of_nonneg_right h1.2 h10.le
  obtain ⟨c1, c2⟩ := hc
  push_cast at c1 c2
  unfold Has
  push_cast
  constructor <;> nlinarith

/-- Doubling of the angle. -/
def dbl : ℕ → Iv → Iv
  | 0, c => c
  | n + 1, c => dbl n (((c.mul c).nsmul 2).sub one)

theorem Has.dbl {x : ℝ} : ∀ (n : ℕ) {C : Iv}, C.Has (Real.cos x) → (dbl n C).Has (Real.cos (2 ^ n * x))
  | 0, C, h => by simpa [Iv.dbl] using h
  | n + 1, C, h => by
    have h1 := ((h.mul h).nsmul 2).sub has_one
    have e : ((2 : ℕ) : ℝ) * (Real.cos x * Real.cos x) - 1 = Real.cos (2 * x) := by
      rw [Real.cos_two_mul]
      push_cast
      ring
    rw [e] at h1
    have h2 := Has.dbl n h1
    rw [show (2 : ℝ) ^ (n + 1) * x = 2 ^ n * (2 * x) by ring]
    exact h2

/-- `cos` of numbers with absolute value at most `2^30`. -/
def cos (I : Iv) : Iv := dbl 30 (I.divN (2 ^ 30)).cosSmall

theorem Has.cos {I : Iv} {x : ℝ} (hx : I.Has x) (h : |x| ≤ 2 ^ 30) : I.cos.Has (Real.cos x) := by
  have h1 := hx.divN (by norm_num : 0 < 2 ^ 30)
  have h2 := (h1.cosSmall (by
    rw [abs_div, Nat.abs_cast, div_le_one (by positivity)]
    exact_mod_cast h)).dbl 30
  rw [show (2 : ℝ) ^ 30 * (x / ((2 ^ 30 : ℕ) : ℝ)) = x by push_cast; norm_num; ring] at h2
  exact h2

/-- Both π and the constant of the source. -/
def pi : Iv := ⟨31415926535897932384000000000000000000000, 31415926535897932385000000000000000000000⟩

theorem has_pi : pi.Has Real.pi := by
  have h1 := Real.pi_gt_d20
  have h2 := Real.pi_lt_d20
  unfold Has pi
  norm_num at h1 h2 ⊢
  constructor <;> linarith

/-- `sin` -/
def sin (I : Iv) : Iv := ((pi.divN 2).sub I).cos

theorem Has.sin {I : Iv} {x : ℝ} (hx : I.Has x) (h : |x| ≤ 2 ^ 29) : I.sin.Has (Real.sin x) := by
  have h1 := ((has_pi.divN (by norm_num : 0 < 2)).sub hx).cos (by
    have h3 := Real.pi_lt_four
    have h4 := Real.pi_pos
    rw [abs_le] at h ⊢
    push_cast
    norm_num at h ⊢
    constructor <;> linarith [h.1, h.2])
  rw [show Real.pi / ((2 : ℕ) : ℝ) - x = Real.pi / 2 - x by norm_num, Real.cos_pi_div_two_sub] at h1
  exact h1

end Iv

end Panda
