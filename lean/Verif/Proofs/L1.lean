import Mathlib.Algebra.BigOperators.Intervals
import Mathlib.Algebra.Order.BigOperators.Group.Finset
import Mathlib.Algebra.Order.BigOperators.Ring.Finset
import Mathlib.Algebra.Order.Field.Basic
import Mathlib.Tactic.Linarith
import Mathlib.Tactic.LinearCombination
import Mathlib.Tactic.Ring
import Mathlib.Tactic.FieldSimp
import Verif.Proofs.Iir
import Verif.Model.Tables

/-!
# Chains of all-pass sections: impulse responses and the sums of their absolute values
-/

set_option linter.unusedSectionVars false

namespace Panda

open Finset

/-- Sections one after the other. -/
def apChain {F : Type} [Zero F] [Add F] [Sub F] [Mul F] : List F → (ℕ → F) → ℕ → F
  | [], x => x
  | a :: as, x => apChain as (allpass a x)

theorem apChain_append {F : Type} [Zero F] [Add F] [Sub F] [Mul F] (l l' : List F) (x : ℕ → F) :
    apChain (l ++ l') x = apChain l' (apChain l x) := by
  induction l generalizing x with
  | nil => rfl
  | cons a l ih => exact ih _

theorem branch_eq_apChain {F : Type} [Zero F] [Add F] [Sub F] [Mul F] (c : ℕ → F) (b : ℕ) (x : ℕ → F) (j : ℕ) :
    branch c b x j = apChain ((List.range j).map fun i => c (2 * i + b)) x := by
  induction j with
  | zero => rfl
  | succ j ih =>
    rw [List.range_succ, List.map_append, apChain_append, ← ih]
    rfl

variable {K : Type} [Field K] [LinearOrder K] [IsStrictOrderedRing K]

/-! ## Convolution -/

/-- Convolution of sequences. -/
def conv (h x : ℕ → K) (n : ℕ) : K := ∑ k ∈ range (n + 1), h k * x (n - k)

/-- The unit impulse. -/
def impulse (n : ℕ) : K := if n = 0 then 1 else 0

theorem conv_impulse (x : ℕ → K) : conv impulse x = x := by
  funext n
  unfold conv
  rw [sum_range_succ', sum_eq_zero]
  · simp [impulse]
  · intro k _
    simp [impulse]

theorem prev_conv (h x : ℕ → K) (n : ℕ) : prev (conv h x) n = conv (prev h) x n := by
  cases n with
  | zero => simp [prev, conv]
  | succ n =>
    unfold conv
    rw [sum_range_succ']
    simp only [prev, zero_mul, add_zero]
    show conv h x n = _
    unfold conv
    refine sum_congr rfl fun k _ => ?_
    rw [show n + 1 - (k + 1) = n - k by omega]

theorem conv_lin (g h x : ℕ → K) (a b : K) (n : ℕ) : conv (fun k => a * g k + b * h k) x n = a * conv g x n + b * conv h x n := by
  unfold conv
  rw [mul_sum, mul_sum, ← sum_add_distrib]
  exact sum_congr rfl fun k _ => by ring

/-- One pole: `y[n] = x[n] - a y[n-1]`. -/
def onePole (a : K) (x : ℕ → K) : ℕ → K
  | 0 => x 0
  | n + 1 => x (n + 1) - a * onePole a x n

theorem onePole_prev (a : K) (x : ℕ → K) (n : ℕ) : onePole a x n = x n - a * prev (onePole a x) n := by
  cases n with
  | zero => simp [onePole, prev]
  | succ n => rfl

theorem allpass_conv (a : K) (h x : ℕ → K) (n : ℕ) : allpass a (conv h x) n = conv (allpass a h) x n := by
  induction n with
  | zero => simp [allpass, conv]; ring
  | succ n ih =>
    have e : conv (allpass a h) x (n + 1) = conv (fun k => 1 * (a * h k + (-a) * prev (allpass a h) k) + 1 * prev h k) x (n + 1) := by
      congr 1
      funext k
      rw [allpass_eq]
      ring
    rw [e, conv_lin, conv_lin, ← prev_conv, ← prev_conv]
    show (conv h x (n + 1) - allpass a (conv h x) n) * a + conv h x n = _
    rw [ih]
    simp only [prev]
    ring

theorem onePole_conv (a : K) (h x : ℕ → K) (n : ℕ) : onePole a (conv h x) n = conv (onePole a h) x n := by
  induction n with
  | zero => simp [onePole, conv]
  | succ n ih =>
    have e : conv (onePole a h) x (n + 1) = conv (fun k => 1 * h k + (-a) * prev (onePole a h) k) x (n + 1) := by
      congr 1
      funext k
      rw [onePole_prev]
      ring
    rw [e, conv_lin, ← prev_conv]
    show conv h x (n + 1) - a * onePole a (conv h x) n = _
    rw [ih]
    simp only [prev]
    ring

theorem apChain_conv (as : List K) (h x : ℕ → K) : apChain as (conv h x) = conv (apChain as h) x := by
  induction as generalizing h with
  | nil => rfl
  | cons a as ih =>
    show apChain as (allpass a (conv h x)) = _
    rw [show allpass a (conv h x) = conv (allpass a h) x from funext (allpass_conv a h x), ih]
    rfl

/-- A apChain is the convolution with its impulse response. -/
theorem apChain_eq_conv (as : List K) (x : ℕ → K) : apChain as x = conv (apChain as impulse) x := by
  rw [← apChain_conv, conv_impulse]

theorem apChain_onePole_eq_conv (as : List K) (a : K) (x : ℕ → K) :
    apChain as (onePole a x) = conv (apChain as (onePole a impulse)) x := by
  rw [← apChain_conv]
  congr 1
  conv_lhs => rw [← conv_impulse x]
  exact funext (onePole_conv a _ x)

theorem allpass_add (a : K) (x y : ℕ → K) (n : ℕ) : allpass a (fun n => x n + y n) n = allpass a x n + allpass a y n := by
  induction n with
  | zero => simp [allpass]; ring
  | succ n ih =>
    show (x (n + 1) + y (n + 1) - allpass a (fun n => x n + y n) n) * a + (x n + y n) = _
    rw [ih]
    show _ = ((x (n + 1) - allpass a x n) * a + x n) + ((y (n + 1) - allpass a y n) * a + y n)
    ring

theorem apChain_add (as : List K) (x y : ℕ → K) : apChain as (fun n => x n + y n) = fun n => apChain as x n + apChain as y n := by
  induction as generalizing x y with
  | nil => rfl
  | cons a as ih =>
    show apChain as (allpass a fun n => x n + y n) = _
    rw [show allpass a (fun n => x n + y n) = fun n => allpass a x n + allpass a y n from funext (allpass_add a x y), ih]
    rfl

/-! ## Sums of absolute values -/

/-- Sum of the absolute values of the first `n` elements. -/
def absum (x : ℕ → K) (n : ℕ) : K := ∑ k ∈ range n, |x k|

theorem absum_nonneg (x : ℕ → K) (n : ℕ) : 0 ≤ absum x n := sum_nonneg fun _ _ => abs_nonneg _

theorem absum_mono (x : ℕ → K) {m n : ℕ} (h : m ≤ n) : absum x m ≤ absum x n :=
  sum_le_sum_of_subset_of_nonneg (range_mono h) fun _ _ _ => abs_nonneg _

theorem absum_add_le (x y : ℕ → K) (n : ℕ) : absum (fun k => x k + y k) n ≤ absum x n + absum y n := by
  unfold absum
  rw [← sum_add_distrib]
  exact sum_le_sum fun k _ => abs_add_le _ _

/-- Output bound from the impulse response; only the first `n + 1` inputs matter. -/
theorem conv_le {h x : ℕ → K} {L M : K} {n : ℕ} (hh : absum h (n + 1) ≤ L) (h0 : 0 ≤ M) (hx : ∀ k ≤ n, |x k| ≤ M) :
    |conv h x n| ≤ L * M := by
  unfold conv
  refine (abs_sum_le_sum_abs _ _).trans ?_
  calc _ ≤ ∑ k ∈ range (n + 1), |h k| * M := by
        refine sum_le_sum fun k _ => ?_
        rw [abs_mul]
        exact mul_le_mul_of_nonneg_left (hx _ (by omega)) (abs_nonneg _)
    _ = absum h (n + 1) * M := by rw [← sum_mul]; rfl
    _ ≤ _ := mul_le_mul_of_nonneg_right hh h0

/-- A contracting recursion. -/
theorem absum_geo {a : K} (ha : 0 ≤ a) {x b : ℕ → K} (h0 : |x 0| ≤ b 0) (hs : ∀ n, |x (n + 1)| ≤ a * |x n| + b (n + 1)) (n : ℕ) :
    (1 - a) * absum x n ≤ ∑ k ∈ range n, b k := by
  have key : ∀ n, absum x (n + 1) ≤ a * absum x n + ∑ k ∈ range (n + 1), b k := by
    intro n
    induction n with
    | zero => simpa [absum] using h0
    | succ n ih =>
      unfold absum at *
      rw [sum_range_succ (fun k => |x k|) (n + 1), sum_range_succ b (n + 1), sum_range_succ (fun k => |x k|) n] at *
      have := hs n
      rw [mul_add]
      linarith
  cases n with
  | zero => simp [absum]
  | succ n =>
    have h1 := key n
    have h2 := mul_le_mul_of_nonneg_left (absum_mono x (Nat.le_succ n)) ha
    linarith

theorem onePole_absum {a : K} (h0 : 0 ≤ a) (h1 : a < 1) (x : ℕ → K) (n : ℕ) : absum (onePole a x) n ≤ absum x n / (1 - a) := by
  rw [le_div_iff₀ (by linarith), mul_comm]
  refine absum_geo h0 (x := onePole a x) (b := fun k => |x k|) le_rfl (fun n => ?_) n
  show |x (n + 1) - a * onePole a x n| ≤ _
  refine (abs_sub _ _).trans ?_
  rw [abs_mul, abs_of_nonneg h0]
  linarith

theorem allpass_absum {a : K} (h0 : 0 ≤ a) (h1 : a < 1) (x : ℕ → K) (n : ℕ) : absum (allpass a x) n ≤ (1 + 2 * a) * absum x n := by
  have hpos : 0 < 1 - a := by linarith
  have key : (1 - a) * absum (fun k => allpass a x k - a * x k) n ≤ ∑ k ∈ range n, (1 - a ^ 2) * |prev x k| := by
    refine absum_geo h0 (b := fun k => (1 - a ^ 2) * |prev x k|) ?_ (fun n => ?_) n
    · simp [allpass, prev]
      ring_nf
    · have e : allpass a x (n + 1) - a * x (n + 1) = -(a * (allpass a x n - a * x n)) + (1 - a ^ 2) * x n := by
        show (x (n + 1) - allpass a x n) * a + x n - _ = _
        ring
      rw [e]
      refine (abs_add_le _ _).trans ?_
      rw [abs_neg, abs_mul, abs_of_nonneg h0, abs_mul, abs_of_nonneg (show 0 ≤ 1 - a ^ 2 by nlinarith)]
      rfl
  have hp : ∑ k ∈ range n, (1 - a ^ 2) * |prev x k| ≤ (1 - a) * ((1 + a) * absum x n) := by
    rw [← mul_sum]
    have : ∑ k ∈ range n, |prev x k| ≤ absum x n := by
      cases n with
      | zero => simp [absum]
      | succ n =>
        rw [sum_range_succ']
        simp only [prev, abs_zero, add_zero]
        exact absum_mono x (Nat.le_succ n)
    have h2 : 0 ≤ 1 - a ^ 2 := by nlinarith
    calc _ ≤ (1 - a ^ 2) * absum x n := mul_le_mul_of_nonneg_left this h2
      _ = _ := by ring
  have h3 := le_of_mul_le_mul_left (key.trans hp) hpos
  have h4 := absum_add_le (fun k => allpass a x k - a * x k) (fun k => a * x k) n
  simp only [sub_add_cancel] at h4
  have h5 : absum (fun k => a * x k) n = a * absum x n := by
    unfold absum
    rw [mul_sum]
    exact sum_congr rfl fun k _ => by rw [abs_mul, abs_of_nonneg h0]
  rw [h5] at h4
  have : absum (allpass a x) n ≤ absum (fun k => allpass a x k - a * x k) n + a * absum x n := h4
  linarith

/-- What `yh` misses of being the output of the section for the input `xh`. -/
def resid (a : K) (xh yh : ℕ → K) (n : ℕ) : K := yh n - ((xh n - prev yh n) * a + prev xh n)

/-- Approximate input and approximate output. -/
theorem allpass_resid_near {a : K} (h0 : 0 ≤ a) (h1 : a < 1) (x xh yh : ℕ → K) (n : ℕ) :
    absum (fun k => allpass a x k - yh k) n ≤
      (1 + 2 * a) * absum (fun k => x k - xh k) n + absum (resid a xh yh) n / (1 - a) := by
  have e : ∀ k, allpass a x k - yh k = allpass a (fun k => x k - xh k) k + -(onePole a (resid a xh yh) k) := by
    intro k
    induction k with
    | zero => simp [allpass, onePole, resid, prev]; ring
    | succ k ih =>
      show (x (k + 1) - allpass a x k) * a + x k - yh (k + 1) =
        (x (k + 1) - xh (k + 1) - allpass a (fun k => x k - xh k) k) * a + (x k - xh k) +
        -(yh (k + 1) - ((xh (k + 1) - yh k) * a + xh k) - a * onePole a (resid a xh yh) k)
      linear_combination (-a) * ih
  rw [show (fun k => allpass a x k - yh k) = fun k => allpass a (fun k => x k - xh k) k + -(onePole a (resid a xh yh) k) from funext e]
  refine (absum_add_le _ _ n).trans (add_le_add (allpass_absum h0 h1 _ n) ?_)
  have : absum (fun k => -(onePole a (resid a xh yh) k)) n = absum (onePole a (resid a xh yh)) n := by
    unfold absum
    exact sum_congr rfl fun k _ => abs_neg _
  rw [this]
  exact onePole_absum h0 h1 _ n

/-! ## Evaluation with integers -/

/-- A list of integers in units of `1 / s` as a sequence. -/
def lseq (s : ℤ) (l : List ℤ) (n : ℕ) : K := ((l.getD n 0 : ℤ) : K) / s

/-- The section with the coefficient `m / q`, rounding down; `px` and `py` are the previous input and output. -/
def apl (m q px py : ℤ) : List ℤ → List ℤ
  | [] => []
  | x :: l => ((x - py) * m / q + px) :: apl m q x ((x - py) * m / q + px) l

/-- Bound for the residuals of `apl`. -/
def aplRes (m q px py : ℤ) : List ℤ → ℤ
  | [] => |px| + |py|
  | x :: l => 1 + aplRes m q x ((x - py) * m / q + px) l

/-- Sum of absolute values. -/
def labs : List ℤ → ℤ
  | [] => 0
  | x :: l => |x| + labs l

theorem labs_nonneg (l : List ℤ) : 0 ≤ labs l := by
  induction l with
  | nil => exact le_rfl
  | cons x l ih => exact add_nonneg (abs_nonneg _) ih

theorem absum_lseq_le {s : ℤ} (hs : 0 < s) (l : List ℤ) (n : ℕ) : absum (lseq s l : ℕ → K) n ≤ labs l / s := by
  have hs' : (0 : K) < s := by exact_mod_cast hs
  induction l generalizing n with
  | nil => simp [absum, lseq, labs]
  | cons x l ih =>
    cases n with
    | zero =>
      simp only [absum, sum_range_zero]
      have : (0 : K) ≤ (labs (x :: l) : ℤ) := by exact_mod_cast labs_nonneg _
      positivity
    | succ n =>
      have h1 : absum (lseq s (x :: l) : ℕ → K) (n + 1) = absum (lseq s l : ℕ → K) n + |(x : K)| / s := by
        unfold absum
        rw [sum_range_succ']
        congr 1
        simp [lseq, abs_div, abs_of_pos hs']
      rw [h1]
      have := ih n
      simp only [labs]
      push_cast
      rw [add_div]
      linarith

/-- Previous element, with an initial value. -/
def prevI (p : K) (x : ℕ → K) : ℕ → K
  | 0 => p
  | n + 1 => x n

theorem prev_eq_prevI (x : ℕ → K) : prev x = prevI 0 x := by
  funext n
  cases n <;> rfl

theorem apl_resid {s m q : ℤ} (hs : 0 < s) (hq : 0 < q) {a κ : K} (h0 : 0 ≤ a) (h1 : a ≤ 1) (hk : |a - m / q| ≤ κ)
    (px py : ℤ) (l : List ℤ) (n : ℕ) :
    absum (fun k => lseq s (apl m q px py l) k -
      ((lseq s l k - prevI (py / s : K) (lseq s (apl m q px py l)) k) * a + prevI (px / s : K) (lseq s l) k)) n ≤
      (aplRes m q px py l + κ * (labs l + |(py : K)| + labs (apl m q px py l)) : K) / s := by
  have hs' : (0 : K) < s := by exact_mod_cast hs
  have hq' : (0 : K) < q := by exact_mod_cast hq
  have hκ : 0 ≤ κ := (abs_nonneg _).trans hk
  induction l generalizing px py n with
  | nil =>
    have hz : ∀ k, (lseq s ([] : List ℤ) k : K) = 0 := fun k => by simp [lseq]
    have hb : (|(px : K)| + |(py : K)|) / s ≤ (aplRes m q px py [] + κ * (labs [] + |(py : K)| + labs (apl m q px py [])) : K) / s := by
      simp only [aplRes, labs, apl]
      push_cast
      refine div_le_div_of_nonneg_right ?_ hs'.le
      have : 0 ≤ κ * |(py : K)| := by positivity
      linarith
    refine le_trans ?_ hb
    cases n with
    | zero =>
      simp only [absum, sum_range_zero]
      positivity
    | succ n =>
      unfold absum
      rw [sum_range_succ', sum_eq_zero]
      · simp only [apl, hz, prevI]
        rw [zero_add, zero_sub, abs_neg, zero_sub]
        have : |(-(py / s : K)) * a + px / s| ≤ |(py : K)| / s * 1 + |(px : K)| / s := by
          refine (abs_add_le _ _).trans ?_
          rw [abs_mul, abs_neg, abs_div, abs_div, abs_of_pos hs', abs_of_nonneg h0]
          gcongr
        refine this.trans (le_of_eq ?_)
        ring
      · intro k _
        simp [apl, hz, prevI]
  | cons x l ih =>
    set y := (x - py) * m / q + px with hy
    have hr : |(y : K) - ((x - py) * a + px)| ≤ 1 + κ * (|(x : K)| + |(py : K)|) := by
      have e1 : ((x - py) * m / q : ℤ) * q + ((x - py) * m % q) = (x - py) * m := by
        rw [mul_comm]; exact Int.mul_ediv_add_emod _ _
      have e2 := Int.emod_nonneg ((x - py) * m) hq.ne'
      have e3 := Int.emod_lt_of_pos ((x - py) * m) hq
      have e1' : (((x - py) * m / q : ℤ) : K) * q + (((x - py) * m % q : ℤ) : K) = (x - py) * m := by exact_mod_cast e1
      have e2' : (0 : K) ≤ (((x - py) * m % q : ℤ) : K) := by exact_mod_cast e2
      have e3' : (((x - py) * m % q : ℤ) : K) ≤ q := by exact_mod_cast e3.le
      generalize (((x - py) * m % q : ℤ) : K) = w at *
      have ey : (y : K) = ((x - py) * m - w) / q + px := by
        rw [hy]
        push_cast
        rw [← e1']
        field_simp
        ring
      have e4 : (y : K) - ((x - py) * a + px) = -(w / q) + -((x - py) * (a - m / q)) := by
        rw [ey]
        field_simp
        ring
      rw [e4]
      refine (abs_add_le _ _).trans (add_le_add ?_ ?_)
      · rw [abs_neg, abs_of_nonneg (by positivity), div_le_one hq']
        exact e3'
      · rw [abs_neg, abs_mul, mul_comm]
        exact mul_le_mul hk (abs_sub _ _) (abs_nonneg _) hκ
    have hap : apl m q px py (x :: l) = y :: apl m q x y l := rfl
    have har : aplRes m q px py (x :: l) = 1 + aplRes m q x y l := rfl
    rw [hap, har]
    have hsum : (((1 + aplRes m q x y l : ℤ) : K) + κ * ((labs (x :: l) : ℤ) + |(py : K)| + (labs (y :: apl m q x y l) : ℤ))) / s =
        (1 + κ * (|(x : K)| + |(py : K)|)) / s + ((aplRes m q x y l : ℤ) + κ * ((labs l : ℤ) + |(y : K)| + (labs (apl m q x y l) : ℤ))) / s := by
      simp only [labs]
      push_cast
      rw [← add_div]
      ring
    cases n with
    | zero =>
      have := ih x y 0
      simp only [absum, sum_range_zero] at this ⊢
      rw [hsum]
      have : 0 ≤ (1 + κ * (|(x : K)| + |(py : K)|)) / s := by positivity
      linarith
    | succ n =>
      rw [hsum]
      unfold absum
      rw [sum_range_succ', add_comm]
      refine add_le_add ?_ ?_
      · have e : (lseq s (y :: apl m q x y l) 0 - ((lseq s (x :: l) 0 - prevI (py / s : K) (lseq s (y :: apl m q x y l)) 0) * a +
            prevI (px / s : K) (lseq s (x :: l)) 0) : K) = (y - ((x - py) * a + px)) / s := by
          simp only [lseq, prevI, List.getD_cons_zero]
          field_simp
        beta_reduce
        rw [e, abs_div, abs_of_pos hs']
        exact div_le_div_of_nonneg_right hr hs'.le
      · refine le_trans (le_of_eq ?_) (ih x y n)
        unfold absum
        refine sum_congr rfl fun k _ => ?_
        have p1 : ∀ (p : K) (z : ℤ) (t : List ℤ), prevI p (lseq s (z :: t)) (k + 1) = prevI (z / s : K) (lseq s t) k := by
          intro p z t
          cases k <;> simp [prevI, lseq]
        have p2 : ∀ (z : ℤ) (t : List ℤ), (lseq s (z :: t) (k + 1) : K) = lseq s t k := fun z t => by simp [lseq]
        beta_reduce
        rw [p1, p1, p2, p2]

/-- Accuracy of the coefficients. -/
abbrev κ24 : ℚ := 2⁻¹ ^ 24

/-- Effect of a section on an approximate impulse response (in units of `1 / s`) and its distance from the exact one. -/
def levStep (s : ℤ) (st : List ℤ × ℚ) (d : Dec) : List ℤ × ℚ :=
  (apl d.m (10 ^ d.e) 0 0 st.1,
    (1 + 2 * (d.toRat + κ24)) * st.2 +
      (aplRes d.m (10 ^ d.e) 0 0 st.1 + κ24 * (labs st.1 + labs (apl d.m (10 ^ d.e) 0 0 st.1))) / s / (1 - (d.toRat + κ24)))

/-- The bound for the sum of absolute values. -/
def levBound (s : ℤ) (st : List ℤ × ℚ) : ℚ := labs st.1 / s + st.2

/-- Coefficients close to those of a table. -/
def CoefsNear (as : List K) (ds : List Dec) : Prop :=
  List.Forall₂ (fun a d => 0 ≤ a ∧ |a - (d.toRat : K)| ≤ (κ24 : K)) as ds

theorem Dec.toRat_cast (d : Dec) : ((d.toRat : ℚ) : K) = (d.m : K) / ((10 ^ d.e : ℤ) : K) := by
  have : d.toRat = (d.m : ℚ) / ((10 ^ d.e : ℤ) : ℚ) := by
    unfold Dec.toRat
    rw [Rat.mkRat_eq_div]
    push_cast
    rfl
  rw [this]
  push_cast
  rfl

theorem levStep_near {s : ℤ} (hs : 0 < s) {d : Dec} {a : K} (h0 : 0 ≤ a) (ha : |a - (d.toRat : K)| ≤ (κ24 : K))
    (h1 : d.toRat + κ24 < 1) {st : List ℤ × ℚ} {x : ℕ → K} (hx : ∀ n, absum (fun k => x k - lseq s st.1 k) n ≤ (st.2 : K)) (n : ℕ) :
    absum (fun k => allpass a x k - lseq s (levStep s st d).1 k) n ≤ ((levStep s st d).2 : K) := by
  have hs' : (0 : K) < s := by exact_mod_cast hs
  have hap : a ≤ ((d.toRat + κ24 : ℚ) : K) := by
    have := (abs_le.1 ha).2
    push_cast at this ⊢
    linarith
  have h1' : ((d.toRat + κ24 : ℚ) : K) < 1 := by exact_mod_cast h1
  have hst : (0 : K) ≤ (st.2 : K) := (absum_nonneg _ _).trans (hx 0)
  have ha1 : a < 1 := lt_of_le_of_lt hap h1'
  have hr := apl_resid (K := K) (s := s) (m := d.m) (q := 10 ^ d.e) hs (by positivity) h0 ha1.le (κ := (κ24 : K))
    (by rw [← Dec.toRat_cast]; exact ha) 0 0 st.1 n
  refine (allpass_resid_near h0 ha1 x (lseq s st.1) (lseq s (levStep s st d).1) n).trans ?_
  have e : absum (resid a (lseq s st.1 : ℕ → K) (lseq s (levStep s st d).1)) n =
      absum (fun k => lseq s (apl d.m (10 ^ d.e) 0 0 st.1) k -
      ((lseq s st.1 k - prevI (((0 : ℤ) : K) / s) (lseq s (apl d.m (10 ^ d.e) 0 0 st.1)) k) * a + prevI (((0 : ℤ) : K) / s) (lseq s st.1) k)) n := by
    congr 1
    funext k
    unfold resid
    rw [prev_eq_prevI, prev_eq_prevI]
    simp only [Int.cast_zero, zero_div]
    rfl
  rw [e]
  have eq : ((levStep s st d).2 : K) = (1 + 2 * ((d.toRat + κ24 : ℚ) : K)) * (st.2 : K) +
      ((aplRes d.m (10 ^ d.e) 0 0 st.1 : ℤ) + (κ24 : K) * ((labs st.1 : ℤ) + |((0 : ℤ) : K)| + (labs (apl d.m (10 ^ d.e) 0 0 st.1) : ℤ))) / s /
        (1 - ((d.toRat + κ24 : ℚ) : K)) := by
    simp only [levStep]
    push_cast
    simp
  rw [eq]
  refine add_le_add (mul_le_mul (by linarith) (hx n) (absum_nonneg _ _) (by linarith)) ?_
  refine div_le_div₀ ((absum_nonneg _ _).trans hr) hr (by linarith) (by linarith)

/-- Impulse responses of chains of sections. -/
theorem apChain_near {s : ℤ} (hs : 0 < s) {as : List K} {ds : List Dec} (h : CoefsNear as ds) (h1 : ∀ d ∈ ds, d.toRat + κ24 < 1)
    {st : List ℤ × ℚ} {x : ℕ → K} (hx : ∀ n, absum (fun k => x k - lseq s st.1 k) n ≤ (st.2 : K)) (n : ℕ) :
    absum (fun k => apChain as x k - lseq s (ds.foldl (levStep s) st).1 k) n ≤ ((ds.foldl (levStep s) st).2 : K) := by
  induction h generalizing st x with
  | nil => exact hx n
  | cons hab _ ih =>
    exact ih (fun d hd => h1 d (by simp [hd])) (levStep_near hs hab.1 hab.2 (h1 _ (by simp)) hx)

/-- The unit impulse, `N` samples. -/
def levInit (s : ℤ) (N : ℕ) : List ℤ × ℚ := (s :: List.replicate N 0, 0)

theorem levInit_near {s : ℤ} (hs : 0 < s) (N n : ℕ) :
    absum (fun k => (impulse k : K) - lseq s (levInit s N).1 k) n ≤ ((levInit s N).2 : K) := by
  have hs' : (s : K) ≠ 0 := by exact_mod_cast hs.ne'
  have : ∀ k, (impulse k : K) - lseq s (levInit s N).1 k = 0 := by
    intro k
    cases k with
    | zero => simp [impulse, lseq, levInit, hs']
    | succ k =>
      have e : (List.replicate N (0 : ℤ)).getD k 0 = 0 := by
        rw [List.getD_eq_getElem?_getD, List.getElem?_replicate]
        split <;> rfl
      simp only [impulse, lseq, levInit, List.getD_cons_succ, e]
      simp
  simp only [absum, this]
  simp [levInit]

/-- **Bound for the peak gain of a chain of sections.** -/
theorem apChain_absum {s : ℤ} (hs : 0 < s) (N : ℕ) {as : List K} {ds : List Dec} (h : CoefsNear as ds)
    (h1 : ∀ d ∈ ds, d.toRat + κ24 < 1) (n : ℕ) :
    absum (apChain as impulse) n ≤ (levBound s (ds.foldl (levStep s) (levInit s N)) : K) := by
  have h2 := apChain_near hs h h1 (levInit_near hs N) n
  have h3 := absum_lseq_le (K := K) hs (ds.foldl (levStep s) (levInit s N)).1 n
  have h4 := absum_add_le (fun k => apChain as (impulse : ℕ → K) k - lseq s (ds.foldl (levStep s) (levInit s N)).1 k)
    (lseq s (ds.foldl (levStep s) (levInit s N)).1) n
  simp only [sub_add_cancel] at h4
  unfold levBound
  push_cast
  have h5 : absum (apChain as (impulse : ℕ → K)) n = absum (fun k => apChain as (impulse : ℕ → K) k) n := rfl
  rw [h5]
  linarith

end Panda
