import Verif.Model.TestSaw
import Verif.Proofs.Designer
import Mathlib.Algebra.BigOperators.Intervals

/-!
# The test signal of tests/testsawquality.cc
-/

namespace Panda.Tool

open Finset Designer

theorem sawLoop_step (freq : ℝ) (i : ℕ) (p : ℤ) (x : ℝ) (h : p * freq < 24000) (hp : 0 ≤ p) (hp' : p + 1 < 2 ^ 31) :
    sawLoop freq i (p, x) = sawLoop freq i (p + 1, x + sawTerm freq i p) := by
  conv_lhs => unfold sawLoop
  rw [whileU_step, if_pos (by simpa using h)]
  simp only []
  have : int32 (p + 1) = .ok (p + 1) := by
    unfold int32
    rw [if_pos ⟨by omega, hp'⟩]
    rfl
  rw [this]
  rfl

theorem sawLoop_end (freq : ℝ) (i : ℕ) (p : ℤ) (x : ℝ) (h : 24000 ≤ p * freq) : sawLoop freq i (p, x) = .ok (p, x) := by
  unfold sawLoop
  rw [whileU_step, if_neg (by simpa using h)]
  rfl

theorem sawLoop_over (freq : ℝ) (i : ℕ) (p : ℤ) (x : ℝ) (h : p * freq < 24000) (hp : p + 1 = 2 ^ 31) :
    sawLoop freq i (p, x) = .error .overflow := by
  unfold sawLoop
  rw [whileU_step, if_pos (by simpa using h)]
  simp only []
  have : int32 (p + 1) = .error .overflow := by
    unfold int32
    rw [if_neg (by omega)]
  rw [this]
  rfl

theorem sawLoop_sum (freq : ℝ) (i K : ℕ) (hK : K + 1 < 2 ^ 31) (hin : ∀ q : ℕ, 1 ≤ q → q ≤ K → q * freq < 24000)
    (hout : 24000 ≤ ((K + 1 : ℕ) : ℝ) * freq) : ∀ (d p : ℕ) (x : ℝ), 1 ≤ p → p + d = K + 1 →
    sawLoop freq i ((p : ℤ), x) = .ok (((K + 1 : ℕ) : ℤ), x + ∑ q ∈ Ico p (K + 1), sawTerm freq i q) := by
  intro d
  induction d with
  | zero =>
    intro p x _ hp
    have : p = K + 1 := by omega
    subst this
    rw [sawLoop_end _ _ _ _ (by simpa using hout), Ico_self, sum_empty, add_zero]
  | succ d ih =>
    intro p x h1 hp
    rw [sawLoop_step _ _ _ _ (by simpa using hin p h1 (by omega)) (by omega) (by omega)]
    have := ih (p + 1) (x + sawTerm freq i p) (by omega) (by omega)
    push_cast at this ⊢
    rw [this, sum_eq_sum_Ico_succ_bot (show p < K + 1 by omega), add_assoc]

theorem sawLoop_overflow (freq : ℝ) (i : ℕ) (hin : ∀ q : ℕ, 1 ≤ q → q < 2 ^ 31 → q * freq < 24000) : ∀ (d p : ℕ) (x : ℝ), 1 ≤ p →
    p + d + 1 = 2 ^ 31 → sawLoop freq i ((p : ℤ), x) = .error .overflow := by
  intro d
  induction d with
  | zero =>
    intro p x h1 hp
    exact sawLoop_over _ _ _ _ (by simpa using hin p h1 (by omega)) (by omega)
  | succ d ih =>
    intro p x h1 hp
    rw [sawLoop_step _ _ _ _ (by simpa using hin p h1 (by omega)) (by omega) (by omega)]
    have := ih (p + 1) (x + sawTerm freq i p) (by omega) (by omega)
    push_cast at this
    exact this

end Panda.Tool
