import Mathlib.Data.List.Perm.Basic
import Mathlib.Data.List.Nodup
import Verif.Proofs.Lossless
import Verif.Spec.AllPassTrip

/-!
# Up and down by 2 with the same IIR filter
-/

set_option linter.unusedSectionVars false

namespace Panda

open Finset

variable {K : Type} [Field K] [LinearOrder K] [IsStrictOrderedRing K] [Sample K]

theorem allpass_comm (a b : K) (x : ℕ → K) : allpass a (allpass b x) = allpass b (allpass a x) := by
  have h : ∀ n, allpass a (allpass b x) n = allpass b (allpass a x) n ∧
      allpass a (allpass b x) (n + 1) = allpass b (allpass a x) (n + 1) := by
    intro n
    induction n with
    | zero =>
      simp only [allpass]
      constructor <;> ring
    | succ n ih =>
      obtain ⟨h0, h1⟩ := ih
      refine ⟨h1, ?_⟩
      have e1 : allpass a (allpass b x) (n + 1 + 1) = (allpass b x (n + 2) - allpass a (allpass b x) (n + 1)) * a + allpass b x (n + 1) := rfl
      have e2 : allpass b (allpass a x) (n + 1 + 1) = (allpass a x (n + 2) - allpass b (allpass a x) (n + 1)) * b + allpass a x (n + 1) := rfl
      have f1 : allpass a (allpass b x) (n + 1) = (allpass b x (n + 1) - allpass a (allpass b x) n) * a + allpass b x n := rfl
      have f2 : allpass b (allpass a x) (n + 1) = (allpass a x (n + 1) - allpass b (allpass a x) n) * b + allpass a x n := rfl
      have g1 : allpass b x (n + 2) = (x (n + 2) - allpass b x (n + 1)) * b + x (n + 1) := rfl
      have g2 : allpass a x (n + 2) = (x (n + 2) - allpass a x (n + 1)) * a + x (n + 1) := rfl
      have k1 : allpass b x (n + 1) = (x (n + 1) - allpass b x n) * b + x n := rfl
      have k2 : allpass a x (n + 1) = (x (n + 1) - allpass a x n) * a + x n := rfl
      generalize allpass a (allpass b x) (n + 1 + 1) = u2 at *
      generalize allpass b (allpass a x) (n + 1 + 1) = v2 at *
      generalize allpass a (allpass b x) (n + 1) = u1 at *
      generalize allpass b (allpass a x) (n + 1) = v1 at *
      generalize allpass a (allpass b x) n = u0 at *
      generalize allpass b (allpass a x) n = v0 at *
      generalize allpass b x (n + 2) = p2 at *
      generalize allpass a x (n + 2) = q2 at *
      generalize allpass b x (n + 1) = p1 at *
      generalize allpass a x (n + 1) = q1 at *
      generalize allpass b x n = p0 at *
      generalize allpass a x n = q0 at *
      linear_combination e1 - e2 + b * f1 - a * f2 + a * g1 - b * g2 + k1 - k2 - (a + b) * h1 - a * b * h0
  funext n
  exact (h n).1

theorem branch_eq_allpassChain (c : ℕ → K) (b : ℕ) (x : ℕ → K) (j : ℕ) :
    branch c b x j = allpassChain ((List.range j).map fun i => c (2 * i + b)) x := by
  induction j with
  | zero => rfl
  | succ j ih =>
    rw [List.range_succ, List.map_append, List.map_singleton]
    unfold allpassChain at ih ⊢
    rw [List.foldl_append, ← ih]
    rfl

theorem allpassChain_perm {l l' : List K} (h : l.Perm l') (x : ℕ → K) : allpassChain l x = allpassChain l' x := by
  unfold allpassChain
  exact h.foldl_eq' (fun a _ b _ z => allpass_comm b a z) x

theorem allpassChain_append (l l' : List K) (x : ℕ → K) : allpassChain (l ++ l') x = allpassChain l' (allpassChain l x) :=
  List.foldl_append

/-- Odd indices and even indices are all indices. -/
theorem split_perm (nc : ℕ) : ((List.range (branchLen nc 0)).map (fun i => 2 * i + 0) ++
    (List.range (branchLen nc 1)).map (fun i => 2 * i + 1)).Perm (List.range nc) := by
  refine (List.perm_ext_iff_of_nodup ?_ List.nodup_range).2 fun i => ?_
  · refine List.Nodup.append ?_ ?_ ?_
    · exact List.nodup_range.map fun i j h => by simpa using h
    · exact List.nodup_range.map fun i j h => by simpa using h
    · intro i h0 h1
      simp only [List.mem_map, List.mem_range] at h0 h1
      obtain ⟨p, -, rfl⟩ := h0
      obtain ⟨q, -, h⟩ := h1
      omega
  · simp only [List.mem_append, List.mem_map, List.mem_range, branchLen]
    constructor
    · rintro (⟨p, hp, rfl⟩ | ⟨p, hp, rfl⟩) <;> omega
    · intro hi
      rcases Nat.mod_two_eq_zero_or_one i with h | h
      · exact Or.inl ⟨i / 2, by omega, by omega⟩
      · exact Or.inr ⟨i / 2, by omega, by omega⟩

theorem range_map_seq (l : List K) : (List.range l.length).map (seq l) = l := by
  refine List.ext_getElem (by simp) fun i hi hi' => ?_
  rw [List.getElem_map, List.getElem_range, seq_lt hi']

theorem branches_eq_chain (c : List K) (x : ℕ → K) :
    branchOut c.length (seq c) 1 (branchOut c.length (seq c) 0 x) = allpassChain c x := by
  unfold branchOut
  rw [branch_eq_allpassChain, branch_eq_allpassChain, ← allpassChain_append]
  refine allpassChain_perm ?_ x
  have := (split_perm c.length).map (seq c)
  rw [range_map_seq, List.map_append, List.map_map, List.map_map] at this
  exact this

theorem branches_comm (c : List K) (x : ℕ → K) :
    branchOut c.length (seq c) 0 (branchOut c.length (seq c) 1 x) = allpassChain c x := by
  rw [← branches_eq_chain]
  unfold branchOut
  rw [branch_eq_allpassChain, branch_eq_allpassChain, branch_eq_allpassChain, branch_eq_allpassChain, ← allpassChain_append, ← allpassChain_append]
  exact allpassChain_perm List.perm_append_comm x

/-- Interpolation by 2 and decimation by 2 with the same coefficients. -/
theorem iirTrip_eq (c : List K) (x : ℕ → K) : iirDownOp c.length (seq c) (1 / 2) (iirUpOp c.length (seq c) x) = allpassChain c x := by
  funext m
  have h0 : odds (iirUpOp c.length (seq c) x) = branchOut c.length (seq c) 1 x := by
    funext n
    simp only [odds, iirUpOp]
    rw [show (2 * n + 1) % 2 = 1 by omega, show (2 * n + 1) / 2 = n by omega]
  have h1 : evens (iirUpOp c.length (seq c) x) = branchOut c.length (seq c) 0 x := by
    funext n
    simp only [evens, iirUpOp]
    rw [show 2 * n % 2 = 0 by omega, show 2 * n / 2 = n by omega]
  unfold iirDownOp
  rw [h0, h1, branches_comm, branches_eq_chain]
  ring

theorem allpassChain_loss [Archimedean K] {l : List K} (hl : ∀ a ∈ l, |a| < 1) {x : ℕ → K} (hx : TendsTo x 0) :
    TendsTo (fun N => energy x N - energy (allpassChain l x) N) 0 := by
  induction l generalizing x with
  | nil =>
    intro ε hε
    exact ⟨0, fun n _ => by simpa [allpassChain] using hε.le⟩
  | cons a l ih =>
    have h1 := allpass_loss (hl a (by simp)) hx
    have h2 := ih (fun b hb => hl b (by simp [hb])) (allpass_tendsTo (hl a (by simp)) hx)
    have h3 := h1.comb 1 1 h2
    rw [mul_zero, add_zero] at h3
    refine (congrArg (TendsTo · 0) ?_).mpr h3
    funext N
    simp only [allpassChain, List.foldl_cons]
    ring

theorem allpassChain_lin (l : List K) (p q : K) (x y : ℕ → K) :
    allpassChain l (fun n => p * x n + q * y n) = fun n => p * allpassChain l x n + q * allpassChain l y n := by
  induction l generalizing x y with
  | nil => rfl
  | cons a l ih =>
    have : allpass a (fun n => p * x n + q * y n) = fun n => p * allpass a x n + q * allpass a y n := by
      funext n
      induction n with
      | zero =>
        simp only [allpass]
        ring
      | succ n ih =>
        simp only [allpass]
        rw [ih]
        ring
    simp only [allpassChain, List.foldl_cons] at ih ⊢
    rw [this]
    exact ih _ _

theorem allpassChain_inj {l : List K} (hl : ∀ a ∈ l, a ≠ 0) {x y : ℕ → K} {N : ℕ}
    (h : ∀ n < N, allpassChain l x n = allpassChain l y n) : ∀ n < N, x n = y n := by
  induction l generalizing x y with
  | nil => exact h
  | cons a l ih => exact allpass_inj (hl a (by simp)) (ih (fun b hb => hl b (by simp [hb])) h)

end Panda
