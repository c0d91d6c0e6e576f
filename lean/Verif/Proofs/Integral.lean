import Verif.Proofs.Lossless

/-!
# IIR resamplers keep the integral of a signal (for C109)
-/

set_option linter.unusedSectionVars false

namespace Panda

open Finset

variable {K : Type} [Field K] [LinearOrder K] [IsStrictOrderedRing K] [Sample K]

/-- Sum of the first `N` samples. -/
def psum (x : ℕ → K) (N : ℕ) : K := ∑ n ∈ range N, x n

private theorem allpass_psum_eq (a : K) (x : ℕ → K) (N : ℕ) :
    (1 + a) * (psum x (N + 1) - psum (allpass a x) (N + 1)) = x N - a * allpass a x N := by
  induction N with
  | zero => simp [psum, allpass]; ring
  | succ N ih =>
    rw [psum, psum, sum_range_succ, sum_range_succ _ (N + 1)]
    change (1 + a) * (psum x (N + 1) + x (N + 1) - (psum (allpass a x) (N + 1) + allpass a x (N + 1))) = _
    have : allpass a x (N + 1) = (x (N + 1) - allpass a x N) * a + x N := rfl
    linear_combination ih - this

theorem allpass_psum [Archimedean K] {a : K} (ha : |a| < 1) {x : ℕ → K} (hx : TendsTo x 0) :
    TendsTo (fun N => psum x N - psum (allpass a x) N) 0 := by
  apply TendsTo.of_succ
  have h1 : 1 + a ≠ 0 := by
    have := (abs_lt.1 ha).1
    linarith
  have h2 := hx.comb (1 / (1 + a)) (-a / (1 + a)) (allpass_tendsTo ha hx)
  rw [mul_zero, mul_zero, add_zero] at h2
  refine (congrArg (TendsTo · 0) ?_).mpr h2
  funext n
  have := allpass_psum_eq a x n
  field_simp
  linear_combination this

theorem branch_psum [Archimedean K] {c : ℕ → K} (hc : ∀ i, |c i| < 1) (b : ℕ) {x : ℕ → K} (hx : TendsTo x 0) (j : ℕ) :
    TendsTo (fun N => psum x N - psum (branch c b x j) N) 0 := by
  induction j with
  | zero =>
    intro ε hε
    exact ⟨0, fun n _ => by simpa [branch] using hε.le⟩
  | succ j ih =>
    have h1 := allpass_psum (hc (2 * j + b)) (branch_tendsTo hc b hx j)
    have h2 := ih.comb 1 1 h1
    rw [mul_zero, add_zero] at h2
    refine (congrArg (TendsTo · 0) ?_).mpr h2
    funext N
    simp only [branch]
    ring

theorem psum_double (x : ℕ → K) (N : ℕ) : psum x (2 * N) = psum (evens x) N + psum (odds x) N := by
  induction N with
  | zero => simp [psum]
  | succ N ih =>
    unfold psum at *
    rw [show 2 * (N + 1) = 2 * N + 1 + 1 by ring, sum_range_succ, sum_range_succ, ih, sum_range_succ, sum_range_succ]
    unfold evens odds
    ring

private theorem evens_tendsTo {x : ℕ → K} (hx : TendsTo x 0) : TendsTo (evens x) 0 := hx.subseq (f := fun n => 2 * n) fun n => by omega

private theorem odds_tendsTo {x : ℕ → K} (hx : TendsTo x 0) : TendsTo (odds x) 0 := hx.subseq (f := fun n => 2 * n + 1) fun n => by omega

theorem iirUp_psum [Archimedean K] {nc : ℕ} {c : ℕ → K} (hc : ∀ i, |c i| < 1) {x : ℕ → K} (hx : TendsTo x 0) :
    TendsTo (fun N => 2 * psum x N - psum (iirUpOp nc c x) (2 * N)) 0 := by
  have h2 := (branch_psum hc 0 hx (branchLen nc 0)).comb 1 1 (branch_psum hc 1 hx (branchLen nc 1))
  rw [mul_zero, add_zero] at h2
  refine (congrArg (TendsTo · 0) ?_).mpr h2
  funext N
  rw [psum_double]
  have h0 : psum (evens (iirUpOp nc c x)) N = psum (branch c 0 x (branchLen nc 0)) N := by
    refine sum_congr rfl fun n _ => ?_
    unfold evens iirUpOp
    rw [show 2 * n % 2 = 0 by omega, show 2 * n / 2 = n by omega]
    rfl
  have h1 : psum (odds (iirUpOp nc c x)) N = psum (branch c 1 x (branchLen nc 1)) N := by
    refine sum_congr rfl fun n _ => ?_
    unfold odds iirUpOp
    rw [show (2 * n + 1) % 2 = 1 by omega, show (2 * n + 1) / 2 = n by omega]
    rfl
  rw [h0, h1]
  ring

theorem iirDown_psum [Archimedean K] {nc : ℕ} {c : ℕ → K} (hc : ∀ i, |c i| < 1) {x : ℕ → K} (hx : TendsTo x 0) :
    TendsTo (fun N => psum x (2 * N) - 2 * psum (iirDownOp nc c (1 / 2) x) N) 0 := by
  have h2 := (branch_psum hc 0 (odds_tendsTo hx) (branchLen nc 0)).comb 1 1 (branch_psum hc 1 (evens_tendsTo hx) (branchLen nc 1))
  rw [mul_zero, add_zero] at h2
  refine (congrArg (TendsTo · 0) ?_).mpr h2
  funext N
  rw [psum_double]
  have h0 : psum (iirDownOp nc c (1 / 2) x) N =
      1 / 2 * (psum (branch c 0 (odds x) (branchLen nc 0)) N + psum (branch c 1 (evens x) (branchLen nc 1)) N) := by
    unfold psum
    rw [← sum_add_distrib, mul_sum]
    rfl
  rw [h0]
  ring

theorem cascade_psum_up [Archimedean K] (hh : (Sample.half : K) = 1 / 2) {ss : List (Stage K)} (h : ∀ s ∈ ss, s.Stable true) {x : ℕ → K}
    (hx : TendsTo x 0) : TendsTo (fun N => 2 ^ ss.length * psum x N - psum (cascadeOp ss x) (2 ^ ss.length * N)) 0 := by
  induction ss generalizing x with
  | nil =>
    intro ε hε
    exact ⟨0, fun n _ => by simpa [cascadeOp] using hε.le⟩
  | cons s ss ih =>
    have hs := h s (by simp)
    cases s with
    | iirUp v c =>
      have h1 := ih (fun s hs => h s (by simp [hs])) (hs.tendsTo hh hx)
      have h1 := h1.subseq (f := fun n => 2 * n) (fun n => by omega)
      have h2 := iirUp_psum (nc := c.length) (fun i => (sq_lt_one_iff_abs_lt_one _).1 (hs.2 i)) hx
      have h3 := h2.comb (2 ^ ss.length) 1 h1
      rw [mul_zero, mul_zero, add_zero] at h3
      refine (congrArg (TendsTo · 0) ?_).mpr h3
      funext N
      simp only [List.length_cons, cascadeOp, Stage.op]
      rw [show 2 ^ (ss.length + 1) * N = 2 ^ ss.length * (2 * N) by rw [pow_succ]; ring, pow_succ]
      ring
    | iirDown v c => simp [Stage.Stable] at hs
    | firUp v c => exact hs.elim
    | firDown v c => exact hs.elim

theorem cascade_psum_down [Archimedean K] (hh : (Sample.half : K) = 1 / 2) {ss : List (Stage K)} (h : ∀ s ∈ ss, s.Stable false) {x : ℕ → K}
    (hx : TendsTo x 0) : TendsTo (fun N => psum x (2 ^ ss.length * N) - 2 ^ ss.length * psum (cascadeOp ss x) N) 0 := by
  induction ss generalizing x with
  | nil =>
    intro ε hε
    exact ⟨0, fun n _ => by simpa [cascadeOp] using hε.le⟩
  | cons s ss ih =>
    have hs := h s (by simp)
    cases s with
    | iirDown v c =>
      have h1 := ih (fun s hs => h s (by simp [hs])) (hs.tendsTo hh hx)
      have h2 := iirDown_psum (nc := c.length) (fun i => (sq_lt_one_iff_abs_lt_one _).1 (hs.2 i)) hx
      have h2 := h2.subseq (f := fun n => 2 ^ ss.length * n) (fun n => Nat.le_mul_of_pos_left n (by positivity))
      have h3 := h2.comb 1 2 h1
      rw [mul_zero, mul_zero, add_zero] at h3
      refine (congrArg (TendsTo · 0) ?_).mpr h3
      funext N
      simp only [List.length_cons, cascadeOp, Stage.op]
      rw [show 2 ^ (ss.length + 1) * N = 2 * (2 ^ ss.length * N) by rw [pow_succ]; ring, pow_succ, hh]
      ring
    | iirUp v c => simp [Stage.Stable] at hs
    | firUp v c => exact hs.elim
    | firDown v c => exact hs.elim

theorem psum_list (xs : List K) {n : ℕ} (hn : xs.length ≤ n) : psum (seq xs) n = xs.sum := by
  unfold psum
  rw [show n = xs.length + (n - xs.length) by omega, sum_range_add,
    sum_eq_zero (s := range (n - xs.length)) (fun i _ => seq_ge (by omega)), add_zero]
  have := sum_seq xs id
  simpa using this

end Panda
