import Verif.Proofs.Energy

/-!
# IIR upsampling keeps the energy and can be undone
-/

set_option linter.unusedSectionVars false

namespace Panda

open Finset

variable {K : Type} [Field K] [LinearOrder K] [IsStrictOrderedRing K] [Sample K]

theorem TendsTo.sq {x : ℕ → K} (h : TendsTo x 0) : TendsTo (fun n => x n ^ 2) 0 := by
  intro ε hε
  obtain ⟨N, hN⟩ := h (min 1 ε) (by positivity)
  refine ⟨N, fun n hn => ?_⟩
  have h1 := hN n hn
  rw [sub_zero] at h1 ⊢
  rw [abs_pow, pow_two]
  have h2 : |x n| ≤ 1 := h1.trans (min_le_left _ _)
  have h3 : |x n| ≤ ε := h1.trans (min_le_right _ _)
  nlinarith [abs_nonneg (x n)]

theorem TendsTo.of_succ {x : ℕ → K} {c : K} (h : TendsTo (fun n => x (n + 1)) c) : TendsTo x c := by
  intro ε hε
  obtain ⟨N, hN⟩ := h ε hε
  refine ⟨N + 1, fun n hn => ?_⟩
  have : |x (n - 1 + 1) - c| ≤ ε := hN (n - 1) (by omega)
  rwa [show n - 1 + 1 = n by omega] at this

theorem allpass_loss [Archimedean K] {a : K} (ha : |a| < 1) {x : ℕ → K} (hx : TendsTo x 0) :
    TendsTo (fun N => energy x N - energy (allpass a x) N) 0 := by
  apply TendsTo.of_succ
  have h1 : (0 : K) < 1 - a ^ 2 := by
    have := (sq_lt_one_iff_abs_lt_one a).2 ha
    linarith
  have h2 := (hx.comb 1 (-a) (allpass_tendsTo ha hx))
  rw [mul_zero, mul_zero, add_zero] at h2
  have h3 := h2.sq.comb (1 / (1 - a ^ 2)) 0 hx
  rw [mul_zero, mul_zero, add_zero] at h3
  have e : (fun n => energy x (n + 1) - energy (allpass a x) (n + 1)) =
      fun n => 1 / (1 - a ^ 2) * (1 * x n + -a * allpass a x n) ^ 2 + 0 * x n := by
    funext n
    have := allpass_energy_eq a x n
    rw [zero_mul, add_zero, one_mul, neg_mul, ← sub_eq_add_neg, ← this]
    field_simp
  rw [e]
  exact h3

theorem branch_loss [Archimedean K] {c : ℕ → K} (hc : ∀ i, |c i| < 1) (b : ℕ) {x : ℕ → K} (hx : TendsTo x 0) (j : ℕ) :
    TendsTo (fun N => energy x N - energy (branch c b x j) N) 0 := by
  induction j with
  | zero =>
    intro ε hε
    exact ⟨0, fun n _ => by simpa [branch] using hε.le⟩
  | succ j ih =>
    have h1 := allpass_loss (hc (2 * j + b)) (branch_tendsTo hc b hx j)
    have h2 := ih.comb 1 1 h1
    rw [mul_zero, add_zero] at h2
    have e : (fun N => energy x N - energy (branch c b x (j + 1)) N) = fun N =>
        1 * (energy x N - energy (branch c b x j) N) +
          1 * (energy (branch c b x j) N - energy (allpass (c (2 * j + b)) (branch c b x j)) N) := by
      funext N
      simp only [branch]
      ring
    rw [e]
    exact h2

theorem iirUp_loss [Archimedean K] {nc : ℕ} {c : ℕ → K} (hc : ∀ i, |c i| < 1) {x : ℕ → K} (hx : TendsTo x 0) :
    TendsTo (fun N => 2 * energy x N - energy (iirUpOp nc c x) (2 * N)) 0 := by
  have h0 := branch_loss hc 0 hx (branchLen nc 0)
  have h1 := branch_loss hc 1 hx (branchLen nc 1)
  have h2 := h0.comb 1 1 h1
  rw [mul_zero, add_zero] at h2
  have e : (fun N => 2 * energy x N - energy (iirUpOp nc c x) (2 * N)) = fun N =>
      1 * (energy x N - energy (branch c 0 x (branchLen nc 0)) N) + 1 * (energy x N - energy (branch c 1 x (branchLen nc 1)) N) := by
    funext N
    rw [energy_double]
    have h0 : energy (evens (iirUpOp nc c x)) N = energy (branch c 0 x (branchLen nc 0)) N := by
      unfold evens iirUpOp
      refine sum_congr rfl fun n _ => ?_
      beta_reduce
      rw [show 2 * n % 2 = 0 by omega, show 2 * n / 2 = n by omega]
      rfl
    have h1 : energy (odds (iirUpOp nc c x)) N = energy (branch c 1 x (branchLen nc 1)) N := by
      unfold odds iirUpOp
      refine sum_congr rfl fun n _ => ?_
      beta_reduce
      rw [show (2 * n + 1) % 2 = 1 by omega, show (2 * n + 1) / 2 = n by omega]
      rfl
    rw [h0, h1]
    ring
  rw [e]
  exact h2

theorem allpass_inj {a : K} (ha : a ≠ 0) {x y : ℕ → K} {N : ℕ} (h : ∀ n < N, allpass a x n = allpass a y n) :
    ∀ n < N, x n = y n := by
  intro n
  induction n with
  | zero =>
    intro hn
    have := h 0 hn
    simp only [allpass, sub_zero, add_zero] at this
    exact mul_right_cancel₀ ha this
  | succ n ih =>
    intro hn
    have h1 := h (n + 1) hn
    have h0 := h n (by omega)
    have := ih (by omega)
    simp only [allpass] at h1
    rw [h0, this, add_left_inj] at h1
    exact sub_left_inj.1 (mul_right_cancel₀ ha h1)

theorem branch_inj {c : ℕ → K} {b : ℕ} {x y : ℕ → K} {N j : ℕ} (hc : ∀ i < j, c (2 * i + b) ≠ 0)
    (h : ∀ n < N, branch c b x j n = branch c b y j n) : ∀ n < N, x n = y n := by
  induction j with
  | zero => exact h
  | succ j ih => exact ih (fun i hi => hc i (by omega)) (allpass_inj (hc j (by omega)) h)

theorem cascade_loss [Archimedean K] (hh : (Sample.half : K) = 1 / 2) {ss : List (Stage K)} (h : ∀ s ∈ ss, s.Stable true) {x : ℕ → K}
    (hx : TendsTo x 0) : TendsTo (fun N => 2 ^ ss.length * energy x N - energy (cascadeOp ss x) (2 ^ ss.length * N)) 0 := by
  induction ss generalizing x with
  | nil =>
    intro ε hε
    exact ⟨0, fun n _ => by simpa [cascadeOp] using hε.le⟩
  | cons s ss ih =>
    have hs := h s (by simp)
    cases s with
    | iirUp v c =>
      have h1 := ih (fun s hs => h s (by simp [hs])) (hs.tendsTo hh hx)
      have h1 := h1.subseq (f := fun n => 2 * n) (fun n => by omega)
      have h2 := iirUp_loss (nc := c.length) (fun i => (sq_lt_one_iff_abs_lt_one _).1 (hs.2 i)) hx
      have h3 := h2.comb (2 ^ ss.length) 1 h1
      rw [mul_zero, mul_zero, add_zero] at h3
      refine (congrArg (TendsTo · 0) ?_).mpr h3
      funext N
      simp only [List.length_cons, cascadeOp, Stage.op]
      rw [show 2 ^ (ss.length + 1) * N = 2 ^ ss.length * (2 * N) by rw [pow_succ]; ring, pow_succ]
      ring
    | iirDown v c => simp [Stage.Stable] at hs
    | firUp v c => exact hs.elim
    | firDown v c => exact hs.elim

/-- An IIR upsampling stage without coefficients that are 0. -/
def Stage.Inv : Stage K → Prop
  | .iirUp _ c => ∀ i < c.length, seq c i ≠ 0
  | _ => False

theorem cascade_inj {ss : List (Stage K)} (h : ∀ s ∈ ss, s.Inv) {x y : ℕ → K} {N : ℕ}
    (e : ∀ n < 2 ^ ss.length * N, cascadeOp ss x n = cascadeOp ss y n) : ∀ n < N, x n = y n := by
  induction ss generalizing x y N with
  | nil => simpa [cascadeOp] using e
  | cons s ss ih =>
    have hs := h s (by simp)
    cases s with
    | iirUp v c =>
      have h1 := ih (fun s hs => h s (by simp [hs])) (N := 2 * N) (x := Stage.op (.iirUp v c) x) (y := Stage.op (.iirUp v c) y) (by
        intro n hn
        refine e n ?_
        rw [List.length_cons, pow_succ]
        calc n < _ := hn
          _ = _ := by ring)
      refine branch_inj (c := seq c) (b := 0) (j := branchLen c.length 0) (fun i hi => hs _ ?_) fun n hn => ?_
      · unfold branchLen at hi
        omega
      · have := h1 (2 * n) (by omega)
        simp only [Stage.op, iirUpOp, show 2 * n % 2 = 0 by omega, show 2 * n / 2 = n by omega] at this
        exact this
    | iirDown v c => exact hs.elim
    | firUp v c => exact hs.elim
    | firDown v c => exact hs.elim

theorem Config.stages_inv [Accurate K] {cfg : Config} (hv : cfg.Valid) (hf : cfg.filter = .iir) (hm : cfg.mode = .up) :
    ∀ s ∈ cfg.stages (F := K), s.Inv := by
  intro s hs
  have : ∃ k ∈ [2, 4, 8], s ∈ cfg.stage (F := K) k := by
    unfold Config.stages at hs
    split at hs <;> simp only [List.mem_flatten, List.mem_map, List.mem_filter] at hs <;>
      obtain ⟨l, ⟨k, hk, rfl⟩, hs⟩ := hs <;> refine ⟨k, ?_, hs⟩ <;> have := hk.1 <;> simp at this ⊢ <;> omega
  obtain ⟨k, hk, hs⟩ := this
  have hp : cfg.precision ∈ [8, 12, 16, 20, 24] := by
    have h1 := hv.precision
    have h2 := hv.iir hf
    simp at h1 ⊢
    omega
  obtain ⟨t, ht⟩ := Option.isSome_iff_exists.1 ((tables_exist hk hv.precision).2 (hv.iir hf))
  have hco := iirTable_coefs k hk _ hp
  rw [ht, Option.getD_some] at hco
  unfold Config.stage at hs
  simp only [hf, hm, ht, Option.toList, List.map_cons, List.map_nil, List.mem_singleton] at hs
  subst hs
  intro i hi
  rw [List.length_map] at hi
  rw [seq_lt (by simpa using hi), List.getElem_map]
  obtain ⟨h0, -⟩ := hco t.1[i] (List.getElem_mem hi)
  have ha := Accurate.ofDouble (K := K) (t.1[i].toRat)
  generalize (Sample.ofDouble t.1[i].toRat : K) = y at *
  have h0' : (0 : K) < ((t.1[i].toRat : ℚ) : K) := by exact_mod_cast h0
  generalize ((t.1[i].toRat : ℚ) : K) = q at *
  rw [abs_of_pos h0'] at ha
  rintro rfl
  rw [zero_sub, abs_neg, abs_of_pos h0'] at ha
  norm_num at ha
  linarith

end Panda
