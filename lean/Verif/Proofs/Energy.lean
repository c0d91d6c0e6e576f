import Mathlib.Algebra.Order.Archimedean.Basic
import Mathlib.Algebra.Order.Field.Power
import Mathlib.Tactic.Linarith
import Mathlib.Tactic.LinearCombination
import Verif.Proofs.Gain

/-!
# Energy and convergence of the IIR filters
-/

set_option linter.unusedSectionVars false

namespace Panda

open Finset

variable {K : Type} [Field K] [LinearOrder K] [IsStrictOrderedRing K]

/-- Energy of the first `N` samples. -/
def energy (x : ℕ → K) (N : ℕ) : K := ∑ n ∈ range N, x n ^ 2

theorem allpass_energy_eq (a : K) (x : ℕ → K) (N : ℕ) :
    (energy x (N + 1) - energy (allpass a x) (N + 1)) * (1 - a ^ 2) = (x N - a * allpass a x N) ^ 2 := by
  induction N with
  | zero =>
    simp only [energy, sum_range_succ, sum_range_zero, allpass]
    ring
  | succ N ih =>
    unfold energy at ih ⊢
    rw [sum_range_succ, sum_range_succ (fun n => allpass a x n ^ 2)]
    have e : allpass a x (N + 1) = (x (N + 1) - allpass a x N) * a + x N := rfl
    rw [e]
    linear_combination ih

theorem allpass_energy_le {a : K} (ha : a ^ 2 < 1) (x : ℕ → K) (N : ℕ) : energy (allpass a x) N ≤ energy x N := by
  cases N with
  | zero => simp [energy]
  | succ N =>
    have h := allpass_energy_eq a x N
    have h1 : 0 < 1 - a ^ 2 := by linarith
    have h2 : 0 ≤ (energy x (N + 1) - energy (allpass a x) (N + 1)) * (1 - a ^ 2) := by rw [h]; positivity
    have := nonneg_of_mul_nonneg_left h2 h1
    linarith

theorem branch_energy_le {c : ℕ → K} (hc : ∀ i, c i ^ 2 < 1) (b : ℕ) (x : ℕ → K) (j N : ℕ) :
    energy (branch c b x j) N ≤ energy x N := by
  induction j with
  | zero => exact le_rfl
  | succ j ih => exact (allpass_energy_le (hc _) _ N).trans ih

theorem energy_double (x : ℕ → K) (N : ℕ) : energy x (2 * N) = energy (evens x) N + energy (odds x) N := by
  induction N with
  | zero => simp [energy]
  | succ N ih =>
    unfold energy evens odds at *
    rw [show 2 * (N + 1) = 2 * N + 1 + 1 by omega, sum_range_succ, sum_range_succ, ih, sum_range_succ, sum_range_succ]
    ring

theorem iirUp_energy {nc : ℕ} {c : ℕ → K} (hc : ∀ i, c i ^ 2 < 1) (x : ℕ → K) (N : ℕ) :
    energy (iirUpOp nc c x) (2 * N) ≤ 2 * energy x N := by
  rw [energy_double]
  have h0 : energy (evens (iirUpOp nc c x)) N = energy (branchOut nc c 0 x) N := by
    unfold evens iirUpOp
    refine sum_congr rfl fun n _ => ?_
    beta_reduce
    rw [show 2 * n % 2 = 0 by omega, show 2 * n / 2 = n by omega]
  have h1 : energy (odds (iirUpOp nc c x)) N = energy (branchOut nc c 1 x) N := by
    unfold odds iirUpOp
    refine sum_congr rfl fun n _ => ?_
    beta_reduce
    rw [show (2 * n + 1) % 2 = 1 by omega, show (2 * n + 1) / 2 = n by omega]
  rw [h0, h1]
  have e0 := branch_energy_le hc 0 x (branchLen nc 0) N
  have e1 := branch_energy_le hc 1 x (branchLen nc 1) N
  unfold branchOut
  linarith

theorem iirDown_energy {nc : ℕ} {c : ℕ → K} (hc : ∀ i, c i ^ 2 < 1) (x : ℕ → K) (N : ℕ) :
    2 * energy (iirDownOp nc c (1 / 2) x) N ≤ energy x (2 * N) := by
  rw [energy_double]
  have e0 := branch_energy_le hc 0 (odds x) (branchLen nc 0) N
  have e1 := branch_energy_le hc 1 (evens x) (branchLen nc 1) N
  have : 2 * energy (iirDownOp nc c (1 / 2) x) N ≤ energy (branchOut nc c 0 (odds x)) N + energy (branchOut nc c 1 (evens x)) N := by
    unfold energy
    rw [mul_sum, ← sum_add_distrib]
    refine sum_le_sum fun n _ => ?_
    unfold iirDownOp
    nlinarith [sq_nonneg (branchOut nc c 0 (odds x) n - branchOut nc c 1 (evens x) n)]
  unfold branchOut at this
  linarith

variable [Sample K]

/-- An IIR stage with coefficients of absolute value less than 1. -/
def Stage.Stable (up : Bool) : Stage K → Prop
  | .iirUp _ c => up = true ∧ ∀ i, seq c i ^ 2 < 1
  | .iirDown _ c => up = false ∧ ∀ i, seq c i ^ 2 < 1
  | _ => False

theorem cascade_energy_up {ss : List (Stage K)} (h : ∀ s ∈ ss, s.Stable true) (x : ℕ → K) (N : ℕ) :
    energy (cascadeOp ss x) (2 ^ ss.length * N) ≤ 2 ^ ss.length * energy x N := by
  induction ss generalizing x N with
  | nil => simp [cascadeOp]
  | cons s ss ih =>
    have hs := h s (by simp)
    cases s with
    | iirUp v c =>
      have := ih (fun s hs => h s (by simp [hs])) (Stage.op (.iirUp v c) x) (2 * N)
      have e := iirUp_energy (nc := c.length) hs.2 x N
      simp only [List.length_cons, cascadeOp]
      rw [show 2 ^ (ss.length + 1) * N = 2 ^ ss.length * (2 * N) by rw [pow_succ]; ring]
      refine this.trans ?_
      rw [pow_succ, mul_assoc]
      exact mul_le_mul_of_nonneg_left e (by positivity)
    | iirDown v c => simp [Stage.Stable] at hs
    | firUp v c => exact hs.elim
    | firDown v c => exact hs.elim

theorem cascade_energy_down (hh : (Sample.half : K) = 1 / 2) {ss : List (Stage K)} (h : ∀ s ∈ ss, s.Stable false) (x : ℕ → K) (N : ℕ) :
    2 ^ ss.length * energy (cascadeOp ss x) N ≤ energy x (2 ^ ss.length * N) := by
  induction ss generalizing x N with
  | nil => simp [cascadeOp]
  | cons s ss ih =>
    have hs := h s (by simp)
    cases s with
    | iirDown v c =>
      have := ih (fun s hs => h s (by simp [hs])) (Stage.op (.iirDown v c) x) N
      have e := iirDown_energy (nc := c.length) hs.2 x (2 ^ ss.length * N)
      simp only [List.length_cons, cascadeOp]
      rw [show 2 ^ (ss.length + 1) * N = 2 * (2 ^ ss.length * N) by rw [pow_succ]; ring]
      simp only [Stage.op, hh] at this ⊢
      refine le_trans ?_ e
      rw [pow_succ]
      linarith
    | iirUp v c => simp [Stage.Stable] at hs
    | firUp v c => exact hs.elim
    | firDown v c => exact hs.elim

/-! ## Convergence -/

/-- `x` tends to `c`. -/
def TendsTo (x : ℕ → K) (c : K) : Prop := ∀ ε > 0, ∃ N, ∀ n ≥ N, |x n - c| ≤ ε

theorem recursion_tendsTo [Archimedean K] {a : K} (ha : |a| < 1) {e u : ℕ → K} (hr : ∀ n, e (n + 1) = -a * e n + u n)
    (hu : TendsTo u 0) : TendsTo e 0 := by
  intro ε hε
  have h1 : 0 < 1 - |a| := by linarith
  obtain ⟨N, hN⟩ := hu (ε / 2 * (1 - |a|)) (by positivity)
  have hb : ∀ k, |e (N + k)| ≤ |a| ^ k * |e N| + ε / 2 := by
    intro k
    induction k with
    | zero => simp; linarith
    | succ k ih =>
      rw [show N + (k + 1) = N + k + 1 by omega, hr]
      have h2 := hN (N + k) (by omega)
      rw [sub_zero] at h2
      calc _ ≤ |-a * e (N + k)| + |u (N + k)| := abs_add_le _ _
        _ ≤ |a| * (|a| ^ k * |e N| + ε / 2) + ε / 2 * (1 - |a|) := by
          rw [abs_mul, abs_neg]
          gcongr
        _ = |a| ^ (k + 1) * |e N| + ε / 2 := by ring
  obtain ⟨k, hk⟩ := exists_pow_lt_of_lt_one (show 0 < ε / 2 / (|e N| + 1) by positivity) ha
  refine ⟨N + k, fun n hn => ?_⟩
  obtain ⟨l, rfl⟩ := Nat.exists_eq_add_of_le hn
  rw [sub_zero]
  have := hb (k + l)
  rw [← add_assoc] at this
  refine this.trans ?_
  have h3 : |a| ^ (k + l) ≤ |a| ^ k := pow_le_pow_of_le_one (abs_nonneg _) ha.le (by omega)
  have h4 : |a| ^ k * (|e N| + 1) ≤ ε / 2 := by
    have := (lt_div_iff₀ (by positivity)).1 hk
    linarith
  have h5 : |a| ^ (k + l) * |e N| ≤ |a| ^ k * (|e N| + 1) := by
    apply mul_le_mul h3 (by linarith) (abs_nonneg _) (by positivity)
  linarith

theorem TendsTo.comb {x y : ℕ → K} {c d : K} (p q : K) (hx : TendsTo x c) (hy : TendsTo y d) :
    TendsTo (fun n => p * x n + q * y n) (p * c + q * d) := by
  intro ε hε
  obtain ⟨N, hN⟩ := hx (ε / 2 / (|p| + 1)) (by positivity)
  obtain ⟨M, hM⟩ := hy (ε / 2 / (|q| + 1)) (by positivity)
  refine ⟨max N M, fun n hn => ?_⟩
  have h1 := hN n (le_trans (le_max_left _ _) hn)
  have h2 := hM n (le_trans (le_max_right _ _) hn)
  rw [le_div_iff₀ (by positivity)] at h1 h2
  calc _ = |p * (x n - c) + q * (y n - d)| := by congr 1; ring
    _ ≤ |p| * |x n - c| + |q| * |y n - d| := by
      refine (abs_add_le _ _).trans ?_
      rw [abs_mul, abs_mul]
    _ ≤ ε := by nlinarith [abs_nonneg (x n - c), abs_nonneg (y n - d)]

theorem TendsTo.subseq {x : ℕ → K} {c : K} (h : TendsTo x c) {f : ℕ → ℕ} (hf : ∀ n, n ≤ f n) : TendsTo (fun n => x (f n)) c := by
  intro ε hε
  obtain ⟨N, hN⟩ := h ε hε
  exact ⟨N, fun n hn => hN _ (le_trans hn (hf n))⟩

theorem allpass_tendsTo [Archimedean K] {a : K} (ha : |a| < 1) {x : ℕ → K} {c : K} (hx : TendsTo x c) : TendsTo (allpass a x) c := by
  have h := recursion_tendsTo ha (e := fun n => allpass a x n - c) (u := fun n => a * (x (n + 1) - c) + 1 * (x n - c)) (by
    intro n
    show (x (n + 1) - allpass a x n) * a + x n - c = _
    ring) (by
    have h0 : TendsTo (fun n => x n - c) 0 := by
      intro ε hε
      obtain ⟨N, hN⟩ := hx ε hε
      exact ⟨N, fun n hn => by simpa using hN n hn⟩
    have h1 : TendsTo (fun n => x (n + 1) - c) 0 := h0.subseq (f := fun n => n + 1) (fun n => by omega)
    have := h1.comb a 1 h0
    simpa using this)
  intro ε hε
  obtain ⟨N, hN⟩ := h ε hε
  exact ⟨N, fun n hn => by simpa using hN n hn⟩

theorem branch_tendsTo [Archimedean K] {cs : ℕ → K} (hc : ∀ i, |cs i| < 1) (b : ℕ) {x : ℕ → K} {c : K} (hx : TendsTo x c) (j : ℕ) :
    TendsTo (branch cs b x j) c := by
  induction j with
  | zero => exact hx
  | succ j ih => exact allpass_tendsTo (hc _) ih

theorem Stage.Stable.tendsTo [Archimedean K] (hh : (Sample.half : K) = 1 / 2) {s : Stage K} {up : Bool} (h : s.Stable up) {x : ℕ → K}
    {c : K} (hx : TendsTo x c) : TendsTo (s.op x) c := by
  cases s with
  | iirUp v t =>
    have hc : ∀ i, |seq t i| < 1 := fun i => (sq_lt_one_iff_abs_lt_one _).1 (h.2 i)
    have h0 := branch_tendsTo hc 0 hx (branchLen t.length 0)
    have h1 := branch_tendsTo hc 1 hx (branchLen t.length 1)
    intro ε hε
    obtain ⟨N, hN⟩ := h0 ε hε
    obtain ⟨M, hM⟩ := h1 ε hε
    refine ⟨2 * max N M, fun n hn => ?_⟩
    simp only [Stage.op, iirUpOp, branchOut]
    have := le_max_left N M
    have := le_max_right N M
    rcases Nat.mod_two_eq_zero_or_one n with e | e <;> rw [e]
    · exact hN _ (by omega)
    · exact hM _ (by omega)
  | iirDown v t =>
    have hc : ∀ i, |seq t i| < 1 := fun i => (sq_lt_one_iff_abs_lt_one _).1 (h.2 i)
    have h0 := branch_tendsTo hc 0 (x := odds x) (hx.subseq (f := fun n => 2 * n + 1) (fun n => by omega)) (branchLen t.length 0)
    have h1 := branch_tendsTo hc 1 (x := evens x) (hx.subseq (f := fun n => 2 * n) (fun n => by omega)) (branchLen t.length 1)
    have := h0.comb (1 / 2) (1 / 2) h1
    have e : (1 / 2 : K) * c + 1 / 2 * c = c := by ring
    rw [e] at this
    intro ε hε
    obtain ⟨N, hN⟩ := this ε hε
    refine ⟨N, fun n hn => ?_⟩
    have := hN n hn
    simp only [Stage.op, iirDownOp, hh, branchOut]
    rwa [mul_add]
  | firUp v c => exact h.elim
  | firDown v c => exact h.elim

theorem cascade_tendsTo [Archimedean K] (hh : (Sample.half : K) = 1 / 2) {ss : List (Stage K)} {up : Bool} (h : ∀ s ∈ ss, s.Stable up)
    {x : ℕ → K} {c : K} (hx : TendsTo x c) : TendsTo (cascadeOp ss x) c := by
  induction ss generalizing x with
  | nil => exact hx
  | cons s ss ih => exact ih (fun s hs => h s (by simp [hs])) ((h s (by simp)).tendsTo hh hx)

/-- The coefficients of the tables are between 0 and 15/16. -/
theorem iirTable_coefs : ∀ k ∈ [2, 4, 8], ∀ p ∈ [8, 12, 16, 20, 24], ∀ d ∈ ((iirTable k p).getD ([], ⟨0, 0⟩)).1,
    0 < d.toRat ∧ d.toRat ≤ 15 / 16 := by decide +kernel

theorem Config.stages_stable [Accurate K] {cfg : Config} (hv : cfg.Valid) (hf : cfg.filter = .iir) :
    ∀ s ∈ cfg.stages (F := K), s.Stable (cfg.mode == .up) := by
  intro s hs
  have : ∃ k ∈ [2, 4, 8], s ∈ cfg.stage (F := K) k := by
    unfold Config.stages at hs
    split at hs <;> simp only [List.mem_flatten, List.mem_map, List.mem_filter] at hs <;>
      obtain ⟨l, ⟨k, hk, rfl⟩, hs⟩ := hs <;> refine ⟨k, ?_, hs⟩ <;> have := hk.1 <;> simp at this ⊢ <;> omega
  obtain ⟨k, hk, hs⟩ := this
  have hp : cfg.precision ∈ [8, 12, 16, 20, 24] := by
    have h1 := hv.precision
    have h2 := hv.iir hf
    simp at h1 ⊢
    omega
  obtain ⟨t, ht⟩ := Option.isSome_iff_exists.1 ((tables_exist hk hv.precision).2 (hv.iir hf))
  have hco := iirTable_coefs k hk _ hp
  rw [ht, Option.getD_some] at hco
  have hsq : ∀ i, seq (t.1.map fun d => (Sample.ofDouble d.toRat : K)) i ^ 2 < 1 := by
    intro i
    by_cases hi : i < t.1.length
    · rw [seq_lt (by simpa using hi), List.getElem_map]
      obtain ⟨h0, h1⟩ := hco t.1[i] (List.getElem_mem hi)
      have ha := Accurate.ofDouble (K := K) (t.1[i].toRat)
      generalize (Sample.ofDouble t.1[i].toRat : K) = y at *
      have h0' : (0 : K) < ((t.1[i].toRat : ℚ) : K) := by exact_mod_cast h0
      have h1' : ((t.1[i].toRat : ℚ) : K) ≤ 15 / 16 := by
        have : ((t.1[i].toRat : ℚ) : K) ≤ ((15 / 16 : ℚ) : K) := by exact_mod_cast h1
        refine this.trans (le_of_eq ?_)
        push_cast
        rfl
      generalize ((t.1[i].toRat : ℚ) : K) = q at *
      rw [sq_lt_one_iff_abs_lt_one]
      rw [abs_of_pos h0'] at ha
      obtain ⟨h2, h3⟩ := abs_le.1 ha
      norm_num at h2 h3
      rw [abs_lt]
      constructor <;> linarith
    · rw [seq_ge (by simpa using hi)]
      norm_num
  unfold Config.stage at hs
  cases hm : cfg.mode <;> simp only [hf, hm, ht, Option.toList, List.map_cons, List.map_nil, List.mem_singleton] at hs <;>
    subst hs <;> exact ⟨rfl, hsq⟩

end Panda
