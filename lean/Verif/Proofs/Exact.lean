import Mathlib.Tactic.Ring
import Mathlib.Tactic.Linarith
import Verif.Spec.Exact
import Verif.Proofs.Stages

/-!
# The relations in exact arithmetic
-/

set_option linter.unusedSectionVars false

namespace Panda

open Finset

variable {K : Type} [CommRing K]

theorem firScalar_eq_sum (x t : ℕ → K) (n : ℕ) : firScalar x t n = ∑ i ∈ range n, t i * x i := by
  induction n with
  | zero => rfl
  | succ n ih => rw [firScalar, ih, sum_range_succ, mul_comm (x n)]

theorem firLanes_eq_sum (x t : ℕ → K) (O k n : ℕ) :
    firLane x t O k 0 n + firLane x t O k 1 n + firLane x t O k 2 n + firLane x t O k 3 n =
      ∑ j ∈ range (4 * (n + 1)), delayedTap t O k j * x j := by
  induction n with
  | zero =>
    simp only [firLane, sum_range_succ, sum_range_zero]
    ring
  | succ n ih =>
    rw [show 4 * (n + 1 + 1) = 4 * (n + 1) + 1 + 1 + 1 + 1 by ring]
    rw [sum_range_succ, sum_range_succ, sum_range_succ, sum_range_succ, ← ih]
    simp only [firLane]
    ring_nf

theorem delayedTap_sum (x t : ℕ → K) (O k n : ℕ) (h : O + k ≤ n) :
    ∑ j ∈ range n, delayedTap t O k j * x j = ∑ i ∈ range O, t i * x (k + i) := by
  obtain ⟨d, rfl⟩ := Nat.exists_eq_add_of_le h
  rw [show O + k + d = k + O + d by ring, sum_range_add, sum_range_add]
  have h0 : ∑ j ∈ range k, delayedTap t O k j * x j = 0 := by
    refine sum_eq_zero fun j hj => ?_
    have := mem_range.1 hj
    rw [delayedTap, if_neg (by omega), zero_mul]
  have h2 : ∑ j ∈ range d, delayedTap t O k (k + O + j) * x (k + O + j) = 0 := by
    refine sum_eq_zero fun j hj => ?_
    rw [delayedTap, if_neg (by omega), zero_mul]
  rw [h0, h2, zero_add, add_zero]
  refine sum_congr rfl fun i hi => ?_
  have := mem_range.1 hi
  rw [delayedTap, if_pos (by omega)]
  congr 2
  omega

theorem firVector_eq_sum (x t : ℕ → K) (O k : ℕ) (hk : k < 4) :
    firVector x t O k = ∑ i ∈ range O, t i * x (k + i) := by
  unfold firVector
  rw [firLanes_eq_sum]
  exact delayedTap_sum x t O k _ (by omega)

/-- Whatever the order of evaluation, the value is the dot product. -/
theorem FirVal.eq_sum {vec : Bool} {t : ℕ → K} {O : ℕ} {X : ℕ → K} {N m : ℕ} {v : K} (h : FirVal vec t O X N m v) :
    v = ∑ i ∈ range O, t i * X (m + i) := by
  rcases h with rfl | ⟨-, k, hk, hm, -, rfl⟩
  · rw [firScalar_eq_sum]
  · rw [firVector_eq_sum _ _ _ _ hk]
    refine sum_congr rfl fun i _ => ?_
    congr 2
    omega

theorem padded_eq_zext {O : ℕ} (hO : 1 ≤ O) (x : ℕ → K) (k : ℕ) : padded O x k = zext x (k - ((O : ℤ) - 1)) := by
  unfold padded zext
  by_cases h : k < O - 1
  · rw [if_pos h, if_neg (by omega)]
  · rw [if_neg h, if_pos (by omega)]
    congr 1
    omega

theorem zext_evens (x : ℕ → K) (z : ℤ) : zext (evens x) z = zext x (2 * z) := by
  unfold zext evens
  by_cases h : 0 ≤ z
  · rw [if_pos h, if_pos (by omega)]
    congr 1
    omega
  · rw [if_neg h, if_neg (by omega)]

theorem zext_odds (x : ℕ → K) (z : ℤ) : zext (odds x) z = zext x (2 * z + 1) := by
  unfold zext odds
  by_cases h : 0 ≤ z
  · rw [if_pos h, if_pos (by omega)]
    congr 1
    omega
  · rw [if_neg h, if_neg (by omega)]

/-- An all-pass section with coefficient 1 does nothing. -/
theorem allpass_one (x : ℕ → K) (n : ℕ) : allpass 1 x n = x n := by
  cases n with
  | zero => simp [allpass]
  | succ n =>
    rw [allpass, allpass_one x n]
    ring

theorem iirBranch1_eq (sse : Bool) (nc : ℕ) (c x : ℕ → K) : iirBranch1 sse nc c x = branchOut nc c 1 x := by
  funext n
  unfold iirBranch1
  split
  · exact allpass_one _ _
  · rfl

variable [Sample K]

/-- In exact arithmetic the relation of a stage determines the output. -/
theorem Stage.Rel.eq_op {s : Stage K} (ht : ∀ v t, s = .firUp v t ∨ s = .firDown v t → 2 ≤ t.length) {xs ys : List K}
    (h : s.Rel xs ys) : ∀ n < ys.length, seq ys n = s.op (seq xs) n := by
  intro n hn
  cases s with
  | firUp vec t =>
    have ht := ht _ _ (Or.inl rfl)
    have hl := h.1
    obtain ⟨h1, h2⟩ := h.2 (n / 2) (by omega)
    simp only [Stage.op, firUpOp]
    split
    · rename_i h0
      rw [show n = 2 * (n / 2) by omega, h1.eq_sum]
      refine sum_congr rfl fun i _ => ?_
      rw [padded_eq_zext (by omega)]
      congr 2
      push_cast
      omega
    · rename_i h0
      rw [show n = 2 * (n / 2) + 1 by omega, h2, padded_eq_zext (by omega)]
      congr 1
      push_cast
      omega
  | firDown vec t =>
    have ht := ht _ _ (Or.inr rfl)
    obtain ⟨v, h1, h2⟩ := h.2 n hn
    simp only [Stage.op, firDownOp]
    rw [h2, h1.eq_sum]
    congr 1
    · refine sum_congr rfl fun i _ => ?_
      rw [padded_eq_zext (by omega), zext_evens]
      congr 2
      push_cast
      ring
    · rw [padded_eq_zext (by omega), zext_odds]
      congr 2
      have : ((t.length / 2 - 1 : ℕ) : ℤ) = (t.length / 2 : ℕ) - 1 := by omega
      push_cast [this]
      ring
  | iirUp sse c =>
    have hl := h.1
    obtain ⟨h1, h2⟩ := h.2 (n / 2) (by omega)
    simp only [Stage.op, iirUpOp]
    rcases Nat.mod_two_eq_zero_or_one n with h0 | h0 <;> rw [h0]
    · rw [← h1]; congr 1; omega
    · rw [iirBranch1_eq] at h2
      rw [← h2]; congr 1; omega
  | iirDown sse c =>
    simp only [Stage.op, iirDownOp]
    rw [h.2 n hn, iirBranch1_eq]
    split
    · ring
    · rfl

theorem zext_congr {x y : ℕ → K} {k : ℕ} (h : ∀ i < k, x i = y i) {z : ℤ} (hz : z < k) : zext x z = zext y z := by
  unfold zext
  split
  · exact h _ (by omega)
  · rfl

theorem Stage.op_causal {s : Stage K} (ht : ∀ v t, s = .firUp v t ∨ s = .firDown v t → 2 ≤ t.length) {x y : ℕ → K} {k : ℕ}
    (h : ∀ i < k, x i = y i) : ∀ n < s.outN k, s.op x n = s.op y n := by
  intro n hn
  cases s with
  | firUp vec t =>
    have ht := ht _ _ (Or.inl rfl)
    simp only [Stage.op, firUpOp, Stage.outN] at hn ⊢
    split
    · refine sum_congr rfl fun i hi => ?_
      have := mem_range.1 hi
      rw [zext_congr h (by omega)]
    · rw [zext_congr h (by omega)]
  | firDown vec t =>
    have ht := ht _ _ (Or.inr rfl)
    simp only [Stage.op, firDownOp, Stage.outN] at hn ⊢
    congr 1
    · refine sum_congr rfl fun i hi => ?_
      have := mem_range.1 hi
      rw [zext_congr h (by omega)]
    · rw [zext_congr h (by omega)]
  | iirUp sse c =>
    simp only [Stage.op, iirUpOp, Stage.outN] at hn ⊢
    exact branch_congr_lt h _ (by omega)
  | iirDown sse c =>
    simp only [Stage.op, iirDownOp, Stage.outN] at hn ⊢
    congr 2
    · exact branch_congr_lt (k := k / 2) (fun i hi => h _ (by omega)) _ (by omega)
    · exact branch_congr_lt (k := k / 2) (fun i hi => h _ (by omega)) _ (by omega)

theorem cascadeOp_causal {ss : List (Stage K)} (ht : ∀ s ∈ ss, ∀ v t, s = .firUp v t ∨ s = .firDown v t → 2 ≤ t.length)
    {x y : ℕ → K} {k : ℕ} (h : ∀ i < k, x i = y i) : ∀ n < cascadeN ss k, cascadeOp ss x n = cascadeOp ss y n := by
  induction ss generalizing x y k with
  | nil => exact h
  | cons s ss ih => exact ih (fun s hs => ht s (by simp [hs])) (Stage.op_causal (ht s (by simp)) h)

theorem CascadeRel.eq_op {ss : List (Stage K)} (ht : ∀ s ∈ ss, ∀ v t, s = .firUp v t ∨ s = .firDown v t → 2 ≤ t.length)
    {xs zs : List K} (h : CascadeRel ss xs zs) : ∀ n < zs.length, seq zs n = cascadeOp ss (seq xs) n := by
  induction ss generalizing xs with
  | nil => cases h; exact fun _ _ => rfl
  | cons s ss ih =>
    obtain ⟨ys, h1, h2⟩ := h
    intro n hn
    rw [ih (fun s hs => ht s (by simp [hs])) h2 n hn]
    refine cascadeOp_causal (fun s hs => ht s (by simp [hs])) (h1.eq_op (ht s (by simp))) n ?_
    rwa [← h2.length]

theorem Config.stage_op {cfg cfg' : Config} (hm : cfg'.mode = cfg.mode) (hp : cfg'.precision = cfg.precision)
    (hf : cfg'.filter = cfg.filter) (k : ℕ) : (cfg'.stage (F := K) k).map Stage.op = (cfg.stage k).map Stage.op := by
  unfold Config.stage
  rw [hm, hp, hf]
  cases cfg.filter <;> cases cfg.mode <;> simp [Stage.op, Function.comp_def]

theorem cascadeOp_map (ss : List (Stage K)) (x : ℕ → K) : cascadeOp ss x = (ss.map Stage.op).foldl (fun x f => f x) x := by
  induction ss generalizing x with
  | nil => rfl
  | cons s ss ih => exact ih _

/-- What a resampler computes in exact arithmetic. -/
def Config.op (cfg : Config) (x : ℕ → K) : ℕ → K := cascadeOp cfg.stages x

theorem Config.op_congr {cfg cfg' : Config} (hm : cfg'.mode = cfg.mode) (hr : cfg'.ratio = cfg.ratio)
    (hp : cfg'.precision = cfg.precision) (hf : cfg'.filter = cfg.filter) (x : ℕ → K) : cfg'.op x = cfg.op x := by
  unfold Config.op
  rw [cascadeOp_map, cascadeOp_map]
  congr 1
  unfold Config.stages
  rw [hm, hr]
  have h := Config.stage_op (K := K) hm hp hf
  cases cfg.mode <;> simp only [List.map_flatten, List.map_map] <;> congr 2 <;> funext k <;> exact h k

theorem Config.session_op {cfg : Config} (hv : cfg.Valid) {ops : List (Op K)} (hc : ∀ op ∈ ops, cfg.OpOk op)
    {r : Resampler K} {os : List (Option (Buf K))} (h : cfg.session ops = .ok (r, os)) :
    (cfg.produced ops os).length = cfg.outLen (fed ops).length ∧
    ∀ n < (cfg.produced ops os).length, seq (cfg.produced ops os) n = cfg.op (seq (fed ops)) n := by
  have := Config.session_rel' hv hc h
  exact ⟨Config.produced_length hv this, this.eq_op fun s hs v t e => (Config.stages_taps s hs v t e).1⟩

end Panda
