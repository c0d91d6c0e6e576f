import Verif.Proofs.Exact

/-!
# Linearity, time invariance and finite memory of the operators
-/

set_option linter.unusedSectionVars false

namespace Panda

open Finset

variable {K : Type} [CommRing K]

/-! ## Linearity -/

theorem zext_lin (a b : K) (x y : ℕ → K) (z : ℤ) : zext (fun n => a * x n + b * y n) z = a * zext x z + b * zext y z := by
  unfold zext
  split <;> ring

theorem allpass_lin (c a b : K) (x y : ℕ → K) (n : ℕ) :
    allpass c (fun n => a * x n + b * y n) n = a * allpass c x n + b * allpass c y n := by
  induction n with
  | zero => simp only [allpass]; ring
  | succ n ih => simp only [allpass]; rw [ih]; ring

theorem branch_lin (c : ℕ → K) (p : ℕ) (a b : K) (x y : ℕ → K) (j : ℕ) :
    branch c p (fun n => a * x n + b * y n) j = fun n => a * branch c p x j n + b * branch c p y j n := by
  induction j with
  | zero => rfl
  | succ j ih =>
    funext n
    simp only [branch]
    rw [ih]
    exact allpass_lin _ _ _ _ _ _

theorem sum_lin (t : ℕ → K) (a b : K) (f g : ℕ → K) (n : ℕ) :
    ∑ i ∈ range n, t i * (a * f i + b * g i) = a * ∑ i ∈ range n, t i * f i + b * ∑ i ∈ range n, t i * g i := by
  rw [mul_sum, mul_sum, ← sum_add_distrib]
  exact sum_congr rfl fun i _ => by ring

variable [Sample K]

theorem Stage.op_lin (s : Stage K) (a b : K) (x y : ℕ → K) :
    s.op (fun n => a * x n + b * y n) = fun n => a * s.op x n + b * s.op y n := by
  funext n
  cases s with
  | firUp v t =>
    simp only [Stage.op, firUpOp, zext_lin]
    split
    · exact sum_lin _ _ _ _ _ _
    · rfl
  | firDown v t =>
    simp only [Stage.op, firDownOp, zext_lin]
    rw [sum_lin]
    ring
  | iirUp v t =>
    simp only [Stage.op, iirUpOp, branchOut, branch_lin]
  | iirDown v t =>
    have he : evens (fun n => a * x n + b * y n) = fun n => a * evens x n + b * evens y n := rfl
    have ho : odds (fun n => a * x n + b * y n) = fun n => a * odds x n + b * odds y n := rfl
    simp only [Stage.op, iirDownOp, branchOut, he, ho, branch_lin]
    ring

theorem cascadeOp_lin (ss : List (Stage K)) (a b : K) (x y : ℕ → K) :
    cascadeOp ss (fun n => a * x n + b * y n) = fun n => a * cascadeOp ss x n + b * cascadeOp ss y n := by
  induction ss generalizing x y with
  | nil => rfl
  | cons s ss ih => rw [cascadeOp, Stage.op_lin, ih]; rfl

/-! ## Time invariance -/

/-- The signal delayed by `k`. -/
def delayed (k : ℕ) (x : ℕ → K) (n : ℕ) : K := if n < k then 0 else x (n - k)

theorem zext_delayed (k : ℕ) (x : ℕ → K) (z : ℤ) : zext (delayed k x) z = zext x (z - k) := by
  unfold zext delayed
  by_cases h : 0 ≤ z - k
  · rw [if_pos (by omega), if_pos h, if_neg (by omega)]
    congr 1
    omega
  · rw [if_neg h]
    split
    · rw [if_pos (by omega)]
    · rfl

theorem zext_neg (x : ℕ → K) {z : ℤ} (h : z < 0) : zext x z = 0 := by
  unfold zext
  rw [if_neg (by omega)]

theorem allpass_delayed (c : K) (k : ℕ) (x : ℕ → K) : allpass c (delayed k x) = delayed k (allpass c x) := by
  funext n
  induction n with
  | zero =>
    unfold delayed
    by_cases h : 0 < k
    · simp [allpass, h]
    · rw [if_neg h]
      simp only [allpass, if_neg h]
      simp [allpass]
  | succ n ih =>
    simp only [allpass]
    rw [ih]
    unfold delayed
    by_cases h : n + 1 < k
    · rw [if_pos h, if_pos h, if_pos (by omega), if_pos (by omega)]; ring
    · by_cases h' : n < k
      · rw [if_neg h, if_neg h, if_pos h', if_pos h', show n + 1 - k = 0 by omega]
        simp [allpass]
      · rw [if_neg h, if_neg h, if_neg h', if_neg h', show n + 1 - k = (n - k) + 1 by omega]
        rfl

theorem branch_delayed (c : ℕ → K) (p k : ℕ) (x : ℕ → K) (j : ℕ) :
    branch c p (delayed k x) j = delayed k (branch c p x j) := by
  induction j with
  | zero => rfl
  | succ j ih => simp only [branch]; rw [ih, allpass_delayed]

/-- Does the stage go up? -/
def Stage.up : Stage K → Bool
  | .firUp _ _ => true
  | .iirUp _ _ => true
  | _ => false

theorem Stage.op_delayed_up {s : Stage K} (hu : s.up = true)
    (ht : ∀ v t, s = .firUp v t ∨ s = .firDown v t → 2 ≤ t.length) (k : ℕ) (x : ℕ → K) :
    s.op (delayed k x) = delayed (2 * k) (s.op x) := by
  funext n
  cases s with
  | firUp v t =>
    have ht := ht _ _ (Or.inl rfl)
    simp only [Stage.op, firUpOp, zext_delayed]
    unfold delayed
    by_cases h : n < 2 * k
    · rw [if_pos h]
      split
      · refine sum_eq_zero fun i hi => ?_
        have := mem_range.1 hi
        rw [zext_neg _ (by omega), mul_zero]
      · exact zext_neg _ (by omega)
    · rw [if_neg h]
      by_cases h0 : n % 2 = 0
      · rw [if_pos h0, firUpOp, if_pos (by omega)]
        refine sum_congr rfl fun i hi => ?_
        congr 2
        omega
      · rw [if_neg h0, firUpOp, if_neg (by omega)]
        congr 1
        omega
  | iirUp v t =>
    simp only [Stage.op, iirUpOp, branchOut, branch_delayed]
    unfold delayed
    by_cases h : n < 2 * k
    · rw [if_pos h, if_pos (by omega)]
    · rw [if_neg h, if_neg (by omega)]
      rw [iirUpOp, show (n - 2 * k) % 2 = n % 2 by omega]
      unfold branchOut
      congr 1
      omega
  | firDown v t => cases hu
  | iirDown v t => cases hu

theorem Stage.op_delayed_down {s : Stage K} (hu : s.up = false)
    (ht : ∀ v t, s = .firUp v t ∨ s = .firDown v t → 2 ≤ t.length) (k : ℕ) (x : ℕ → K) :
    s.op (delayed (2 * k) x) = delayed k (s.op x) := by
  funext n
  cases s with
  | firUp v t => cases hu
  | iirUp v t => cases hu
  | firDown v t =>
    have ht := ht _ _ (Or.inr rfl)
    simp only [Stage.op, firDownOp, zext_delayed]
    unfold delayed
    by_cases h : n < k
    · rw [if_pos h, zext_neg _ (by omega), mul_zero, add_zero]
      refine sum_eq_zero fun i hi => ?_
      have := mem_range.1 hi
      rw [zext_neg _ (by omega), mul_zero]
    · rw [if_neg h]
      congr 1
      · refine sum_congr rfl fun i hi => ?_
        congr 2
        push_cast [Nat.le_of_not_lt h]
        ring
      · congr 2
        push_cast [Nat.le_of_not_lt h]
        ring
  | iirDown v t =>
    have he : evens (delayed (2 * k) x) = delayed k (evens x) := by
      funext n
      unfold evens delayed
      by_cases h : n < k
      · rw [if_pos h, if_pos (by omega)]
      · rw [if_neg h, if_neg (by omega)]
        congr 1
        omega
    have ho : odds (delayed (2 * k) x) = delayed k (odds x) := by
      funext n
      unfold odds delayed
      by_cases h : n < k
      · rw [if_pos h, if_pos (by omega)]
      · rw [if_neg h, if_neg (by omega)]
        congr 1
        omega
    simp only [Stage.op, iirDownOp, branchOut, he, ho, branch_delayed]
    unfold delayed
    split
    · ring
    · rfl

theorem cascadeOp_delayed_up {ss : List (Stage K)} (hu : ∀ s ∈ ss, s.up = true)
    (ht : ∀ s ∈ ss, ∀ v t, s = .firUp v t ∨ s = .firDown v t → 2 ≤ t.length) (k : ℕ) (x : ℕ → K) :
    cascadeOp ss (delayed k x) = delayed (2 ^ ss.length * k) (cascadeOp ss x) := by
  induction ss generalizing k x with
  | nil => simp [cascadeOp]
  | cons s ss ih =>
    rw [cascadeOp, Stage.op_delayed_up (hu s (by simp)) (ht s (by simp)),
      ih (fun s hs => hu s (by simp [hs])) (fun s hs => ht s (by simp [hs]))]
    rw [List.length_cons, pow_succ, mul_assoc]
    rfl

theorem cascadeOp_delayed_down {ss : List (Stage K)} (hu : ∀ s ∈ ss, s.up = false)
    (ht : ∀ s ∈ ss, ∀ v t, s = .firUp v t ∨ s = .firDown v t → 2 ≤ t.length) (k : ℕ) (x : ℕ → K) :
    cascadeOp ss (delayed (2 ^ ss.length * k) x) = delayed k (cascadeOp ss x) := by
  induction ss generalizing k x with
  | nil => simp [cascadeOp]
  | cons s ss ih =>
    rw [cascadeOp, List.length_cons, pow_succ, show 2 ^ ss.length * 2 * k = 2 * (2 ^ ss.length * k) by ring,
      Stage.op_delayed_down (hu s (by simp)) (ht s (by simp)),
      ih (fun s hs => hu s (by simp [hs])) (fun s hs => ht s (by simp [hs]))]
    rfl

theorem Config.stages_up {cfg : Config} : ∀ s ∈ cfg.stages (F := K), s.up = (cfg.mode == .up) := by
  intro s hs
  cases (stages_shape hs).2 with
  | firUp t hf hm => rw [hm]; rfl
  | firDown t hf hm => rw [hm]; rfl
  | iirUp t hf hm => rw [hm]; rfl
  | iirDown t hf hm => rw [hm]; rfl

theorem Config.stages_length {cfg : Config} (hv : cfg.Valid) : 2 ^ (cfg.stages (F := K)).length = cfg.ratio := by
  obtain ⟨s2, s4, s8, h2, h4, h8, h⟩ := Config.stages_cases (F := K) hv
  rcases h with ⟨hr, h⟩ | ⟨hr, h⟩ | ⟨hr, hm, h⟩ | ⟨hr, hm, h⟩ | ⟨hr, hm, h⟩ | ⟨hr, hm, h⟩ <;> rw [h, hr] <;> rfl

theorem Config.op_lin (cfg : Config) (a b : K) (x y : ℕ → K) :
    cfg.op (fun n => a * x n + b * y n) = fun n => a * cfg.op x n + b * cfg.op y n := cascadeOp_lin _ _ _ _ _

theorem Config.op_delayed_up {cfg : Config} (hv : cfg.Valid) (hm : cfg.mode = .up) (k : ℕ) (x : ℕ → K) :
    cfg.op (delayed k x) = delayed (k * cfg.ratio) (cfg.op x) := by
  unfold Config.op
  rw [cascadeOp_delayed_up (fun s hs => by rw [Config.stages_up s hs, hm]; rfl)
    (fun s hs v t e => (Config.stages_taps s hs v t e).1), Config.stages_length hv, mul_comm]

theorem Config.op_delayed_down {cfg : Config} (hv : cfg.Valid) (hm : cfg.mode = .down) (k : ℕ) (x : ℕ → K) :
    cfg.op (delayed (k * cfg.ratio) x) = delayed k (cfg.op x) := by
  unfold Config.op
  rw [← cascadeOp_delayed_down (fun s hs => by rw [Config.stages_up s hs, hm]; rfl)
    (fun s hs v t e => (Config.stages_taps s hs v t e).1), Config.stages_length hv, mul_comm]

/-! ## Finite memory -/

/-- Number of taps of a FIR stage. -/
def Stage.ntaps : Stage K → ℕ
  | .firUp _ t => t.length
  | .firDown _ t => t.length
  | _ => 0

/-- Is it a FIR stage? -/
def Stage.isFir : Stage K → Bool
  | .firUp _ _ => true
  | .firDown _ _ => true
  | _ => false

/-- How many input samples back a cascade of FIR upsamplers looks. -/
def upMemory : List (Stage K) → ℕ
  | [] => 0
  | s :: ss => s.ntaps - 1 + (upMemory ss + 1) / 2

/-- How many input samples back a cascade of FIR downsamplers looks. -/
def downMemory : List (Stage K) → ℕ
  | [] => 0
  | s :: ss => 2 * (s.ntaps - 1) + 2 * downMemory ss

theorem zext_eq {x y : ℕ → K} {z : ℤ} (h : 0 ≤ z → x z.toNat = y z.toNat) : zext x z = zext y z := by
  unfold zext
  split
  · exact h (by assumption)
  · rfl

theorem Stage.op_local_up {s : Stage K} (hu : s.up = true) (hf : s.isFir = true)
    (ht : ∀ v t, s = .firUp v t ∨ s = .firDown v t → 2 ≤ t.length) {x y : ℕ → K} {n : ℕ}
    (h : ∀ i, n / 2 ≤ i + (s.ntaps - 1) → i ≤ n / 2 → x i = y i) : s.op x n = s.op y n := by
  cases s with
  | firUp v t =>
    have ht := ht _ _ (Or.inl rfl)
    simp only [Stage.op, firUpOp, Stage.ntaps] at h ⊢
    split
    · refine sum_congr rfl fun i hi => ?_
      have := mem_range.1 hi
      rw [zext_eq fun hz => h _ (by omega) (by omega)]
    · rw [zext_eq fun hz => h _ (by omega) (by omega)]
  | firDown v t => cases hu
  | iirUp v t => cases hf
  | iirDown v t => cases hu

theorem Stage.op_local_down {s : Stage K} (hu : s.up = false) (hf : s.isFir = true)
    (ht : ∀ v t, s = .firUp v t ∨ s = .firDown v t → 2 ≤ t.length) {x y : ℕ → K} {n : ℕ}
    (h : ∀ i, 2 * n ≤ i + 2 * (s.ntaps - 1) → i ≤ 2 * n + 1 → x i = y i) : s.op x n = s.op y n := by
  cases s with
  | firDown v t =>
    have ht := ht _ _ (Or.inr rfl)
    simp only [Stage.op, firDownOp, Stage.ntaps] at h ⊢
    congr 1
    · refine sum_congr rfl fun i hi => ?_
      have := mem_range.1 hi
      rw [zext_eq fun hz => h _ (by omega) (by omega)]
    · rw [zext_eq fun hz => h _ (by omega) (by omega)]
  | firUp v t => cases hu
  | iirUp v t => cases hf
  | iirDown v t => cases hf

theorem cascadeOp_local_up {ss : List (Stage K)} (hu : ∀ s ∈ ss, s.up = true) (hf : ∀ s ∈ ss, s.isFir = true)
    (ht : ∀ s ∈ ss, ∀ v t, s = .firUp v t ∨ s = .firDown v t → 2 ≤ t.length) {x y : ℕ → K} {n : ℕ}
    (h : ∀ i, n / 2 ^ ss.length ≤ i + upMemory ss → i ≤ n / 2 ^ ss.length → x i = y i) :
    cascadeOp ss x n = cascadeOp ss y n := by
  induction ss generalizing x y with
  | nil => exact h n (by simp [upMemory]) (by simp)
  | cons s ss ih =>
    refine ih (fun s hs => hu s (by simp [hs])) (fun s hs => hf s (by simp [hs])) (fun s hs => ht s (by simp [hs])) ?_
    intro j hj1 hj2
    refine Stage.op_local_up (hu s (by simp)) (hf s (by simp)) (ht s (by simp)) fun i hi1 hi2 => ?_
    rw [List.length_cons, pow_succ, ← Nat.div_div_eq_div_mul] at h
    refine h i ?_ ?_
    · simp only [upMemory]; omega
    · omega

theorem cascadeOp_local_down {ss : List (Stage K)} (hu : ∀ s ∈ ss, s.up = false) (hf : ∀ s ∈ ss, s.isFir = true)
    (ht : ∀ s ∈ ss, ∀ v t, s = .firUp v t ∨ s = .firDown v t → 2 ≤ t.length) {x y : ℕ → K} {n : ℕ}
    (h : ∀ i, 2 ^ ss.length * n ≤ i + downMemory ss → i < 2 ^ ss.length * (n + 1) → x i = y i) :
    cascadeOp ss x n = cascadeOp ss y n := by
  induction ss generalizing x y with
  | nil => exact h n (by simp [downMemory]) (by simp)
  | cons s ss ih =>
    refine ih (fun s hs => hu s (by simp [hs])) (fun s hs => hf s (by simp [hs])) (fun s hs => ht s (by simp [hs])) ?_
    intro j hj1 hj2
    refine Stage.op_local_down (hu s (by simp)) (hf s (by simp)) (ht s (by simp)) fun i hi1 hi2 => ?_
    rw [List.length_cons, pow_succ, show ∀ q, 2 ^ ss.length * 2 * q = 2 * (2 ^ ss.length * q) from fun q => by ring,
      show ∀ q, 2 ^ ss.length * 2 * q = 2 * (2 ^ ss.length * q) from fun q => by ring] at h
    refine h i ?_ ?_
    · simp only [downMemory]; omega
    · omega

/-- How many input samples back an output sample of a FIR resampler can depend on. -/
def Config.memory (cfg : Config) : ℕ :=
  let o := fun k => ((firTable k cfg.precision).getD []).length
  match cfg.mode, cfg.ratio with
  | .up, 2 => o 2 - 1
  | .up, 4 => o 2 - 1 + (o 4 - 1 + 1) / 2
  | .up, 8 => o 2 - 1 + (o 4 - 1 + (o 8 - 1 + 1) / 2 + 1) / 2
  | .down, 2 => 2 * (o 2 - 1)
  | .down, 4 => 2 * (o 4 - 1) + 4 * (o 2 - 1)
  | .down, 8 => 2 * (o 8 - 1) + 4 * (o 4 - 1) + 8 * (o 2 - 1)
  | _, _ => 0

theorem Config.stage_ntaps {cfg : Config} (hv : cfg.Valid) (hf : cfg.filter = .fir) {k : ℕ} (hk : k ∈ [2, 4, 8]) {s : Stage K}
    (hs : cfg.stage k = [s]) : s.ntaps = ((firTable k cfg.precision).getD []).length ∧ s.isFir = true := by
  obtain ⟨t, ht⟩ := Option.isSome_iff_exists.1 (tables_exist hk hv.precision).1
  unfold Config.stage at hs
  rw [ht, hf] at hs
  rw [ht]
  cases hm : cfg.mode <;> rw [hm] at hs <;> simp at hs <;> subst hs <;> simp [Stage.ntaps, Stage.isFir]

theorem Config.memory_eq {cfg : Config} (hv : cfg.Valid) (hf : cfg.filter = .fir) :
    (match cfg.mode with | .up => upMemory (cfg.stages (F := K)) | .down => downMemory (cfg.stages (F := K))) = cfg.memory ∧
    ∀ s ∈ cfg.stages (F := K), s.isFir = true := by
  obtain ⟨s2, s4, s8, h2, h4, h8, h⟩ := Config.stages_cases (F := K) hv
  have n2 := Config.stage_ntaps hv hf (by simp) h2
  have n4 := Config.stage_ntaps hv hf (by simp) h4
  have n8 := Config.stage_ntaps hv hf (by simp) h8
  unfold Config.memory
  rcases h with ⟨hr, h⟩ | ⟨hr, h⟩ | ⟨hr, hm, h⟩ | ⟨hr, hm, h⟩ | ⟨hr, hm, h⟩ | ⟨hr, hm, h⟩ <;> rw [h, hr]
  · cases cfg.mode <;> simp [upMemory, downMemory]
  · cases cfg.mode <;> simp [upMemory, downMemory, n2]
  all_goals
    simp only [hm, upMemory, downMemory, n2.1, n4.1, n8.1]
    refine ⟨by first | trivial | omega, ?_⟩
    simp [n2.2, n4.2, n8.2]

theorem Config.op_local_up {cfg : Config} (hv : cfg.Valid) (hf : cfg.filter = .fir) (hm : cfg.mode = .up) {x y : ℕ → K} {n : ℕ}
    (h : ∀ i, n / cfg.ratio ≤ i + cfg.memory → i ≤ n / cfg.ratio → x i = y i) : cfg.op x n = cfg.op y n := by
  obtain ⟨h1, h2⟩ := Config.memory_eq (K := K) hv hf
  simp only [hm] at h1
  refine cascadeOp_local_up (fun s hs => by rw [Config.stages_up s hs, hm]; rfl) h2
    (fun s hs v t e => (Config.stages_taps s hs v t e).1) ?_
  rw [Config.stages_length hv, h1]
  exact h

theorem Config.op_local_down {cfg : Config} (hv : cfg.Valid) (hf : cfg.filter = .fir) (hm : cfg.mode = .down) {x y : ℕ → K} {n : ℕ}
    (h : ∀ i, cfg.ratio * n ≤ i + cfg.memory → i < cfg.ratio * (n + 1) → x i = y i) : cfg.op x n = cfg.op y n := by
  obtain ⟨h1, h2⟩ := Config.memory_eq (K := K) hv hf
  simp only [hm] at h1
  refine cascadeOp_local_down (fun s hs => by rw [Config.stages_up s hs, hm]; rfl) h2
    (fun s hs v t e => (Config.stages_taps s hs v t e).1) ?_
  rw [Config.stages_length hv, h1]
  exact h

end Panda
