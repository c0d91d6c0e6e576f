import Verif.Proofs.RoundTrip

/-!
# FIR resamplers at low frequencies

The ripple of the amplitude responses up to 2 kHz (for a lower rate of 44.1 kHz) is smaller than that of the whole pass band; and a resampler that
is fed a sinusoid from the beginning has settled after twice its delay.
-/

set_option linter.unusedSectionVars false

namespace Panda

open Finset

/-- Lower bounds for `65535 cos x`, `|x| ≤ 40 π / (441 k)`. -/
def lowCos : ℕ → ℕ
  | 2 => 64869
  | 4 => 65368
  | _ => 65493

theorem cos_ge_low {k : ℕ} (hk : k ∈ [2, 4, 8]) {w : ℝ} (h : |w| ≤ 40 * Real.pi / 441) : (lowCos k : ℝ) ≤ (65535 : ℕ) * Real.cos (w / k) := by
  have h1 := Real.one_sub_sq_div_two_le_cos (x := w / k)
  have h2 : w ^ 2 ≤ (285 / 1000) ^ 2 := by
    rw [← sq_abs w]
    have : |w| ≤ 285 / 1000 := h.trans (by linarith [Real.pi_lt_d6])
    exact pow_le_pow_left₀ (abs_nonneg _) this 2
  simp only [List.mem_cons, List.not_mem_nil, or_false] at hk
  rcases hk with rfl | rfl | rfl <;> rw [div_pow] at h1 <;> push_cast at h1 ⊢ <;> norm_num [lowCos] at h1 ⊢ <;> linarith

/-- Ripple up to 2 kHz, in `10^-10`. -/
def lowRipple : ℕ → ℕ → ℕ
  | 2, 16 => 242000
  | 4, 16 => 50710
  | 8, 16 => 190200
  | 2, 20 => 11970
  | 4, 20 => 7250
  | 8, 20 => 3480
  | 2, _ => 670
  | 4, _ => 740
  | _, _ => 370

theorem lowRipple_check : ∀ k ∈ [2, 4, 8], ∀ p ∈ [16, 20, 24],
    Bern.cosCheck (ampInts ((firTable k p).getD [])) (lowCos k) 65535 (10 ^ 25) (lowRipple k p * 10 ^ 15) 0 10 = true := by
  decide +kernel

/-- Bound for the error of the amplitude response up to 2 kHz, with taps accurate to `2^-24`. -/
def lowErr (k p : ℕ) : ℚ := (lowRipple k p : ℚ) / 10 ^ 10 + 2⁻¹ ^ 24 * absSum (tab k p)

section stages

variable [Sample ℝ] [Accurate ℝ]

theorem amp_low {k p : ℕ} (hk : k ∈ [2, 4, 8]) (hp : p ∈ [16, 20, 24]) {w : ℝ} (hw : |w| ≤ 40 * Real.pi / 441) :
    |firAmp (exactTaps (tab k p)) (w / k) - 1| ≤ (lowRipple k p : ℝ) / 10 ^ 10 := by
  have hp' : p ∈ [1, 8, 12, 16, 20, 24] := by
    simp only [List.mem_cons, List.not_mem_nil, or_false] at hp ⊢
    tauto
  obtain ⟨h1, h2, -⟩ := tab_facts k hk p hp'
  have := Bern.cosCheck_sound (lowRipple_check k hk p hp) (cos_ge_low hk hw)
  rw [show (firTable k p).getD [] = tab k p from rfl, cosSum_amp h1 h2 (table_exponents k hk p hp')] at this
  simp only [Nat.cast_mul, Nat.cast_pow, Nat.cast_ofNat] at this
  set x := w / k
  rw [show (10 : ℝ) ^ 25 * firAmp (exactTaps (tab k p)) x - 10 ^ 25 = 10 ^ 25 * (firAmp (exactTaps (tab k p)) x - 1) by ring,
    abs_mul, abs_of_pos (by positivity : (0 : ℝ) < 10 ^ 25)] at this
  rw [le_div_iff₀ (by positivity)]
  have e : (10 : ℝ) ^ 25 = 10 ^ 10 * 10 ^ 15 := by norm_num
  rw [e] at this
  have hp15 : (0 : ℝ) < 10 ^ 15 := by positivity
  nlinarith

theorem upAmp_low {k p : ℕ} (hk : k ∈ [2, 4, 8]) (hp : p ∈ [16, 20, 24]) {w : ℝ} (hw : |w| ≤ 40 * Real.pi / 441) :
    |upAmp k p (w / k) - 1| ≤ ((lowErr k p : ℚ) : ℝ) := by
  have h := firAmp_stored (tab k p) 2 (w / k)
  have h2 := amp_low hk hp hw
  have e : ((lowErr k p : ℚ) : ℝ) = (lowRipple k p : ℝ) / 10 ^ 10 + 2⁻¹ ^ 24 * ((absSum (tab k p) : ℚ) : ℝ) := by
    unfold lowErr
    push_cast
    ring
  rw [e]
  rw [show ((2 : ℚ) : ℝ) = 2 by norm_num, abs_two, div_self (by norm_num : (2 : ℝ) ≠ 0), one_mul, one_mul] at h
  unfold upAmp
  rw [abs_le] at h h2 ⊢
  constructor <;> linarith [h.1, h.2, h2.1, h2.2]

theorem downAmp_low {k p : ℕ} (hk : k ∈ [2, 4, 8]) (hp : p ∈ [16, 20, 24]) {w : ℝ} (hw : |w| ≤ 40 * Real.pi / 441) :
    |downAmp k p (w / k) - 1| ≤ ((lowErr k p : ℚ) : ℝ) / 2 := by
  have h := firAmp_stored (tab k p) 1 (w / k)
  have h2 := amp_low hk hp hw
  have e : ((lowErr k p : ℚ) : ℝ) = (lowRipple k p : ℝ) / 10 ^ 10 + 2⁻¹ ^ 24 * ((absSum (tab k p) : ℚ) : ℝ) := by
    unfold lowErr
    push_cast
    ring
  rw [e]
  unfold downAmp
  rw [show ((1 : ℚ) : ℝ) = 1 by norm_num, abs_one] at h
  rw [Accurate.half (K := ℝ)]
  rw [abs_le] at h h2 ⊢
  constructor <;> linarith [h.1, h.2, h2.1, h2.2]

/-- Error of the amplitude, upsampling or downsampling. -/
def lowSine (r p : ℕ) : ℚ := ((stageKeys .up r).map fun k => 1 + lowErr k p / 2).prod - 1

/-- Sum of the amplitudes of the images. -/
def lowImg (r p : ℕ) : ℚ := (imgFold ((stageKeys .up r).map fun k => (ampErr k p, lowErr k p)) 1 0).2

theorem lowSine_cast (r p : ℕ) :
    ((lowSine r p : ℚ) : ℝ) = ((stageKeys .up r).map fun k => 1 + ((lowErr k p : ℚ) : ℝ) / 2).prod - 1 := by
  unfold lowSine
  rw [Rat.cast_sub, Rat.cast_one, Rat.cast_list_prod, List.map_map]
  congr 2
  refine List.map_congr_left fun k _ => ?_
  simp

theorem lowImg_cast (r p : ℕ) :
    (imgFold ((stageKeys .up r).map fun k => (((ampErr k p : ℚ) : ℝ), ((lowErr k p : ℚ) : ℝ))) 1 0).2 = ((lowImg r p : ℚ) : ℝ) := by
  unfold lowImg
  have := imgFold_cast ((stageKeys .up r).map fun k => (ampErr k p, lowErr k p)) 1 0
  rw [List.map_map] at this
  push_cast at this
  exact congrArg Prod.snd this

theorem upResp_low {r p : ℕ} (hp : p ∈ [16, 20, 24]) {w : ℝ} (hw : |w| ≤ 40 * Real.pi / 441) :
    |upResp r p w - 1| ≤ ((lowSine r p : ℚ) : ℝ) := by
  rw [lowSine_cast]
  exact upResp_near fun k hk => upAmp_low (stageKeys_mem hk) hp hw

theorem downResp_low {r p : ℕ} (hp : p ∈ [16, 20, 24]) {w : ℝ} (hw : |w| ≤ 40 * Real.pi / 441) :
    |downResp r p w - 1| ≤ ((lowSine r p : ℚ) : ℝ) := by
  rw [lowSine_cast, ← ((stageKeys_perm r).map _).prod_eq]
  exact downResp_near fun k hk => downAmp_low (stageKeys_mem hk) hp hw

theorem Config.stageDelay_fir {cfg : Config} (hv : cfg.Valid) (hf : cfg.filter = .fir) {k : ℕ} (hk : k ∈ [2, 4, 8]) :
    ∃ l : ℕ, (tab k cfg.precision).length = 2 * l + 2 ∧
      cfg.stageDelay k = match cfg.mode with | .up => 2 * (l : ℚ) + 1 | .down => (2 * (l : ℚ) + 1) / 2 := by
  obtain ⟨-, h1, h2⟩ := tab_facts k hk _ hv.precision
  refine ⟨(tab k cfg.precision).length / 2 - 1, by omega, ?_⟩
  unfold Config.stageDelay
  rw [hf]
  cases cfg.mode <;> simp only <;> rw [show (firTable k cfg.precision).getD [] = tab k cfg.precision from rfl]
  · have : (tab k cfg.precision).length - 1 = 2 * ((tab k cfg.precision).length / 2 - 1) + 1 := by omega
    rw [this]
    push_cast
    ring
  · have : (((tab k cfg.precision).length / 2 : ℕ) : ℚ) = (((tab k cfg.precision).length / 2 - 1 : ℕ) : ℚ) + 1 := by
      rw [← Nat.cast_succ]
      congr 1
      omega
    rw [this]
    ring

/-- First settled sample and delay, from the lengths of the tables. -/
theorem Config.settle_cases {cfg : Config} (hv : cfg.Valid) (hf : cfg.filter = .fir) : ∃ l2 l4 l8 : ℕ,
    ((tab 2 cfg.precision).length = 2 * l2 + 2 ∧ (tab 4 cfg.precision).length = 2 * l4 + 2 ∧ (tab 8 cfg.precision).length = 2 * l8 + 2) ∧
    ((cfg.ratio = 1 ∧ cfg.totalDelay = 0 ∧ ∀ N, cascadeSettle (cfg.stages (F := ℝ)) N = N) ∨
     (cfg.ratio = 2 ∧ cfg.mode = .up ∧ cfg.totalDelay = 2 * l2 + 1 ∧ ∀ N, cascadeSettle (cfg.stages (F := ℝ)) N = 2 * (N + (2 * l2 + 1))) ∨
     (cfg.ratio = 2 ∧ cfg.mode = .down ∧ cfg.totalDelay = (2 * l2 + 1) / 2 ∧
       ∀ N, cascadeSettle (cfg.stages (F := ℝ)) N = (N + 1) / 2 + (2 * l2 + 1)) ∨
     (cfg.ratio = 4 ∧ cfg.mode = .up ∧ cfg.totalDelay = 2 * (2 * l2 + 1) + (2 * l4 + 1) ∧
       ∀ N, cascadeSettle (cfg.stages (F := ℝ)) N = 2 * (2 * (N + (2 * l2 + 1)) + (2 * l4 + 1))) ∨
     (cfg.ratio = 4 ∧ cfg.mode = .down ∧ cfg.totalDelay = (2 * l2 + 1) / 2 + (2 * l4 + 1) / 2 / 2 ∧
       ∀ N, cascadeSettle (cfg.stages (F := ℝ)) N = ((N + 1) / 2 + (2 * l4 + 1) + 1) / 2 + (2 * l2 + 1)) ∨
     (cfg.ratio = 8 ∧ cfg.mode = .up ∧ cfg.totalDelay = 4 * (2 * l2 + 1) + 2 * (2 * l4 + 1) + (2 * l8 + 1) ∧
       ∀ N, cascadeSettle (cfg.stages (F := ℝ)) N = 2 * (2 * (2 * (N + (2 * l2 + 1)) + (2 * l4 + 1)) + (2 * l8 + 1))) ∨
     (cfg.ratio = 8 ∧ cfg.mode = .down ∧ cfg.totalDelay = (2 * l2 + 1) / 2 + (2 * l4 + 1) / 2 / 2 + (2 * l8 + 1) / 2 / 4 ∧
       ∀ N, cascadeSettle (cfg.stages (F := ℝ)) N = (((N + 1) / 2 + (2 * l8 + 1) + 1) / 2 + (2 * l4 + 1) + 1) / 2 + (2 * l2 + 1))) := by
  obtain ⟨s2, s4, s8, h2, h4, h8, h⟩ := Config.stages_cases (F := ℝ) hv
  have n2 := (Config.stage_ntaps hv hf (by simp) h2).1
  have n4 := (Config.stage_ntaps hv hf (by simp) h4).1
  have n8 := (Config.stage_ntaps hv hf (by simp) h8).1
  obtain ⟨l2, a2, d2⟩ := Config.stageDelay_fir hv hf (k := 2) (by simp)
  obtain ⟨l4, a4, d4⟩ := Config.stageDelay_fir hv hf (k := 4) (by simp)
  obtain ⟨l8, a8, d8⟩ := Config.stageDelay_fir hv hf (k := 8) (by simp)
  refine ⟨l2, l4, l8, ⟨a2, a4, a8⟩, ?_⟩
  unfold tab at a2 a4 a8
  rw [a2] at n2
  rw [a4] at n4
  rw [a8] at n8
  have hup := Config.stages_up (cfg := cfg) (K := ℝ)
  unfold Config.totalDelay
  rcases h with ⟨hr, h⟩ | ⟨hr, h⟩ | ⟨hr, hm, h⟩ | ⟨hr, hm, h⟩ | ⟨hr, hm, h⟩ | ⟨hr, hm, h⟩ <;> rw [h] at hup <;> rw [h, d2, d4, d8, hr]
  · left
    cases cfg.mode <;> simp [cascadeSettle]
  · cases hm : cfg.mode <;> simp [hm] at hup <;> simp [cascadeSettle, Stage.settle, hup, n2]
  all_goals
    simp only [hm] at hup ⊢
    simp at hup
    simp [cascadeSettle, Stage.settle, hup, n2, n4, n8]

/-- A resampler that is fed from the beginning has settled after twice its delay. -/
theorem Config.settle_delay {cfg : Config} (hv : cfg.Valid) (hf : cfg.filter = .fir) {n : ℕ} (hn : 2 * cfg.totalDelay ≤ (n : ℚ)) :
    cascadeSettle (cfg.stages (F := ℝ)) 0 ≤ n := by
  obtain ⟨l2, l4, l8, -, h⟩ := Config.settle_cases hv hf
  rcases h with ⟨-, -, h⟩ | ⟨-, -, hd, h⟩ | ⟨-, -, hd, h⟩ | ⟨-, -, hd, h⟩ | ⟨-, -, hd, h⟩ | ⟨-, -, hd, h⟩ | ⟨-, -, hd, h⟩ <;> rw [h] <;>
    try rw [hd] at hn
  · omega
  · have : 2 * (2 * l2 + 1) ≤ n := by exact_mod_cast hn
    omega
  · have : (2 * (l2 : ℚ) + 1) ≤ n := by linarith
    have : 2 * l2 + 1 ≤ n := by exact_mod_cast this
    omega
  · have : 2 * (2 * (2 * l2 + 1) + (2 * l4 + 1)) ≤ n := by exact_mod_cast hn
    omega
  · have : 2 * (2 * (l2 : ℚ) + 1) + (2 * l4 + 1) ≤ 2 * n := by linarith
    have : 2 * (2 * l2 + 1) + (2 * l4 + 1) ≤ 2 * n := by exact_mod_cast this
    omega
  · have : 2 * (4 * (2 * l2 + 1) + 2 * (2 * l4 + 1) + (2 * l8 + 1)) ≤ n := by exact_mod_cast hn
    omega
  · have : 4 * (2 * (l2 : ℚ) + 1) + 2 * (2 * l4 + 1) + (2 * l8 + 1) ≤ 4 * n := by linarith
    have : 4 * (2 * l2 + 1) + 2 * (2 * l4 + 1) + (2 * l8 + 1) ≤ 4 * n := by exact_mod_cast this
    omega

/-- The same for oversampling. -/
theorem Config.settle_over {cu cd : Config} (hu : cu.Valid) (hd : cd.Valid) (hfu : cu.filter = .fir) (hfd : cd.filter = .fir)
    (hmu : cu.mode = .up) (hmd : cd.mode = .down) (hr : cd.ratio = cu.ratio) (hp : cd.precision = cu.precision) {n : ℕ}
    (hn : 2 * (cu.totalDelay / cu.ratio + cd.totalDelay) ≤ (n : ℚ)) :
    cascadeSettle (cd.stages (F := ℝ)) (cascadeSettle (cu.stages (F := ℝ)) 0) ≤ n := by
  obtain ⟨l2, l4, l8, ⟨a2, a4, a8⟩, h⟩ := Config.settle_cases hu hfu
  obtain ⟨l2', l4', l8', ⟨a2', a4', a8'⟩, h'⟩ := Config.settle_cases hd hfd
  rw [hp] at a2' a4' a8'
  obtain rfl : l2' = l2 := by omega
  obtain rfl : l4' = l4 := by omega
  obtain rfl : l8' = l8 := by omega
  rw [hmu] at h
  rw [hmd, hr] at h'
  simp only [reduceCtorEq, false_and, and_false, true_and, false_or, or_false] at h h'
  rcases h with ⟨r1, d1, h⟩ | ⟨r1, d1, h⟩ | ⟨r1, d1, h⟩ | ⟨r1, d1, h⟩ <;> simp only [r1] at h' <;> norm_num at h' <;>
    obtain ⟨d2, h'⟩ := h' <;> rw [h, h'] <;> rw [d1, d2, r1] at hn <;> push_cast at hn
  · omega
  · have : 2 * (2 * (l2' : ℚ) + 1) ≤ n := by linarith
    have : 2 * (2 * l2' + 1) ≤ n := by exact_mod_cast this
    omega
  · have : 2 * (2 * (2 * (l2' : ℚ) + 1)) + 2 * (2 * l4' + 1) ≤ 2 * n := by linarith
    have : 2 * (2 * (2 * l2' + 1)) + 2 * (2 * l4' + 1) ≤ 2 * n := by exact_mod_cast this
    omega
  · have : 2 * (4 * (2 * (l2' : ℚ) + 1)) + 4 * (2 * l4' + 1) + 2 * (2 * l8' + 1) ≤ 4 * n := by linarith
    have : 2 * (4 * (2 * l2' + 1)) + 4 * (2 * l4' + 1) + 2 * (2 * l8' + 1) ≤ 4 * n := by exact_mod_cast this
    omega

/-- Upsampling at low frequencies. -/
theorem Config.op_up_low {cfg : Config} (hv : cfg.Valid) (hf : cfg.filter = .fir) (hm : cfg.mode = .up) (hp : cfg.precision ∈ [16, 20, 24])
    {x : ℕ → ℝ} {C w φ ε : ℝ} {N : ℕ} (h : NearTones x [(C, w, φ)] ε N) (hw : |w| ≤ 40 * Real.pi / 441) {n : ℕ}
    (hn : cascadeSettle (cfg.stages (F := ℝ)) N ≤ n) :
    |cfg.op x n - C * Real.cos (w * ((n - (cfg.totalDelay : ℚ)) / cfg.ratio) + φ)| ≤
      ((lowSine cfg.ratio cfg.precision : ℚ) + (lowImg cfg.ratio cfg.precision : ℚ)) * |C| + (cfg.gain : ℚ) * ε := by
  obtain ⟨S, h1, -, h3⟩ := Config.op_up_split hv hf hm h (fun k => ((lowErr k cfg.precision : ℚ) : ℝ))
    (fun k hk => upAmp_low (stageKeys_mem hk) hp hw)
  rw [lowImg_cast] at h1
  have h4 := h3 n hn
  rw [tones_cons] at h4
  have h5 := abs_tones_le S n
  have h6 := upResp_low (r := cfg.ratio) hp hw
  set U := upResp cfg.ratio cfg.precision w
  set c := Real.cos (w * ((n - ((cfg.totalDelay : ℚ) : ℝ)) / cfg.ratio) + φ) with hc
  have e : Real.cos (w / cfg.ratio * n + (φ - w / cfg.ratio * ((cfg.totalDelay : ℚ) : ℝ))) = c := by
    rw [hc]
    congr 1
    ring
  simp only at h4
  rw [e] at h4
  have h7 : |C * U * c - C * c| ≤ ((lowSine cfg.ratio cfg.precision : ℚ) : ℝ) * |C| := by
    rw [show C * U * c - C * c = (U - 1) * C * c by ring, abs_mul, abs_mul]
    refine (mul_le_of_le_one_right (by positivity) (Real.abs_cos_le_one _)).trans ?_
    exact mul_le_mul_of_nonneg_right h6 (abs_nonneg _)
  rw [abs_le] at h4 h5 h7 ⊢
  constructor <;> linarith [h4.1, h4.2, h5.1, h5.2, h7.1, h7.2]

/-- Oversampling at low frequencies. -/
theorem Config.op_over_low {cu cd : Config} (hu : cu.Valid) (hd : cd.Valid) (hfu : cu.filter = .fir) (hfd : cd.filter = .fir)
    (hmu : cu.mode = .up) (hmd : cd.mode = .down) (hr : cd.ratio = cu.ratio) (hpu : cu.precision ∈ [16, 20, 24])
    (hpd : cd.precision ∈ [16, 20, 24]) {x : ℕ → ℝ} {C w φ ε : ℝ} {N : ℕ} (h : NearTones x [(C, w, φ)] ε N) (hw : |w| ≤ 40 * Real.pi / 441)
    {n : ℕ} (hn : cascadeSettle (cd.stages (F := ℝ)) (cascadeSettle (cu.stages (F := ℝ)) N) ≤ n) :
    |cd.op (cu.op x) n - C * Real.cos (w * (n - ((cu.totalDelay : ℚ) / cu.ratio + (cd.totalDelay : ℚ))) + φ)| ≤
      ((1 + (lowSine cu.ratio cu.precision : ℚ)) * (1 + (lowSine cd.ratio cd.precision : ℚ)) - 1 +
        (stopErr cd.ratio cd.precision : ℚ) * (lowImg cu.ratio cu.precision : ℚ)) * |C| + (cd.gain : ℚ) * ((cu.gain : ℚ) * ε) := by
  have hw' : |w| ≤ 40 * Real.pi / 49 := hw.trans (by linarith [Real.pi_pos])
  have h1 := Config.op_over hu hd hfu hfd hmu hmd hr h hw' (fun k => ((lowErr k cu.precision : ℚ) : ℝ))
    (fun k hk => upAmp_low (stageKeys_mem hk) hpu hw) hn
  rw [lowImg_cast] at h1
  have h0 := (abs_nonneg _).trans (upResp_low (r := cu.ratio) hpu hw)
  have h2 := near_one_mul h0 (upResp_low (r := cu.ratio) hpu hw) (downResp_low (r := cd.ratio) hpd hw)
  set B := upResp cu.ratio cu.precision w * downResp cd.ratio cd.precision w
  set c := Real.cos (w * (n - ((cu.totalDelay : ℚ) / cu.ratio + (cd.totalDelay : ℚ))) + φ)
  have h3 : |C * B * c - C * c| ≤
      ((1 + ((lowSine cu.ratio cu.precision : ℚ) : ℝ)) * (1 + ((lowSine cd.ratio cd.precision : ℚ) : ℝ)) - 1) * |C| := by
    rw [show C * B * c - C * c = (B - 1) * C * c by ring, abs_mul, abs_mul]
    refine (mul_le_of_le_one_right (by positivity) (Real.abs_cos_le_one _)).trans ?_
    exact mul_le_mul_of_nonneg_right h2 (abs_nonneg _)
  rw [abs_le] at h1 h3 ⊢
  constructor <;> linarith [h1.1, h1.2, h3.1, h3.2]

end stages

end Panda
