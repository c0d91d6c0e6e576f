import Verif.Props.Delay
import Verif.Proofs.DelayBand

/-!
# Delays of IIR resamplers at all frequencies (C76)

`w` is the angle per sample of the lower rate; `F` kHz are `F * 20 π / 441` at 44.1 kHz.
-/

namespace Panda

open Examples

section real

variable [Sample ℝ]

/-- **C76** The group delay of an IIR resampler rises with the frequency, from 0 to half of the (lower) sampling frequency. -/
theorem C76_rises {float : Bool} (hs : Constants float) (cfg : Config) (hv : cfg.Valid) (hf : cfg.filter = .iir)
    (w w' : ℝ) (h0 : 0 ≤ w) (h : w ≤ w') (h1 : w' ≤ Real.pi) :
    ∃ d d' : ℝ, HasDerivAt cfg.phase (-d) w ∧ HasDerivAt cfg.phase (-d') w' ∧ d ≤ d' := by
  obtain ⟨τ, t1, t2, -⟩ := Config.phase_band hs hv hf
  exact ⟨_, _, t1 w, t1 w', t2 w w' h0 h h1⟩

/-- The group delay in samples of the output. -/
private theorem out_delay (cfg : Config) (hv : cfg.Valid) (hf : cfg.filter = .iir) (r : Resampler ℝ) (hr : cfg.Reachable r) :
    ∃ q : ℚ, r.delay = .ok q ∧ (q : ℝ) = match cfg.mode with
      | .up => cfg.ratio * lowDelay cfg
      | .down => lowDelay cfg - (cfg.ratio - 1) / cfg.ratio :=
  ⟨_, hr.delay hv, Config.totalDelay_iir hv hf⟩

omit [Sample ℝ] in
private theorem angle_le {F : ℕ} (hF : F ∈ ([0, 1, 10, 20] : List ℕ)) : (F : ℝ) * (20 * Real.pi / 441) ≤ Real.pi := by
  have : F ≤ 20 := by
    simp only [List.mem_cons, List.not_mem_nil, or_false] at hF
    omega
  have h2 : (F : ℝ) ≤ 20 := by exact_mod_cast this
  have := Real.pi_pos
  nlinarith

/-- **C76** Upsampling: at every frequency up to `F` kHz (`F` = 1, 10, 20) the group delay in output samples minus `delay()` lies between
its value at 0 and its value at `F` kHz, which are `ratio * delayDev 0` and `ratio * delayDev F`. -/
theorem C76_band_up {float : Bool} (hs : Constants float) (cfg : Config) (hv : cfg.Valid) (hf : cfg.filter = .iir)
    (hm : cfg.mode = .up) (r : Resampler ℝ) (hr : cfg.Reachable r) (F : ℕ) (hF : F ∈ ([0, 1, 10, 20] : List ℕ))
    (w : ℝ) (h0 : 0 ≤ w) (h1 : w ≤ F * (20 * Real.pi / 441)) :
    ∃ d : ℝ, HasDerivAt cfg.phase (-d) w ∧ ∃ q : ℚ, r.delay = .ok q ∧
      cfg.ratio * (delayDev 0 cfg.ratio cfg.precision - 1 / 10 ^ 6) ≤ cfg.ratio * d - q ∧
      cfg.ratio * d - q ≤ cfg.ratio * (delayDev F cfg.ratio cfg.precision + 1 / 10 ^ 6) := by
  obtain ⟨τ, t1, t2, t3⟩ := Config.phase_band hs hv hf
  obtain ⟨q, q1, q2⟩ := out_delay cfg hv hf r hr
  rw [hm] at q2
  simp only at q2
  have hle := h1.trans (angle_le hF)
  have a := t2 0 w le_rfl h0 hle
  have b := t2 w _ h0 h1 (angle_le hF)
  have c := (abs_le.1 (t3 0 (by simp))).1
  have e := (abs_le.1 (t3 F hF)).2
  simp only [Nat.cast_zero, zero_mul] at c
  have hr0 : (0 : ℝ) ≤ cfg.ratio := by positivity
  refine ⟨_, t1 w, q, q1, ?_, ?_⟩ <;> rw [q2, ← mul_sub] <;> refine mul_le_mul_of_nonneg_left ?_ hr0 <;> linarith

/-- **C76** The same for downsampling (compare `C60_delay_down_partial`). -/
theorem C76_band_down {float : Bool} (hs : Constants float) (cfg : Config) (hv : cfg.Valid) (hf : cfg.filter = .iir)
    (hm : cfg.mode = .down) (r : Resampler ℝ) (hr : cfg.Reachable r) (F : ℕ) (hF : F ∈ ([0, 1, 10, 20] : List ℕ))
    (w : ℝ) (h0 : 0 ≤ w) (h1 : w ≤ F * (20 * Real.pi / 441)) :
    ∃ d : ℝ, HasDerivAt (fun w => cfg.phase w + (cfg.ratio - 1) * (w / cfg.ratio)) (-d) w ∧ ∃ q : ℚ, r.delay = .ok q ∧
      (delayDev 0 cfg.ratio cfg.precision : ℝ) - 1 / 10 ^ 6 ≤ d - q ∧ d - q ≤ (delayDev F cfg.ratio cfg.precision : ℝ) + 1 / 10 ^ 6 := by
  obtain ⟨τ, t1, t2, t3⟩ := Config.phase_band hs hv hf
  obtain ⟨q, q1, q2⟩ := out_delay cfg hv hf r hr
  rw [hm] at q2
  simp only at q2
  have hle := h1.trans (angle_le hF)
  have a := t2 0 w le_rfl h0 hle
  have b := t2 w _ h0 h1 (angle_le hF)
  have c := (abs_le.1 (t3 0 (by simp))).1
  have e := (abs_le.1 (t3 F hF)).2
  simp only [Nat.cast_zero, zero_mul] at c
  have h3 := (t1 w).add (((hasDerivAt_id w).div_const (cfg.ratio : ℝ)).const_mul ((cfg.ratio : ℝ) - 1))
  refine ⟨τ w - (cfg.ratio - 1) * (1 / cfg.ratio), h3.congr_deriv (by ring), q, q1, ?_, ?_⟩ <;> rw [q2] <;>
    rw [show ∀ s : ℝ, τ w - (cfg.ratio - 1) * (1 / cfg.ratio) - (s - (cfg.ratio - 1) / cfg.ratio) = τ w - s by intro s; ring] <;> linarith

/-- **C76** The numbers are exact: at `F` kHz the group delay in samples of the lower rate differs from the one `delay()` stands for by
`delayDev F`, up to a millionth of a sample. -/
theorem C76_exact {float : Bool} (hs : Constants float) (cfg : Config) (hv : cfg.Valid) (hf : cfg.filter = .iir)
    (r : Resampler ℝ) (hr : cfg.Reachable r) (F : ℕ) (hF : F ∈ ([0, 1, 10, 20] : List ℕ)) :
    ∃ d : ℝ, HasDerivAt cfg.phase (-d) (F * (20 * Real.pi / 441)) ∧ ∃ q : ℚ, r.delay = .ok q ∧
      |d - (match cfg.mode with
        | .up => (q : ℝ) / cfg.ratio
        | .down => q + (cfg.ratio - 1) / cfg.ratio) - delayDev F cfg.ratio cfg.precision| ≤ 1 / 10 ^ 6 := by
  obtain ⟨τ, t1, -, t3⟩ := Config.phase_band hs hv hf
  obtain ⟨q, q1, q2⟩ := out_delay cfg hv hf r hr
  refine ⟨_, t1 _, q, q1, ?_⟩
  have hr0 : (0 : ℝ) < cfg.ratio := by
    have := hv.ratio
    simp only [List.mem_cons, List.not_mem_nil, or_false] at this
    have : 0 < cfg.ratio := by omega
    exact_mod_cast this
  have e := t3 F hF
  cases hm : cfg.mode <;> rw [hm] at q2 <;> simp only at q2 ⊢ <;> rw [q2]
  · rw [mul_div_cancel_left₀ _ hr0.ne', sub_sub]
    exact e
  · rw [sub_add_cancel, sub_sub]
    exact e

end real

/-- In numbers: `delay()` of an upsampler by 2 for 144 dB is accurate to 0.0104 output samples from 0 to 1 kHz; at 20 kHz it is
off by more than 14 samples. -/
example (r : Resampler ℝ) (hr : (cfg .up 2 24 true .iir).Reachable r) (w : ℝ) (h0 : 0 ≤ w) (h1 : w ≤ 20 * Real.pi / 441) :
    (∃ d : ℝ, HasDerivAt (cfg .up 2 24 true .iir).phase (-d) w ∧ ∃ q : ℚ, r.delay = .ok q ∧ |2 * d - q| ≤ 104 / 10 ^ 4) ∧
    ∃ d : ℝ, HasDerivAt (cfg .up 2 24 true .iir).phase (-d) (20 * (20 * Real.pi / 441)) ∧ ∃ q : ℚ, r.delay = .ok q ∧ 14 < 2 * d - q := by
  have hv : (cfg .up 2 24 true .iir).Valid := ⟨by decide, by decide, by decide⟩
  have e0 : delayDev 0 2 24 = -10349 / 2 / 10 ^ 6 := by norm_num [delayDev, devMicro, iirKeys, List.filter]
  have e1 : delayDev 1 2 24 = 0 := by norm_num [delayDev, devMicro, iirKeys, List.filter]
  have e20 : delayDev 20 2 24 = 14136394 / 2 / 10 ^ 6 := by norm_num [delayDev, devMicro, iirKeys, List.filter]
  constructor
  · obtain ⟨d, h2, q, h3, h4, h5⟩ := C76_band_up constants_real _ hv rfl rfl r hr 1 (by simp) w h0 (by simpa using h1)
    refine ⟨d, h2, q, h3, ?_⟩
    simp only [cfg] at h4 h5
    rw [e0] at h4
    rw [e1] at h5
    rw [abs_le]
    push_cast at h4 h5
    constructor <;> linarith
  · obtain ⟨d, h2, q, h3, h4⟩ := C76_exact constants_real _ hv rfl r hr 20 (by simp)
    refine ⟨d, by exact_mod_cast h2, q, h3, ?_⟩
    simp only [cfg] at h4
    rw [e20] at h4
    have := (abs_le.1 h4).1
    push_cast at this
    linarith

end Panda
