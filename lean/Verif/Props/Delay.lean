import Verif.Props.IirFreq
import Verif.Proofs.Query
import Verif.Proofs.DelayConst

/-!
# Delays of IIR resamplers (C49, C60)

1 kHz is `20 π / 441` radians per sample for a (lower) sample rate of 44.1 kHz.
-/

namespace Panda

open Examples

/-- **C49** The delay constants of the source are what `mk_group_delay` of the designer computes for the coefficients of the source,
rounded to 6 digits after the decimal point. -/
theorem C49_constants (bld : Build) (addr k p : ℕ) (hk : k ∈ [2, 4, 8]) (hp : p ∈ [8, 12, 16, 20, 24]) (cs : List Dec) (gd : Dec)
    (h : iirTable k p = some (cs, gd)) :
    ∃ d, Designer.mkGroupDelay bld k ⟨addr, cs.length, seq (cs.map fun d => (d.toRat : ℝ))⟩ cs.length = .ok d ∧
      |d - (gd.toRat : ℝ)| ≤ 1 / 2 * (1 / 10 ^ 6) := by
  have := Designer.mkGroupDelay_const bld addr hk hp
  unfold iirTab iirGd at this
  rw [h] at this
  exact this

example : iirTable 4 16 = some (iir4x16, gd4x16) := rfl

/-- What `delay()` of IIR resamplers is accurate to, in samples of the higher rate per stage. -/
def delayAccuracy (precision : ℕ) : ℚ :=
  if precision = 8 then 113 / 10 ^ 4 else if precision = 12 then 4 / 10 ^ 4 else if precision = 16 then 11 / 10 ^ 5
  else if precision = 20 then 25 / 10 ^ 7 else 6 / 10 ^ 7

private theorem delayTol_eq (p : ℕ) (hp : p ∈ [8, 12, 16, 20, 24]) : (delayTol p : ℝ) / 10 ^ 7 = (delayAccuracy p : ℝ) := by
  simp only [List.mem_cons, List.not_mem_nil, or_false] at hp
  rcases hp with rfl | rfl | rfl | rfl | rfl <;> norm_num [delayTol, delayAccuracy]

section real

variable [Sample ℝ]

/-- **C60** `delay()` of an IIR upsampler is its group delay at 1 kHz in output samples: of the angle `phase w` (at `w` radians per input
sample, that is `w / ratio` radians per output sample) the negative derivative. It is accurate to 0.0113 samples per stage for 48 dB,
and to 0.6 millionths of a sample for 144 dB. Missing: accuracy to the printed 6 digits. -/
theorem C60_delay_up_partial {float : Bool} (hs : Constants float) (cfg : Config) (hv : cfg.Valid) (hf : cfg.filter = .iir)
    (hm : cfg.mode = .up) (r : Resampler ℝ) (hr : cfg.Reachable r) :
    ∃ d D : ℝ, HasDerivAt cfg.phase d (20 * Real.pi / 441) ∧ (∃ q : ℚ, r.delay = .ok q ∧ D = q) ∧
      |D - -(cfg.ratio * d)| ≤ (cfg.ratio - 1) * delayAccuracy cfg.precision := by
  obtain ⟨d, h1, h2⟩ := Config.phase_delay hs hv hf
  refine ⟨_, _, h1, ⟨_, hr.delay hv, rfl⟩, ?_⟩
  rw [Config.totalDelay_iir hv hf, hm]
  rw [delayTol_eq _ (cfg.precision_iir hv hf)] at h2
  have hr0 : (0 : ℝ) < cfg.ratio := by
    have := hv.ratio
    simp only [List.mem_cons, List.not_mem_nil, or_false] at this
    have : 0 < cfg.ratio := by omega
    exact_mod_cast this
  simp only
  rw [mul_neg, neg_neg, ← mul_sub, abs_mul, abs_of_pos hr0, abs_sub_comm]
  calc _ ≤ (cfg.ratio : ℝ) * ((1 - 1 / cfg.ratio) * delayAccuracy cfg.precision) := mul_le_mul_of_nonneg_left h2 hr0.le
    _ = _ := by
      field_simp

/-- **C60** The same for downsampling: the output is turned by `phase w + w (ratio - 1) / ratio` at `w` radians per output sample
(see `Config.downTone`). -/
theorem C60_delay_down_partial {float : Bool} (hs : Constants float) (cfg : Config) (hv : cfg.Valid) (hf : cfg.filter = .iir)
    (hm : cfg.mode = .down) (r : Resampler ℝ) (hr : cfg.Reachable r) :
    ∃ d D : ℝ, HasDerivAt (fun w => cfg.phase w + (cfg.ratio - 1) * (w / cfg.ratio)) d (20 * Real.pi / 441) ∧
      (∃ q : ℚ, r.delay = .ok q ∧ D = q) ∧ |D - -d| ≤ (1 - 1 / cfg.ratio) * delayAccuracy cfg.precision := by
  obtain ⟨d, h1, h2⟩ := Config.phase_delay hs hv hf
  have h3 := h1.add (((hasDerivAt_id (20 * Real.pi / 441)).div_const (cfg.ratio : ℝ)).const_mul ((cfg.ratio : ℝ) - 1))
  refine ⟨_, _, h3, ⟨_, hr.delay hv, rfl⟩, ?_⟩
  rw [Config.totalDelay_iir hv hf, hm]
  rw [delayTol_eq _ (cfg.precision_iir hv hf)] at h2
  simp only
  rw [show ∀ s : ℝ, s - (cfg.ratio - 1) / cfg.ratio - -(-d + (cfg.ratio - 1) * (1 / cfg.ratio)) = -(d - s) by intro s; ring, abs_neg]
  exact h2

/-- **C60** Negation for the printed precision: for 48 dB and ratio 2 the group delay of the filter is at least 0.011 samples larger than
`delay()`, which is printed with 6 digits after the decimal point. Reason: the constants are the group delay of the first of the two
branches only. -/
theorem C60_false {float : Bool} (hs : Constants float) (cfg : Config) (hv : cfg.Valid) (hf : cfg.filter = .iir) (hm : cfg.mode = .up)
    (h2 : cfg.ratio = 2) (hp : cfg.precision = 8) (r : Resampler ℝ) (hr : cfg.Reachable r) :
    ∃ d D : ℝ, HasDerivAt cfg.phase d (20 * Real.pi / 441) ∧ (∃ q : ℚ, r.delay = .ok q ∧ D = q) ∧
      D + 11 / 1000 ≤ -(cfg.ratio * d) := by
  obtain ⟨τ, h1, h3⟩ := stage_delay_8 hs
  refine ⟨-(τ / 2), _, ?_, ⟨_, hr.delay hv, rfl⟩, ?_⟩
  · have e : cfg.phase = fun w => stagePhase 8 w 2 := by
      funext w
      unfold Config.phase
      rw [h2, hp]
      simp [iirKeys, List.filter]
    rw [e]
    exact h1
  · rw [Config.totalDelay_iir hv hf, hm, h2, hp]
    simp only [iirKeys, List.filter]
    norm_num
    linarith

end real

/-- The hypotheses are met: by every IIR upsampler and downsampler after construction. -/
example (m : Mode) (p : ℕ) (hp : p ∈ [8, 12, 16, 20, 24]) (ratio : ℕ) (hr : ratio ∈ [1, 2, 4, 8]) :
    Constants false ∧ (cfg m ratio p true .iir).Valid ∧ ∃ r : Resampler ℝ, (cfg m ratio p true .iir).Reachable r := by
  have hv : (cfg m ratio p true .iir).Valid := by
    simp only [List.mem_cons, List.not_mem_nil, or_false] at hp
    exact ⟨hr, by simp [cfg]; omega, fun _ => by simp [cfg]; omega⟩
  obtain ⟨q, hq, -⟩ := Config.session_sat (F := ℝ) hv (ops := []) (by simp)
  exact ⟨constants_real, hv, q.1, [], q.2, by simp, hq⟩


end Panda
