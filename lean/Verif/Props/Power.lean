import Verif.Proofs.FirEnergy
import Verif.Props.SaturateBounds

/-!
# No signal gains power (C103)

C55 is about sinusoids. Here: all signals, measured by their energy (the sum of the squares of the samples); for IIR filters see C23. Exact
arithmetic in `ℝ`; constants accurate to `2^-24`.
-/

set_option linter.unusedSectionVars false

namespace Panda

open Examples Finset

/-- By how much the power of a signal may increase, in `10^-9`, by ratio and precision. -/
def powerNano : ℕ → ℕ → ℕ
  | 2, 1 => 60
  | 2, 8 => 5789281
  | 2, 12 => 471852
  | 2, 16 => 34657
  | 2, 20 => 2085
  | 2, 24 => 257
  | 4, 1 => 120
  | 4, 8 => 9673467
  | 4, 12 => 599854
  | 4, 16 => 59436
  | 4, 20 => 3262
  | 4, 24 => 436
  | 8, 1 => 179
  | 8, 8 => 13428953
  | 8, 12 => 809019
  | 8, 16 => 78602
  | 8, 20 => 4059
  | 8, 24 => 595
  | _, _ => 0

private theorem power_numbers : ∀ m ∈ [Mode.up, Mode.down], ∀ r ∈ [1, 2, 4, 8], ∀ p ∈ [1, 8, 12, 16, 20, 24],
    powerGain m r p ≤ 1 + (powerNano r p : ℚ) / 10 ^ 9 := by decide +kernel

theorem powerGain_le (m : Mode) {r p : ℕ} (hr : r ∈ [1, 2, 4, 8]) (hp : p ∈ [1, 8, 12, 16, 20, 24]) :
    ((powerGain m r p : ℚ) : ℝ) ≤ 1 + (powerNano r p : ℝ) / 10 ^ 9 := by
  have h := power_numbers m (by cases m <;> simp) r hr p hp
  have h2 : ((powerGain m r p : ℚ) : ℝ) ≤ ((1 + (powerNano r p : ℚ) / 10 ^ 9 : ℚ) : ℝ) := by exact_mod_cast h
  refine h2.trans (le_of_eq ?_)
  push_cast
  rfl

private theorem energy_list' (l : List ℝ) : energy (seq l) l.length = (l.map fun x => x ^ 2).sum := sum_seq l fun x => x ^ 2

private theorem energy_nonneg (x : ℕ → ℝ) (N : ℕ) : 0 ≤ energy x N := sum_nonneg fun _ _ => sq_nonneg _

private theorem energy_mono (x : ℕ → ℝ) {a b : ℕ} (h : a ≤ b) : energy x a ≤ energy x b :=
  sum_le_sum_of_subset_of_nonneg (range_mono h) fun _ _ _ => sq_nonneg _

section real

variable [Sample ℝ] [Accurate ℝ]

/-- **C103** Whatever the signal: the energy of everything a FIR upsampler has produced is at most `ratio` times the energy of everything it was
given, and for a FIR downsampler at most the energy of the input divided by `ratio`, up to the factor of the table; at any time, for all ways
to pass the samples. -/
theorem C103_power (cfg : Config) (hv : cfg.Valid) (hf : cfg.filter = .fir)
    (ops : List (Op ℝ)) (hc : ∀ op ∈ ops, cfg.OpOk op) (r : Resampler ℝ) (os : List (Option (Buf ℝ)))
    (h : cfg.session ops = .ok (r, os)) :
    match cfg.mode with
    | .up => ((cfg.produced ops os).map fun y => y ^ 2).sum ≤
        (cfg.ratio : ℝ) * ((1 + (powerNano cfg.ratio cfg.precision : ℝ) / 10 ^ 9) * ((fed ops).map fun x => x ^ 2).sum)
    | .down => (cfg.ratio : ℝ) * ((cfg.produced ops os).map fun y => y ^ 2).sum ≤
        (1 + (powerNano cfg.ratio cfg.precision : ℝ) / 10 ^ 9) * ((fed ops).map fun x => x ^ 2).sum := by
  obtain ⟨hl, ho⟩ := Config.session_op hv hc h
  have he : energy (seq (cfg.produced ops os)) (cfg.produced ops os).length =
      energy (cfg.op (seq (fed ops))) (cfg.produced ops os).length :=
    sum_congr rfl fun n hn => by rw [ho n (mem_range.1 hn)]
  rw [energy_list'] at he
  cases hm : cfg.mode with
  | up =>
    simp only
    have := Config.op_energy hv hf (seq (fed ops)) (fed ops).length
    rw [hm] at this
    simp only at this
    rw [he, hl, ← energy_list']
    simp only [Config.outLen, hm]
    rw [mul_comm (fed ops).length]
    refine this.trans (mul_le_mul_of_nonneg_left (mul_le_mul_of_nonneg_right ?_ (energy_nonneg _ _)) (by positivity))
    exact powerGain_le .up hv.ratio hv.precision
  | down =>
    simp only
    have := Config.op_energy hv hf (seq (fed ops)) (cfg.produced ops os).length
    rw [hm] at this
    simp only at this
    rw [he, ← energy_list']
    have hle : cfg.ratio * (cfg.produced ops os).length ≤ (fed ops).length := by
      rw [hl]
      simp only [Config.outLen, hm]
      exact Nat.mul_div_le _ _
    refine this.trans (mul_le_mul (powerGain_le .down hv.ratio hv.precision) (energy_mono _ hle) (energy_nonneg _ _) (by positivity))

omit [Sample ℝ] [Accurate ℝ] in
/-- C103 for a real session: a square wave with the values 1 and -4, ratio 8. -/
example : ∃ q, (cfg .down 8 16 true .fir).session [Op.process (realCall (fun i => if i % 7 < 3 then 1 else -4) 704 88)] = .ok q ∧
    8 * (((cfg .down 8 16 true .fir).produced [Op.process (realCall (fun i => if i % 7 < 3 then 1 else -4) 704 88)] q.2).map fun y => y ^ 2).sum ≤
      (1 + 78602 / 10 ^ 9) * ((fed [Op.process (realCall (fun i => if i % 7 < 3 then 1 else -4) 704 88)]).map fun x => x ^ 2).sum := by
  have := accurate_real
  have hv : (cfg .down 8 16 true .fir).Valid := ⟨by decide, by decide, by decide⟩
  have hc := opOk_realCall (cfg .down 8 16 true .fir) (fun i => if i % 7 < 3 then 1 else -4) 704 88
    ⟨by decide, by decide, by decide, by decide, by decide, by decide, by decide⟩
  obtain ⟨r, os, h, -⟩ := C04_output_frame (cfg .down 8 16 true .fir) hv _ hc
  refine ⟨_, h, ?_⟩
  have := C103_power (cfg .down 8 16 true .fir) hv rfl _ hc r os h
  simpa [powerNano, cfg] using this

end real

namespace Tool

variable [Sample ℝ] [Accurate ℝ]

/-- **C103** Upsampling, a function with `|g x| ≤ L |x|`, downsampling: the energy of the output is at most `L ^ 2` times the energy of the input,
up to the factors of both resamplers. -/
theorem C103_saturation (cu cd : Config) (hs : SatOk cu cd) (hfu : cu.filter = .fir) (hfd : cd.filter = .fir) (g : ℝ → ℝ) (L : ℝ)
    (hg : ∀ x, |g x| ≤ L * |x|) (cs : List (SatCall ℝ)) (hc : ∀ c ∈ cs, c.Ok cu cd)
    (os : List (Buf ℝ)) (h : satSession cu cd g cs = .ok os) :
    ((satOut cs os).map fun y => y ^ 2).sum ≤ (1 + (powerNano cd.ratio cd.precision : ℝ) / 10 ^ 9) *
      (L ^ 2 * ((1 + (powerNano cu.ratio cu.precision : ℝ) / 10 ^ 9) * ((satIn cs).map fun x => x ^ 2).sum)) := by
  obtain ⟨hl, ho⟩ := C98_exact cu cd hs g cs hc os h
  have he : energy (seq (satOut cs os)) (satOut cs os).length =
      energy (cd.op (fun j => g (cu.op (seq (satIn cs)) j))) (satOut cs os).length :=
    sum_congr rfl fun n hn => by rw [ho n (mem_range.1 hn)]
  rw [energy_list'] at he
  have hu := Config.op_energy hs.ups hfu (seq (satIn cs)) (satIn cs).length
  rw [hs.up] at hu
  simp only at hu
  have hd := Config.op_energy hs.downs hfd (fun j => g (cu.op (seq (satIn cs)) j)) (satIn cs).length
  rw [hs.down] at hd
  simp only at hd
  have hr : (0 : ℝ) < cd.ratio := by
    have := hs.downs.ratio
    simp only [List.mem_cons, List.not_mem_nil, or_false] at this
    rcases this with h | h | h | h <;> rw [h] <;> norm_num
  have hgE : energy (fun j => g (cu.op (seq (satIn cs)) j)) (cd.ratio * (satIn cs).length) ≤
      L ^ 2 * energy (cu.op (seq (satIn cs))) (cd.ratio * (satIn cs).length) := by
    unfold energy
    rw [mul_sum]
    refine sum_le_sum fun n _ => ?_
    have := hg (cu.op (seq (satIn cs)) n)
    have h2 := mul_self_le_mul_self (abs_nonneg _) this
    rw [abs_mul_abs_self, mul_mul_mul_comm, abs_mul_abs_self] at h2
    nlinarith
  rw [hs.ratio] at hd hgE
  rw [he, hl, ← energy_list', hs.ratio]
  rw [hs.ratio] at hr
  refine le_of_mul_le_mul_left (a := (cu.ratio : ℝ)) (hd.trans ?_) hr
  have hE := energy_nonneg (seq (satIn cs)) (satIn cs).length
  have h1 := powerGain_le .up hs.ups.ratio hs.ups.precision
  have h2 := powerGain_le .down hs.downs.ratio hs.downs.precision
  rw [hs.ratio] at h2
  calc _ ≤ (1 + (powerNano cu.ratio cd.precision : ℝ) / 10 ^ 9) * energy (fun j => g (cu.op (seq (satIn cs)) j)) (cu.ratio * (satIn cs).length) :=
          mul_le_mul_of_nonneg_right h2 (energy_nonneg _ _)
    _ ≤ (1 + (powerNano cu.ratio cd.precision : ℝ) / 10 ^ 9) * (L ^ 2 * (cu.ratio * ((1 + (powerNano cu.ratio cu.precision : ℝ) / 10 ^ 9) *
          energy (seq (satIn cs)) (satIn cs).length))) := by
        refine mul_le_mul_of_nonneg_left (hgE.trans (mul_le_mul_of_nonneg_left (hu.trans ?_) (by positivity))) (by positivity)
        exact mul_le_mul_of_nonneg_left (mul_le_mul_of_nonneg_right h1 hE) (by positivity)
    _ = _ := by ring

/-- The example of the documentation: the root mean square of the output is at most 3.003 times that of the input. -/
example (bld : Build) (al : Alloc) (cs : List (SatCall ℝ)) (hc : ∀ c ∈ cs, c.Ok (docCfg bld al .up) (docCfg bld al .down))
    (os : List (Buf ℝ)) (h : satSession (docCfg bld al .up) (docCfg bld al .down) drive cs = .ok os) :
    ((satOut cs os).map fun y => y ^ 2).sum ≤ 3.003 ^ 2 * ((satIn cs).map fun x => x ^ 2).sum := by
  have := C103_saturation _ _ (doc_ok bld al) rfl rfl drive 3 (fun x => by
    have := drive_lipschitz x 0
    simpa [drive] using this) cs hc os h
  refine this.trans ?_
  have h0 : 0 ≤ ((satIn cs).map fun x => x ^ 2).sum := List.sum_nonneg fun y hy => by
    obtain ⟨x, -, rfl⟩ := List.mem_map.1 hy
    positivity
  simp only [docCfg, powerNano]
  push_cast
  nlinarith

end Tool

end Panda
