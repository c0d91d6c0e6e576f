import Verif.Props.Freq
import Verif.Proofs.IirConfig

/-!
# Frequency response of IIR resamplers (C50, C56, C57, C58, C59)

The sample type is `ℝ`; the constants of the source are used exactly or rounded to binary32 (`Constants`). Frequencies are in
radians per sample. The pass band ends at 18 kHz for a (lower) sample rate of 44.1 kHz, that is at
`2 π · 18000 / 44100 = 40 π / 49`. `Config.response` and `Config.phase` (Spec/IirResponse.lean) are the amplitude and phase
response computed from the coefficient tables.
-/

set_option linter.unusedSectionVars false

namespace Panda

open Examples

section real

variable [Sample ℝ]

/-- The input of a session, continued by the ideal signal. -/
private noncomputable def cont (xs : List ℝ) (L : List (ℝ × ℝ × ℝ)) (i : ℕ) : ℝ := if i < xs.length then seq xs i else tones L i

private theorem cont_near {xs : List ℝ} {L : List (ℝ × ℝ × ℝ)} {B : ℝ} (hB : 0 ≤ B) {N : ℕ}
    (h1 : ∀ i, i < xs.length → |seq xs i - tones L i| ≤ B) (h2 : ∀ i, N ≤ i → i < xs.length → seq xs i = tones L i) :
    Near (cont xs L) L 0 B N := by
  constructor
  · intro i
    unfold cont
    split
    · exact h1 i (by assumption)
    · simpa using hB
  · intro i hi
    unfold cont
    split
    · rw [h2 i hi (by assumption)]
      simp
    · simp

/-- **C56** IIR downsampling: let the input differ from a sum of sinusoids by at most `B`, and be equal to it from sample `N` on.
Then the output tends to the sum of the same sinusoids, each with its amplitude multiplied by the response of the filter and
its phase turned by the phase of the filter. The transient decays geometrically. -/
theorem C56_response_down {float : Bool} (hs : Constants float) (cfg : Config) (hv : cfg.Valid) (hf : cfg.filter = .iir)
    (hm : cfg.mode = .down) (ops : List (Op ℝ)) (hc : ∀ op ∈ ops, cfg.OpOk op) (r : Resampler ℝ) (os : List (Option (Buf ℝ)))
    (h : cfg.session ops = .ok (r, os)) (L : List (ℝ × ℝ × ℝ)) (B : ℝ) (hB : 0 ≤ B)
    (hall : ∀ i, i < (fed ops).length → |seq (fed ops) i - tones L i| ≤ B) (N : ℕ)
    (hN : ∀ i, N ≤ i → i < (fed ops).length → seq (fed ops) i = tones L i) (M : ℕ) :
    ∀ m < (cfg.produced ops os).length, N / cfg.ratio + 1 + 7 * M ≤ m →
      |seq (cfg.produced ops os) m - tones (L.map cfg.downTone) m| ≤ 2 * 10 ^ 6 * (19 / 20) ^ M * (amps L + B) := by
  intro m hn hset
  rw [Config.session_op_of hv hc h (x := cont (fed ops) L) (fun i hi => if_pos hi) m hn]
  have := (Config.op_down_iir hs hv hf hm (cont_near hB hall hN) M).late m hset
  rwa [mul_zero, add_zero] at this

/-- **C57** IIR upsampling, for frequencies in the pass band: the output tends to the same sinusoids at the higher sample rate,
each with its amplitude multiplied by the response of the filter and its phase turned by the phase of the filter, up to mirror
images that are attenuated by the dB number of the precision (and a factor for several stages). -/
theorem C57_response_up {float : Bool} (hs : Constants float) (cfg : Config) (hv : cfg.Valid) (hf : cfg.filter = .iir)
    (hm : cfg.mode = .up) (ops : List (Op ℝ)) (hc : ∀ op ∈ ops, cfg.OpOk op) (r : Resampler ℝ) (os : List (Option (Buf ℝ)))
    (h : cfg.session ops = .ok (r, os)) (L : List (ℝ × ℝ × ℝ)) (hL : ∀ a ∈ L, |a.2.1| ≤ 40 * Real.pi / 49) (B : ℝ) (hB : 0 ≤ B)
    (hall : ∀ i, i < (fed ops).length → |seq (fed ops) i - tones L i| ≤ B) (N : ℕ)
    (hN : ∀ i, N ≤ i → i < (fed ops).length → seq (fed ops) i = tones L i) (M : ℕ) :
    ∀ n < (cfg.produced ops os).length, cfg.ratio * (N + 7 * M) ≤ n →
      |seq (cfg.produced ops os) n - tones (L.map cfg.upTone) n| ≤
        imageFactor cfg.ratio * atten (stopDb float cfg.precision) * amps L + 2 * 10 ^ 6 * (19 / 20) ^ M * (amps L + B) := by
  intro n hn hset
  rw [Config.session_op_of hv hc h (x := cont (fed ops) L) (fun i hi => if_pos hi) n hn]
  obtain ⟨Q, hQ, h1⟩ := Config.op_up_iir hs hv hf hm (cont_near hB hall hN) hL M
  have h2 := h1.late n hset
  have h3 := (abs_tones_le Q n).trans hQ
  rw [tones_append] at h2
  rw [abs_le] at h2 h3 ⊢
  constructor <;> linarith [h2.1, h2.2, h3.1, h3.2]

/-- **C58** Amplitude response: no frequency is amplified; in the pass band the gain is at least `1 - 3 ε²` for the attenuation
`ε` of the stop band; in the stop band (frequencies that would alias into the pass band) it is at most `ε`. -/
theorem C58_amplitude {float : Bool} (hs : Constants float) (cfg : Config) (hv : cfg.Valid) (hf : cfg.filter = .iir) (w : ℝ) :
    |cfg.response w| ≤ 1 ∧
    (|w| ≤ 40 * Real.pi / 49 → 1 - 3 * atten (stopDb float cfg.precision) ^ 2 ≤ cfg.response w) ∧
    ∀ j : ℤ, ¬ (cfg.ratio : ℤ) ∣ j → |w - 2 * Real.pi * j| ≤ 40 * Real.pi / 49 →
      |cfg.response w| ≤ atten (stopDb float cfg.precision) :=
  ⟨cfg.response_le_one w, fun hw => (Config.response_pass hs hv hf hw).1, fun _ hj hw => Config.response_stop hs hv hf hj hw⟩

/-- **C50** Stop band of IIR downsampling: the input tends to a sum of sinusoids `P` and sinusoids `S` in the stop band. The
latter are attenuated by the dB number of the precision (143 dB instead of 144 dB if the coefficients are rounded to binary32). -/
theorem C50_stop_band {float : Bool} (hs : Constants float) (cfg : Config) (hv : cfg.Valid) (hf : cfg.filter = .iir)
    (hm : cfg.mode = .down) (ops : List (Op ℝ)) (hc : ∀ op ∈ ops, cfg.OpOk op) (r : Resampler ℝ) (os : List (Option (Buf ℝ)))
    (h : cfg.session ops = .ok (r, os)) (P S : List (ℝ × ℝ × ℝ))
    (hS : ∀ a ∈ S, ∃ j : ℤ, ¬ (cfg.ratio : ℤ) ∣ j ∧ |cfg.ratio * a.2.1 - 2 * Real.pi * j| ≤ 40 * Real.pi / 49)
    (B : ℝ) (hB : 0 ≤ B) (hall : ∀ i, i < (fed ops).length → |seq (fed ops) i - (tones P i + tones S i)| ≤ B) (N : ℕ)
    (hN : ∀ i, N ≤ i → i < (fed ops).length → seq (fed ops) i = tones P i + tones S i) (M : ℕ) :
    ∀ m < (cfg.produced ops os).length, N / cfg.ratio + 1 + 7 * M ≤ m →
      |seq (cfg.produced ops os) m - tones (P.map cfg.downTone) m| ≤
        atten (stopDb float cfg.precision) * amps S + 2 * 10 ^ 6 * (19 / 20) ^ M * (amps P + amps S + B) := by
  intro m hn hset
  have h1 := C56_response_down hs cfg hv hf hm ops hc r os h (P ++ S) B hB (fun i hi => by rw [tones_append]; exact hall i hi) N
    (fun i h1 h2 => by rw [tones_append]; exact hN i h1 h2) M m hn hset
  rw [List.map_append, tones_append, amps_append] at h1
  have h2 : |tones (S.map cfg.downTone) m| ≤ atten (stopDb float cfg.precision) * amps S := by
    refine (abs_tones_le _ _).trans (amps_map_le fun a ha => ?_)
    obtain ⟨j, hj, hw⟩ := hS a ha
    have := Config.response_stop hs hv hf hj hw
    simp only [Config.downTone, abs_mul]
    nlinarith [abs_nonneg a.1]
  rw [abs_le] at h1 h2 ⊢
  constructor <;> linarith [h1.1, h1.2, h2.1, h2.2]

/-- **C59** Oversampling with IIR filters: what an IIR upsampler produced is fed to an IIR downsampler for the same ratio. Sinusoids
in the pass band come out with both responses applied, up to the mirror images of the upsampler. -/
theorem C59_round_trip {float : Bool} (hs : Constants float) (cu cd : Config) (hu : cu.Valid) (hd : cd.Valid)
    (hfu : cu.filter = .iir) (hfd : cd.filter = .iir) (hmu : cu.mode = .up) (hmd : cd.mode = .down) (hr : cd.ratio = cu.ratio)
    (ops : List (Op ℝ)) (hc : ∀ op ∈ ops, cu.OpOk op) (r : Resampler ℝ) (os : List (Option (Buf ℝ)))
    (h : cu.session ops = .ok (r, os))
    (ops' : List (Op ℝ)) (hc' : ∀ op ∈ ops', cd.OpOk op) (r' : Resampler ℝ) (os' : List (Option (Buf ℝ)))
    (h' : cd.session ops' = .ok (r', os')) (hfed : fed ops' = cu.produced ops os)
    (L : List (ℝ × ℝ × ℝ)) (hL : ∀ a ∈ L, |a.2.1| ≤ 40 * Real.pi / 49) (B : ℝ) (hB : 0 ≤ B)
    (hall : ∀ i, i < (fed ops).length → |seq (fed ops) i - tones L i| ≤ B) (N : ℕ)
    (hN : ∀ i, N ≤ i → i < (fed ops).length → seq (fed ops) i = tones L i) (M : ℕ) :
    ∀ m < (cd.produced ops' os').length, N + 1 + 14 * M ≤ m →
      |seq (cd.produced ops' os') m - tones ((L.map cu.upTone).map cd.downTone) m| ≤
        imageFactor cu.ratio * atten (stopDb float cu.precision) * amps L + 10 ^ 13 * (19 / 20) ^ M * (amps L + B) := by
  intro m hn hset
  rw [Config.session_op_of hd hc' h' (x := cu.op (cont (fed ops) L)) (fun i hi => by
    rw [hfed] at hi ⊢
    exact (Config.session_op_of hu hc h (x := cont (fed ops) L) (fun i hi => if_pos hi) i hi).symm) m hn]
  exact Config.op_round_trip_iir hs hu hd hfu hfd hmu hmd hr (cont_near hB hall hN) hL M hset

/-- What `C59_round_trip` compares with: frequencies are the same as in the input, amplitudes are multiplied by both responses, phases
are turned by both phases (and by `1 - 1/ratio` samples). -/
theorem C59_tone (cu cd : Config) (hu : cu.Valid) (hr : cd.ratio = cu.ratio) (c w φ : ℝ) :
    cd.downTone (cu.upTone (c, w, φ)) =
      (c * (cu.response w * cd.response w), w, φ + (cu.phase w + cd.phase w + (1 - 1 / cu.ratio) * w)) := by
  have hr0 : (cu.ratio : ℝ) ≠ 0 := by
    have := hu.ratio
    simp only [List.mem_cons, List.not_mem_nil, or_false] at this
    have : cu.ratio ≠ 0 := by omega
    exact_mod_cast this
  have e : (cu.ratio : ℝ) * (w / cu.ratio) = w := by field_simp
  simp only [Config.downTone, Config.upTone, hr, e]
  refine Prod.ext (by simp only; ring) (Prod.ext rfl ?_)
  simp only
  field_simp
  ring

end real

/-! ## 144 dB are missed with coefficients of type `float` -/

/-- **C50** is false for PREC_144DB as the code is: the coefficients are converted to `float`, and then the filter for ratio 2 attenuates
some frequencies of the stop band by less than 144 dB, even if everything else is computed exactly. -/
theorem C50_false_144dB [Sample ℝ] (hs : Constants true) : ∃ (w φ : ℝ) (n : ℕ) (r : Resampler ℝ) (os : List (Option (Buf ℝ))),
    |2 * w - 2 * Real.pi * 1| ≤ 40 * Real.pi / 49 ∧
    (cfg .down 2 24 false .iir).session [Op.process (realCall (fun i => Real.cos (w * i + φ)) (2 * n) n)] = .ok (r, os) ∧
    ∃ m < n, atten 144 <
      |seq ((cfg .down 2 24 false .iir).produced [Op.process (realCall (fun i => Real.cos (w * i + φ)) (2 * n) n)] os) m| := by
  have hv : (cfg .down 2 24 false .iir).Valid := ⟨by decide, by decide, by decide⟩
  set v := Real.arccos (59 / 200) with hvd
  have hcos : Real.cos v = ((59 : ℕ) : ℝ) / (200 : ℕ) := by
    rw [hvd, Real.cos_arccos (by norm_num) (by norm_num)]
    norm_num
  have hv0 : 0 ≤ v := Real.arccos_nonneg _
  have hve : v ≤ 20 * Real.pi / 49 := by
    rw [hvd]
    have h1 : Real.cos (20 * Real.pi / 49) ≤ 59 / 200 := by
      have e : 20 * Real.pi / 49 = Real.pi / 2 - 9 * Real.pi / 98 := by ring
      rw [e, Real.cos_pi_div_two_sub]
      have := Real.sin_le (x := 9 * Real.pi / 98) (by positivity)
      linarith [Real.pi_lt_d2]
    calc Real.arccos (59 / 200) ≤ Real.arccos (Real.cos (20 * Real.pi / 49)) := Real.arccos_le_arccos h1
      _ = 20 * Real.pi / 49 := Real.arccos_cos (by positivity) (by linarith [Real.pi_pos])
  set w := v + Real.pi with hw
  set n := 7002 with hn
  -- the phase is chosen such that the sinusoid has its maximum at output sample 7001
  set c := cfg .down 2 24 false .iir with hcfg
  set φ := -((2 * w) * 7001 + (c.phase (2 * w) + w)) with hφ
  have hc := opOk_realCall c (fun i => Real.cos (w * i + φ)) (2 * n) n
    ⟨by decide, by decide, by decide, by decide, by decide, by decide, by decide⟩
  obtain ⟨f1, f2⟩ := fed_realCall (fun i => Real.cos (w * i + φ)) (2 * n) n
  obtain ⟨r, os, h, -⟩ := C04_output_frame c hv _ hc
  have hl := (Config.session_op hv hc h).1
  rw [f1] at hl
  have hl' : (c.produced [Op.process (realCall (fun i => Real.cos (w * i + φ)) (2 * n) n)] os).length = n := by
    rw [hl]
    decide
  refine ⟨w, φ, n, r, os, ?_, h, 7001, by decide, ?_⟩
  · rw [hw, show 2 * (v + Real.pi) - 2 * Real.pi * 1 = 2 * v by ring, abs_of_nonneg (by linarith)]
    linarith
  have key := C56_response_down hs c hv rfl rfl _ hc r os h [(1, w, φ)] 0 le_rfl (by
    intro i hi
    rw [f2 i (hi.trans_eq f1), tones_cons, tones_nil]
    simp) 0 (by
    intro i _ hi
    rw [f2 i (hi.trans_eq f1), tones_cons, tones_nil]
    simp) 1000 7001 (by rw [hl']; decide) (by decide)
  have e1 : tones ([(1, w, φ)].map c.downTone) (7001 : ℕ) = c.response (2 * w) := by
    simp only [List.map_cons, List.map_nil, tones_cons, tones_nil, Config.downTone]
    rw [show (c.ratio : ℝ) = 2 by norm_num [hcfg, cfg]]
    have : 2 * w * ((7001 : ℕ) : ℝ) + (φ + (c.phase (2 * w) + (2 - 1) * w)) = 0 := by
      rw [hφ]
      push_cast
      ring
    rw [this, Real.cos_zero]
    ring
  have e2 : |c.response (2 * w)| = |Real.sin (iirDiff (iirCoefs 2 24).length (seq (iirCoefs 2 24)) v)| := by
    have : c.response (2 * w) = Real.cos (iirDiff (iirCoefs 2 24).length (seq (iirCoefs 2 24)) (v + (1 : ℤ) * Real.pi)) := by
      have hk : iirKeys c.ratio = [2] := by decide
      unfold Config.response stageDiff
      rw [hk]
      simp only [List.map_cons, List.map_nil, List.prod_cons, List.prod_nil, mul_one]
      rw [show 2 * w / ((2 : ℕ) : ℝ) = v + (1 : ℤ) * Real.pi by rw [hw]; push_cast; ring]
      rfl
    rw [this, cos_iirDiff_shift, if_neg (by norm_num)]
  have e3 : ((67000 : ℕ) : ℝ) / (10 ^ 12 : ℕ) < |Real.sin (iirDiff (iirCoefs 2 24).length (seq (iirCoefs 2 24)) v)| := by
    rw [iirCoefs_float hs (by simp) (by simp), List.length_map]
    exact iirDiff_above iir_above32 (fun q hq => (iirPairs32_lt 2 (by simp) 24 (by simp) q hq).2) (by norm_num) (by norm_num) hcos
  have e4 : (2 : ℝ) * 10 ^ 6 * (19 / 20) ^ 1000 * (amps [(1, w, φ)] + 0) ≤ 1 / 10 ^ 12 := by
    have : ((19 : ℝ) / 20) ^ 1000 ≤ 1 / 10 ^ 20 := by
      have h1 : ((19 : ℝ) / 20) ^ 1000 = ((19 / 20) ^ 50) ^ 20 := by rw [← pow_mul]
      have h2 : ((19 : ℝ) / 20) ^ 50 ≤ 1 / 10 := by norm_num
      rw [h1]
      calc (((19 : ℝ) / 20) ^ 50) ^ 20 ≤ (1 / 10) ^ 20 := pow_le_pow_left₀ (by positivity) h2 20
        _ = _ := by norm_num
    simp only [amps, List.map_cons, List.map_nil, List.sum_cons, List.sum_nil, abs_one]
    generalize ((19 : ℝ) / 20) ^ 1000 = z at this
    linarith
  have e5 : atten 144 ≤ 66000 / 10 ^ 12 := by
    have h1 : (atten 144) ^ 5 = (10 ^ 36)⁻¹ := by
      unfold atten
      rw [← Real.rpow_natCast, ← Real.rpow_mul (by norm_num),
        show (-144 / 20 * ((5 : ℕ) : ℝ) : ℝ) = ((-36 : ℤ) : ℝ) by norm_num, Real.rpow_intCast]
      norm_num
    by_contra hcon
    push Not at hcon
    have h2 := pow_lt_pow_left₀ hcon (by positivity) (n := 5) (by norm_num)
    rw [h1] at h2
    norm_num at h2
  rw [e1] at key
  have k1 := key.trans e4
  have k2 := abs_sub_abs_le_abs_sub (c.response (2 * w))
    (seq (c.produced [Op.process (realCall (fun i => Real.cos (w * i + φ)) (2 * n) n)] os) 7001)
  rw [abs_sub_comm] at k2
  rw [e2] at k2
  rw [show ((67000 : ℕ) : ℝ) / ((10 ^ 12 : ℕ) : ℝ) = 67000 / 10 ^ 12 by norm_num] at e3
  clear_value n
  generalize seq (c.produced [Op.process (realCall (fun i => Real.cos (w * i + φ)) (2 * n) n)] os) 7001 = y at k1 k2 ⊢
  linarith

/-! ## Examples -/

private theorem decay_small : (2 : ℝ) * 10 ^ 6 * (19 / 20) ^ 700 ≤ 1 / 10 ^ 8 := by
  have h1 : ((19 : ℝ) / 20) ^ 700 = ((19 / 20) ^ 50) ^ 14 := by rw [← pow_mul]
  have h2 : ((19 : ℝ) / 20) ^ 50 ≤ 77 / 1000 := by norm_num
  have h3 := pow_le_pow_left₀ (by positivity) h2 14
  rw [← h1] at h3
  generalize ((19 : ℝ) / 20) ^ 700 = z at h3 ⊢
  norm_num at h3
  linarith

theorem constants_real : Constants false := ⟨rfl, fun _ => rfl⟩

/-- Constants rounded to binary32. -/
example : ∃ _ : Sample ℝ, Constants true :=
  ⟨⟨1 / 2, fun q => ((rnd32 q : ℚ) : ℝ)⟩, @Constants.mk ⟨1 / 2, fun q => ((rnd32 q : ℚ) : ℝ)⟩ true rfl fun _ => rfl⟩

/-- C56, C50: a sinusoid in the pass band and one in the stop band are downsampled by 4. -/
example : ∃ q, (cfg .down 4 12 false .iir).session
      [Op.process (realCall (fun i => 5 * Real.cos (1 / 2 * i + 1) + 7 * Real.cos (3 / 2 * i + 2)) 20000 5000)] = .ok q ∧
    |seq ((cfg .down 4 12 false .iir).produced
      [Op.process (realCall (fun i => 5 * Real.cos (1 / 2 * i + 1) + 7 * Real.cos (3 / 2 * i + 2)) 20000 5000)] q.2) 4999 -
        tones [(cfg .down 4 12 false .iir).downTone (5, 1 / 2, 1), (cfg .down 4 12 false .iir).downTone (7, 3 / 2, 2)] 4999| ≤
        12 / 10 ^ 8 ∧
    |seq ((cfg .down 4 12 false .iir).produced
      [Op.process (realCall (fun i => 5 * Real.cos (1 / 2 * i + 1) + 7 * Real.cos (3 / 2 * i + 2)) 20000 5000)] q.2) 4999 -
        tones [(cfg .down 4 12 false .iir).downTone (5, 1 / 2, 1)] 4999| ≤ 7 * atten 72 + 12 / 10 ^ 8 := by
  have hv : (cfg .down 4 12 false .iir).Valid := ⟨by decide, by decide, by decide⟩
  have hc := opOk_realCall (cfg .down 4 12 false .iir) (fun i => 5 * Real.cos (1 / 2 * i + 1) + 7 * Real.cos (3 / 2 * i + 2)) 20000 5000
    ⟨by decide, by decide, by decide, by decide, by decide, by decide, by decide⟩
  obtain ⟨f1, f2⟩ := fed_realCall (fun i => 5 * Real.cos (1 / 2 * i + 1) + 7 * Real.cos (3 / 2 * i + 2)) 20000 5000
  obtain ⟨r, os, h, -⟩ := C04_output_frame (cfg .down 4 12 false .iir) hv _ hc
  have hl := (Config.session_op hv hc h).1
  rw [f1] at hl
  have hd := decay_small
  have p1 := Real.pi_gt_d2
  have p2 := Real.pi_lt_d2
  refine ⟨_, h, ?_, ?_⟩
  · have := C56_response_down constants_real (cfg .down 4 12 false .iir) hv rfl rfl _ hc r os h [(5, 1 / 2, 1), (7, 3 / 2, 2)] 0 le_rfl (by
      intro i hi
      rw [f2 i (hi.trans_eq f1), tones_cons, tones_cons, tones_nil]
      simp) 0 (by
      intro i _ hi
      rw [f2 i (hi.trans_eq f1), tones_cons, tones_cons, tones_nil]
      simp) 700 4999 (by rw [hl]; decide) (by decide)
    refine this.trans ?_
    simp only [amps, List.map_cons, List.map_nil, List.sum_cons, List.sum_nil]
    rw [abs_of_nonneg (by norm_num : (0 : ℝ) ≤ 5), abs_of_nonneg (by norm_num : (0 : ℝ) ≤ 7)]
    generalize (2 : ℝ) * 10 ^ 6 * (19 / 20) ^ 700 = z at hd ⊢
    linarith
  · have := C50_stop_band constants_real (cfg .down 4 12 false .iir) hv rfl rfl _ hc r os h [(5, 1 / 2, 1)] [(7, 3 / 2, 2)] (by
      intro a ha
      simp only [List.mem_cons, List.not_mem_nil, or_false] at ha
      subst ha
      refine ⟨1, by decide, ?_⟩
      rw [show (cfg .down 4 12 false .iir).ratio = 4 from rfl]
      rw [abs_le]
      norm_num
      constructor <;> linarith) 0 le_rfl (by
      intro i hi
      rw [f2 i (hi.trans_eq f1), tones_cons, tones_nil, tones_cons, tones_nil]
      simp) 0 (by
      intro i _ hi
      rw [f2 i (hi.trans_eq f1), tones_cons, tones_nil, tones_cons, tones_nil]
      simp) 700 4999 (by rw [hl]; decide) (by decide)
    refine this.trans ?_
    simp only [amps, List.map_cons, List.map_nil, List.sum_cons, List.sum_nil]
    rw [abs_of_nonneg (by norm_num : (0 : ℝ) ≤ 5), abs_of_nonneg (by norm_num : (0 : ℝ) ≤ 7),
      show ((stopDb false (cfg .down 4 12 false .iir).precision : ℕ) : ℝ) = 72 by
        rw [show stopDb false (cfg .down 4 12 false .iir).precision = 72 from rfl]; norm_num]
    generalize (2 : ℝ) * 10 ^ 6 * (19 / 20) ^ 700 = z at hd ⊢
    linarith

/-- C57: a sinusoid (with two disturbed samples at the start) is upsampled by 2. -/
example : ∃ q, (cfg .up 2 16 true .iir).session
      [Op.process (realCall (fun i => 3 * Real.cos (2 * i + 1) + (if i < 2 then 1 else 0)) 5000 10000)] = .ok q ∧
    |seq ((cfg .up 2 16 true .iir).produced
      [Op.process (realCall (fun i => 3 * Real.cos (2 * i + 1) + (if i < 2 then 1 else 0)) 5000 10000)] q.2) 9999 -
        tones [(cfg .up 2 16 true .iir).upTone (3, 2, 1)] 9999| ≤ 3 * atten 96 + 4 / 10 ^ 8 := by
  have hv : (cfg .up 2 16 true .iir).Valid := ⟨by decide, by decide, by decide⟩
  have hc := opOk_realCall (cfg .up 2 16 true .iir) (fun i => 3 * Real.cos (2 * i + 1) + (if i < 2 then 1 else 0)) 5000 10000
    ⟨by decide, by decide, by decide, by decide, by decide, by decide, by decide⟩
  obtain ⟨f1, f2⟩ := fed_realCall (fun i => 3 * Real.cos (2 * i + 1) + (if i < 2 then 1 else 0)) 5000 10000
  obtain ⟨r, os, h, -⟩ := C04_output_frame (cfg .up 2 16 true .iir) hv _ hc
  have hl := (Config.session_op hv hc h).1
  rw [f1] at hl
  have hd := decay_small
  refine ⟨_, h, ?_⟩
  have := C57_response_up constants_real (cfg .up 2 16 true .iir) hv rfl rfl _ hc r os h [(3, 2, 1)] (by
    intro a ha
    simp only [List.mem_cons, List.not_mem_nil, or_false] at ha
    subst ha
    simp only
    rw [abs_of_nonneg (by norm_num)]
    linarith [Real.pi_gt_d2]) 1 (by norm_num) (by
    intro i hi
    rw [f2 i (hi.trans_eq f1), tones_cons, tones_nil]
    simp only [add_zero]
    rw [add_sub_cancel_left]
    split <;> norm_num) 2 (by
    intro i h2 hi
    rw [f2 i (hi.trans_eq f1), tones_cons, tones_nil, if_neg (by omega)]) 700 9999 (by rw [hl]; decide) (by decide)
  refine this.trans ?_
  simp only [amps, List.map_cons, List.map_nil, List.sum_cons, List.sum_nil]
  rw [abs_of_nonneg (by norm_num : (0 : ℝ) ≤ 3), show imageFactor (cfg .up 2 16 true .iir).ratio = 1 by norm_num [imageFactor, cfg],
    show ((stopDb false (cfg .up 2 16 true .iir).precision : ℕ) : ℝ) = 96 by
      rw [show stopDb false (cfg .up 2 16 true .iir).precision = 96 from rfl]; norm_num]
  generalize (2 : ℝ) * 10 ^ 6 * (19 / 20) ^ 700 = z at hd ⊢
  linarith

/-- C58: upsampling by 8 with 120 dB. -/
example : |(cfg .up 8 20 true .iir).response 5| ≤ 1 ∧ 1 - 3 * atten 120 ^ 2 ≤ (cfg .up 8 20 true .iir).response 2 ∧
    |(cfg .up 8 20 true .iir).response 4| ≤ atten 120 := by
  have hv : (cfg .up 8 20 true .iir).Valid := ⟨by decide, by decide, by decide⟩
  have e : ((stopDb false (cfg .up 8 20 true .iir).precision : ℕ) : ℝ) = 120 := by
    rw [show stopDb false (cfg .up 8 20 true .iir).precision = 120 from rfl]; norm_num
  have p1 := Real.pi_gt_d2
  have p2 := Real.pi_lt_d2
  have h2 := (C58_amplitude constants_real (cfg .up 8 20 true .iir) hv rfl 2).2.1 (by
    rw [abs_of_nonneg (by norm_num)]
    linarith)
  have h3 := (C58_amplitude constants_real (cfg .up 8 20 true .iir) hv rfl 4).2.2 1 (by decide) (by
    rw [abs_le]
    norm_num
    constructor <;> linarith)
  rw [e] at h2 h3
  exact ⟨(C58_amplitude constants_real (cfg .up 8 20 true .iir) hv rfl 5).1, h2, h3⟩

/-- C59: a sinusoid is upsampled by 2 and downsampled again. -/
example : ∃ q, (cfg .up 2 24 true .iir).session [Op.process (realCall (fun i => Real.cos (2 * i)) 14002 28004)] = .ok q ∧
    ∃ q', (cfg .down 2 20 false .iir).session [Op.process (realCall (seq ((cfg .up 2 24 true .iir).produced
      [Op.process (realCall (fun i => Real.cos (2 * i)) 14002 28004)] q.2)) 28004 14002)] = .ok q' ∧
      |seq ((cfg .down 2 20 false .iir).produced [Op.process (realCall (seq ((cfg .up 2 24 true .iir).produced
        [Op.process (realCall (fun i => Real.cos (2 * i)) 14002 28004)] q.2)) 28004 14002)] q'.2) 14001 -
        tones [(cfg .down 2 20 false .iir).downTone ((cfg .up 2 24 true .iir).upTone (1, 2, 0))] 14001| ≤
        atten 144 + 1 / 10 ^ 8 := by
  have hv : (cfg .up 2 24 true .iir).Valid := ⟨by decide, by decide, by decide⟩
  have hv' : (cfg .down 2 20 false .iir).Valid := ⟨by decide, by decide, by decide⟩
  have hc := opOk_realCall (cfg .up 2 24 true .iir) (fun i => Real.cos (2 * i)) 14002 28004
    ⟨by decide, by decide, by decide, by decide, by decide, by decide, by decide⟩
  obtain ⟨f1, f2⟩ := fed_realCall (fun i => Real.cos (2 * i)) 14002 28004
  obtain ⟨r, os, h, -⟩ := C04_output_frame (cfg .up 2 24 true .iir) hv _ hc
  have hl := (Config.session_op hv hc h).1
  rw [f1] at hl
  replace hl : ((cfg .up 2 24 true .iir).produced [Op.process (realCall (fun i => Real.cos (2 * i)) 14002 28004)] os).length = 28004 := by
    rw [hl]
    decide
  set ys := (cfg .up 2 24 true .iir).produced [Op.process (realCall (fun i => Real.cos (2 * i)) 14002 28004)] os with hys
  have hc' := opOk_realCall (cfg .down 2 20 false .iir) (seq ys) 28004 14002
    ⟨by decide, by decide, by decide, by decide, by decide, by decide, by decide⟩
  obtain ⟨f1', f2'⟩ := fed_realCall (seq ys) 28004 14002
  obtain ⟨r', os', h', -⟩ := C04_output_frame (cfg .down 2 20 false .iir) hv' _ hc'
  have hl' := (Config.session_op hv' hc' h').1
  rw [f1'] at hl'
  have hfed : fed [Op.process (realCall (seq ys) 28004 14002)] = ys := by
    refine List.ext_getElem (f1'.trans hl.symm) fun i h1 h2 => ?_
    have := f2' i (h1.trans_eq f1')
    rwa [seq_lt h1, seq_lt h2] at this
  have := C59_round_trip constants_real (cfg .up 2 24 true .iir) (cfg .down 2 20 false .iir) hv hv' rfl rfl rfl rfl rfl _ hc r os h
    _ hc' r' os' h' hfed [(1, 2, 0)] (by
      intro a ha
      simp only [List.mem_cons, List.not_mem_nil, or_false] at ha
      subst ha
      simp only
      rw [abs_of_nonneg (by norm_num)]
      linarith [Real.pi_gt_d2]) 0 le_rfl (by
      intro i hi
      rw [f2 i (hi.trans_eq f1), tones_cons, tones_nil]
      simp) 0 (by
      intro i _ hi
      rw [f2 i (hi.trans_eq f1), tones_cons, tones_nil]
      simp) 1000 14001 (by rw [hl']; decide) (by decide)
  refine ⟨_, h, _, h', ?_⟩
  refine this.trans ?_
  simp only [amps, List.map_cons, List.map_nil, List.sum_cons, List.sum_nil, abs_one]
  rw [show imageFactor (cfg .up 2 24 true .iir).ratio = 1 by norm_num [imageFactor, cfg],
    show ((stopDb false (cfg .up 2 24 true .iir).precision : ℕ) : ℝ) = 144 by
      rw [show stopDb false (cfg .up 2 24 true .iir).precision = 144 from rfl]; norm_num]
  have hz : (10 : ℝ) ^ 13 * (19 / 20) ^ 1000 ≤ 1 / 10 ^ 8 := by
    have h1 : ((19 : ℝ) / 20) ^ 1000 = ((19 / 20) ^ 50) ^ 20 := by rw [← pow_mul]
    have h2 : ((19 : ℝ) / 20) ^ 50 ≤ 77 / 1000 := by norm_num
    have h3 := pow_le_pow_left₀ (by positivity) h2 20
    rw [← h1] at h3
    generalize ((19 : ℝ) / 20) ^ 1000 = z at h3 ⊢
    norm_num at h3
    linarith
  generalize (10 : ℝ) ^ 13 * (19 / 20) ^ 1000 = z at hz ⊢
  linarith

end Panda
