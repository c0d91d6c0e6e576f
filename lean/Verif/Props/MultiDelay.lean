import Verif.Props.RoundTrip
import Verif.Proofs.LowBand

/-!
# The error bound of testmultidelay (C85)

tests/testmultidelay.cc resamples a sinusoid of 1 kHz with FIR filters, up, down, or up and down again, by 2, 4 and 8, with 16, 20 and 24 bits. It
compares the output at the positions `i` with `i - delay > delay` with the sinusoid delayed by `delay`, and prints the largest error together with the
bound 0.00005. It does not compare the two (and the error it prints is one-sided: `s - out[i]`).
-/

namespace Panda

open Examples Finset

/-- The bound (tests/testmultidelay.cc:99). -/
noncomputable def maxError : ℝ := 1 / 20000

private theorem low_numbers : ∀ r ∈ [1, 2, 4, 8], ∀ p ∈ [16, 20, 24],
    lowSine r p + lowImg r p ≤ 1 / 20000 ∧
    (1 + lowSine r p) * (1 + lowSine r p) - 1 + stopErr r p * lowImg r p ≤ 1 / 20000 ∧
    (sineNano .down r p : ℚ) / 10 ^ 9 ≤ 1 / 20000 := by decide +kernel

private def up32Q (r p : ℕ) : ℚ :=
  lowSine r p + lowImg r p + (gainMilli .up r p : ℚ) / 1000 * 2⁻¹ ^ 25 + ((rndNano .up r p : ℚ) / 10 ^ 9 * 1 + 2⁻¹ ^ 140)

private def down32Q (r p : ℕ) : ℚ :=
  (sineNano .down r p : ℚ) / 10 ^ 9 + (gainMilli .down r p : ℚ) / 1000 * 2⁻¹ ^ 25 + ((rndNano .down r p : ℚ) / 10 ^ 9 * 1 + 2⁻¹ ^ 140)

private def over32Q (r p : ℕ) : ℚ :=
  (1 + lowSine r p) * (1 + lowSine r p) - 1 + stopErr r p * lowImg r p +
    (gainMilli .down r p : ℚ) / 1000 * ((gainMilli .up r p : ℚ) / 1000 * 2⁻¹ ^ 25) +
    ((gainMilli .down r p : ℚ) / 1000 * ((rndNano .up r p : ℚ) / 10 ^ 9 * 1 + 2⁻¹ ^ 140) +
      ((rndNano .down r p : ℚ) / 10 ^ 9 * ((gainMilli .up r p : ℚ) / 1000 * 1 + 2⁻¹ ^ 140) + 2⁻¹ ^ 140))

private theorem low_numbers32 : ∀ r ∈ [1, 2, 4, 8], ∀ p ∈ [16, 20, 24],
    ((r, p) ≠ (8, 16) → up32Q r p ≤ 1 / 20000) ∧ down32Q r p ≤ 1 / 20000 ∧ (r ≤ 2 → over32Q r p ≤ 1 / 20000) := by decide +kernel

private theorem tone_one (w p s : ℝ) : tones [(1, w, p)] s = Real.cos (w * s + p) := by simp [tones]

private theorem mem_bits {p : ℕ} (hp : p ∈ [16, 20, 24]) : p ∈ [1, 8, 12, 16, 20, 24] := by
  simp only [List.mem_cons, List.not_mem_nil, or_false] at hp ⊢
  tauto

private theorem le_real {q : ℚ} (h : q ≤ 1 / 20000) : (q : ℝ) ≤ maxError := by
  have : (q : ℝ) ≤ ((1 / 20000 : ℚ) : ℝ) := by exact_mod_cast h
  unfold maxError
  push_cast at this
  exact this

private theorem twice {d : ℚ} {n : ℕ} (h : (d : ℝ) < n - d) : 2 * d ≤ (n : ℚ) := by
  have : ((2 * d : ℚ) : ℝ) ≤ ((n : ℚ) : ℝ) := by
    push_cast
    linarith
  exact_mod_cast this

section real

variable [Sample ℝ] [Accurate ℝ]

private theorem cont_tone {xs : List ℝ} {w p : ℝ} (h : ∀ i < xs.length, seq xs i = Real.cos (w * i + p)) :
    NearTones (toneCont xs [(1, w, p)]) [(1, w, p)] 0 0 :=
  toneCont_near le_rfl fun i _ hi => by rw [tone_one, h i hi]; simp

/-- **C85** Upsampling in exact arithmetic: the bound holds at every frequency up to 2 kHz (for an input rate of 44.1 kHz), at every phase, for all
block sizes and alignments, and for all samples the test looks at. The coefficients may be rounded to `float`. -/
theorem C85_up (cfg : Config) (hv : cfg.Valid) (hf : cfg.filter = .fir) (hm : cfg.mode = .up) (hp : cfg.precision ∈ [16, 20, 24])
    (ops : List (Op ℝ)) (hc : ∀ op ∈ ops, cfg.OpOk op) (r : Resampler ℝ) (os : List (Option (Buf ℝ))) (h : cfg.session ops = .ok (r, os))
    (w p : ℝ) (hw : |w| ≤ 40 * Real.pi / 441) (hx : ∀ i < (fed ops).length, seq (fed ops) i = Real.cos (w * i + p)) :
    ∃ d : ℚ, r.delay = .ok d ∧ ∀ n < (cfg.produced ops os).length, (d : ℝ) < n - d →
      |seq (cfg.produced ops os) n - Real.cos (w * ((n - d) / cfg.ratio) + p)| ≤ maxError := by
  refine ⟨cfg.totalDelay, Config.Reachable.delay hv ⟨ops, os, hc, h⟩, fun n hn hd => ?_⟩
  rw [Config.session_op_of hv hc h (x := toneCont (fed ops) [(1, w, p)]) (fun i hi => if_pos hi) n hn]
  have h1 := Config.op_up_low hv hf hm hp (cont_tone hx) hw (Config.settle_delay hv hf (twice hd))
  rw [one_mul, abs_one, mul_one, mul_zero, add_zero] at h1
  refine h1.trans ?_
  have := le_real (low_numbers _ hv.ratio _ hp).1
  push_cast at this
  exact this

/-- **C85** Downsampling in exact arithmetic: at every frequency in the pass band. -/
theorem C85_down (cfg : Config) (hv : cfg.Valid) (hf : cfg.filter = .fir) (hm : cfg.mode = .down) (hp : cfg.precision ∈ [16, 20, 24])
    (ops : List (Op ℝ)) (hc : ∀ op ∈ ops, cfg.OpOk op) (r : Resampler ℝ) (os : List (Option (Buf ℝ))) (h : cfg.session ops = .ok (r, os))
    (w p : ℝ) (hw : |cfg.ratio * w| ≤ 40 * Real.pi / 49) (hx : ∀ i < (fed ops).length, seq (fed ops) i = Real.cos (w * i + p)) :
    ∃ d : ℚ, r.delay = .ok d ∧ ∀ n < (cfg.produced ops os).length, (d : ℝ) < n - d →
      |seq (cfg.produced ops os) n - Real.cos (w * (cfg.ratio * (n - d)) + p)| ≤ maxError := by
  refine ⟨cfg.totalDelay, Config.Reachable.delay hv ⟨ops, os, hc, h⟩, fun n hn hd => ?_⟩
  rw [Config.session_op_of hv hc h (x := toneCont (fed ops) [(1, w, p)]) (fun i hi => if_pos hi) n hn]
  have h1 := Config.op_down_tones hv hf hm (P := [(1, w, p)]) (S := []) (by simpa using hw) (by simp) (by simpa using cont_tone hx)
    (Config.settle_delay hv hf (twice hd))
  rw [tone_one] at h1
  simp only [amps, List.map_cons, List.map_nil, List.sum_cons, List.sum_nil, abs_one, add_zero, mul_one, mul_zero] at h1
  refine h1.trans ((firNum_sine_le cfg hv .down).trans ?_)
  have := le_real (low_numbers _ hv.ratio _ hp).2.2
  push_cast at this
  exact this

/-- **C85** Oversampling in exact arithmetic, up to 2 kHz. -/
theorem C85_over (cu cd : Config) (hu : cu.Valid) (hd : cd.Valid) (hfu : cu.filter = .fir) (hfd : cd.filter = .fir)
    (hmu : cu.mode = .up) (hmd : cd.mode = .down) (hr : cd.ratio = cu.ratio) (hp : cu.precision ∈ [16, 20, 24]) (hp' : cd.precision = cu.precision)
    (ops : List (Op ℝ)) (hc : ∀ op ∈ ops, cu.OpOk op) (r : Resampler ℝ) (os : List (Option (Buf ℝ)))
    (h : cu.session ops = .ok (r, os))
    (ops' : List (Op ℝ)) (hc' : ∀ op ∈ ops', cd.OpOk op) (r' : Resampler ℝ) (os' : List (Option (Buf ℝ)))
    (h' : cd.session ops' = .ok (r', os')) (hfed : fed ops' = cu.produced ops os)
    (w p : ℝ) (hw : |w| ≤ 40 * Real.pi / 441) (hx : ∀ i < (fed ops).length, seq (fed ops) i = Real.cos (w * i + p)) :
    ∃ du dd : ℚ, r.delay = .ok du ∧ r'.delay = .ok dd ∧ ∀ n < (cd.produced ops' os').length,
      ((du / cu.ratio + dd : ℚ) : ℝ) < n - (du / cu.ratio + dd : ℚ) →
      |seq (cd.produced ops' os') n - Real.cos (w * (n - (du / cu.ratio + dd : ℚ)) + p)| ≤ maxError := by
  refine ⟨cu.totalDelay, cd.totalDelay, Config.Reachable.delay hu ⟨ops, os, hc, h⟩, Config.Reachable.delay hd ⟨ops', os', hc', h'⟩,
    fun n hn hset => ?_⟩
  rw [Config.session_op_of hd hc' h' (x := cu.op (toneCont (fed ops) [(1, w, p)])) (fun i hi => by
    rw [hfed] at hi ⊢
    exact (Config.session_op_of hu hc h (x := toneCont (fed ops) [(1, w, p)]) (fun i hi => if_pos hi) i hi).symm) n hn]
  have h1 := Config.op_over_low hu hd hfu hfd hmu hmd hr hp (by rwa [hp']) (cont_tone hx) hw
    (Config.settle_over hu hd hfu hfd hmu hmd hr hp' (twice hset))
  rw [one_mul, abs_one, mul_one, mul_zero, mul_zero, add_zero, hr, hp'] at h1
  have := le_real (low_numbers _ hu.ratio _ hp).2.1
  push_cast at this ⊢
  exact h1.trans this

end real

private theorem cont_tone32 {xs : List F32} {w p : ℝ}
    (h : ∀ i < xs.length, |(((seq xs i).val : ℚ) : ℝ) - Real.cos (w * i + p)| ≤ 2⁻¹ ^ 25) :
    NearTones (cont32 xs [(1, w, p)]) [(1, w, p)] (2⁻¹ ^ 25) 0 :=
  cont32_near (by positivity) fun i _ hi => by rw [tone_one]; exact h i hi

/-- **C85, what holds** for binary32 samples (the sinusoid rounded to `float`) and arithmetic, upsampling: the bound holds at every frequency up to
2 kHz, whatever the phase, the block sizes and the alignments, with SSE or without. Missing: the ratio 8 with 16 bits, where the bound for the rounding
errors is too coarse. -/
theorem C85_up_binary32_partial (cfg : Config) (hv : cfg.Valid) (hf : cfg.filter = .fir) (hm : cfg.mode = .up) (hp : cfg.precision ∈ [16, 20, 24])
    (h8 : ¬ (cfg.ratio = 8 ∧ cfg.precision = 16))
    (ops : List (Op F32)) (hc : ∀ op ∈ ops, cfg.OpOk op) (r : Resampler F32) (os : List (Option (Buf F32))) (h : cfg.session ops = .ok (r, os))
    (hx : ∀ v ∈ fed ops, ∃ q, v = Fl.fin q ∧ |q| ≤ 1) (w p : ℝ) (hw : |w| ≤ 40 * Real.pi / 441)
    (hN : ∀ i < (fed ops).length, |(((seq (fed ops) i).val : ℚ) : ℝ) - Real.cos (w * i + p)| ≤ 2⁻¹ ^ 25) :
    ∃ d : ℚ, r.delay = .ok d ∧ ∀ n < (cfg.produced ops os).length, (d : ℝ) < n - d →
      ∃ y : ℚ, seq (cfg.produced ops os) n = Fl.fin y ∧ |(y : ℝ) - Real.cos (w * ((n - d) / cfg.ratio) + p)| ≤ maxError := by
  have := accurate_real
  refine ⟨cfg.totalDelay, Config.Reachable.delay hv ⟨ops, os, hc, h⟩, fun n hn hd => ?_⟩
  obtain ⟨y, h1, h2⟩ := val_near cfg hv hf ops hc r os h 1 (by norm_num) hx (cont32 (fed ops) [(1, w, p)]) (fun i hi => if_pos hi) n hn
  refine ⟨y, h1, ?_⟩
  have h3 := Config.op_up_low hv hf hm hp (cont_tone32 hN) hw (Config.settle_delay hv hf (twice hd))
  rw [one_mul, abs_one, mul_one] at h3
  have h4 := mul_le_mul_of_nonneg_right (firNum_gain_le cfg hv) (by positivity : (0 : ℝ) ≤ 2⁻¹ ^ 25)
  have h5 := le_real ((low_numbers32 _ hv.ratio _ hp).1 (by simpa using h8))
  unfold up32Q at h5
  rw [hm] at h2 h4
  push_cast at h5 h2
  rw [abs_le] at h2 h3 ⊢
  constructor <;> linarith [h2.1, h2.2, h3.1, h3.2]

/-- **C85** for binary32 samples and arithmetic, downsampling: at every frequency in the pass band. -/
theorem C85_down_binary32 (cfg : Config) (hv : cfg.Valid) (hf : cfg.filter = .fir) (hm : cfg.mode = .down) (hp : cfg.precision ∈ [16, 20, 24])
    (ops : List (Op F32)) (hc : ∀ op ∈ ops, cfg.OpOk op) (r : Resampler F32) (os : List (Option (Buf F32))) (h : cfg.session ops = .ok (r, os))
    (hx : ∀ v ∈ fed ops, ∃ q, v = Fl.fin q ∧ |q| ≤ 1) (w p : ℝ) (hw : |cfg.ratio * w| ≤ 40 * Real.pi / 49)
    (hN : ∀ i < (fed ops).length, |(((seq (fed ops) i).val : ℚ) : ℝ) - Real.cos (w * i + p)| ≤ 2⁻¹ ^ 25) :
    ∃ d : ℚ, r.delay = .ok d ∧ ∀ n < (cfg.produced ops os).length, (d : ℝ) < n - d →
      ∃ y : ℚ, seq (cfg.produced ops os) n = Fl.fin y ∧ |(y : ℝ) - Real.cos (w * (cfg.ratio * (n - d)) + p)| ≤ maxError := by
  have := accurate_real
  refine ⟨cfg.totalDelay, Config.Reachable.delay hv ⟨ops, os, hc, h⟩, fun n hn hd => ?_⟩
  obtain ⟨y, h1, h2⟩ := val_near cfg hv hf ops hc r os h 1 (by norm_num) hx (cont32 (fed ops) [(1, w, p)]) (fun i hi => if_pos hi) n hn
  refine ⟨y, h1, ?_⟩
  have h3 := Config.op_down_tones hv hf hm (P := [(1, w, p)]) (S := []) (by simpa using hw) (by simp) (by simpa using cont_tone32 hN)
    (Config.settle_delay hv hf (twice hd))
  rw [tone_one] at h3
  simp only [amps, List.map_cons, List.map_nil, List.sum_cons, List.sum_nil, abs_one, add_zero, mul_one, mul_zero] at h3
  have h4 := mul_le_mul_of_nonneg_right (firNum_gain_le cfg hv) (by positivity : (0 : ℝ) ≤ 2⁻¹ ^ 25)
  have h5 := le_real (low_numbers32 _ hv.ratio _ hp).2.1
  have h6 := firNum_sine_le cfg hv .down
  unfold down32Q at h5
  rw [hm] at h2 h4
  push_cast at h5 h2
  rw [abs_le] at h2 h3 ⊢
  constructor <;> linarith [h2.1, h2.2, h3.1, h3.2]

/-- **C85, what holds** for binary32 samples and arithmetic, oversampling: the ratio 2 (and 1). Missing: the ratios 4 and 8. -/
theorem C85_over_binary32_partial (cu cd : Config) (hu : cu.Valid) (hd : cd.Valid) (hfu : cu.filter = .fir) (hfd : cd.filter = .fir)
    (hmu : cu.mode = .up) (hmd : cd.mode = .down) (hr : cd.ratio = cu.ratio) (hr2 : cu.ratio ≤ 2)
    (hp : cu.precision ∈ [16, 20, 24]) (hp' : cd.precision = cu.precision)
    (ops : List (Op F32)) (hc : ∀ op ∈ ops, cu.OpOk op) (r : Resampler F32) (os : List (Option (Buf F32)))
    (h : cu.session ops = .ok (r, os))
    (ops' : List (Op F32)) (hc' : ∀ op ∈ ops', cd.OpOk op) (r' : Resampler F32) (os' : List (Option (Buf F32)))
    (h' : cd.session ops' = .ok (r', os')) (hfed : fed ops' = cu.produced ops os)
    (hx : ∀ v ∈ fed ops, ∃ q, v = Fl.fin q ∧ |q| ≤ 1) (w p : ℝ) (hw : |w| ≤ 40 * Real.pi / 441)
    (hN : ∀ i < (fed ops).length, |(((seq (fed ops) i).val : ℚ) : ℝ) - Real.cos (w * i + p)| ≤ 2⁻¹ ^ 25) :
    ∃ du dd : ℚ, r.delay = .ok du ∧ r'.delay = .ok dd ∧ ∀ n < (cd.produced ops' os').length,
      ((du / cu.ratio + dd : ℚ) : ℝ) < n - (du / cu.ratio + dd : ℚ) → ∃ y : ℚ, seq (cd.produced ops' os') n = Fl.fin y ∧
        |(y : ℝ) - Real.cos (w * (n - (du / cu.ratio + dd : ℚ)) + p)| ≤ maxError := by
  have := accurate_real
  refine ⟨cu.totalDelay, cd.totalDelay, Config.Reachable.delay hu ⟨ops, os, hc, h⟩, Config.Reachable.delay hd ⟨ops', os', hc', h'⟩,
    fun n hn hset => ?_⟩
  obtain ⟨y, h1, h2⟩ := chain32 cu cd hu hd hfu hfd ops hc r os h ops' hc' r' os' h' hfed 1 (by norm_num) (by norm_num) hx
    (cont32 (fed ops) [(1, w, p)]) (fun i hi => if_pos hi) n hn
  refine ⟨y, h1, ?_⟩
  have h3 := Config.op_over_low hu hd hfu hfd hmu hmd hr hp (by rwa [hp']) (cont_tone32 hN) hw
    (Config.settle_over hu hd hfu hfd hmu hmd hr hp' (twice hset))
  rw [one_mul, abs_one, mul_one] at h3
  have h4 : ((cd.gain : ℚ) : ℝ) * (((cu.gain : ℚ) : ℝ) * 2⁻¹ ^ 25) ≤
      (gainMilli .down cu.ratio cu.precision : ℝ) / 1000 * ((gainMilli .up cu.ratio cu.precision : ℝ) / 1000 * 2⁻¹ ^ 25) := by
    have g1 := firNum_gain_le cu hu
    have g2 := firNum_gain_le cd hd
    rw [hmu] at g1
    rw [hmd, hr, hp'] at g2
    have := firNum_gain_nonneg cu
    have := firNum_gain_nonneg cd
    gcongr
  have h5 := le_real ((low_numbers32 _ hu.ratio _ hp).2.2 hr2)
  unfold over32Q at h5
  rw [hmu, hmd, hr, hp'] at h2
  rw [hr, hp'] at h3
  push_cast at h5 h2 h3 ⊢
  rw [abs_le] at h2 h3 ⊢
  constructor <;> linarith [h2.1, h2.2, h3.1, h3.2]

/-! ## Examples -/

section

variable {F : Type} [Zero F] [One F] [Add F] [Sub F] [Mul F] [Sample F]

private theorem delay_of {cfg : Config} (hv : cfg.Valid) {ops : List (Op F)} (hc : ∀ op ∈ ops, cfg.OpOk op)
    {r : Resampler F} {os : List (Option (Buf F))} (h : cfg.session ops = .ok (r, os)) {d e : ℚ} (hd : r.delay = .ok d) (he : cfg.totalDelay = e) :
    d = e := by
  have := Config.Reachable.delay hv ⟨ops, os, hc, h⟩
  rw [hd, he] at this
  injection this

end

private theorem sin_cos (x : ℝ) : Real.sin x = Real.cos (x + -(Real.pi / 2)) := by
  rw [← sub_eq_add_neg, Real.cos_sub_pi_div_two]

private theorem kilo_pos : (0 : ℝ) ≤ 20 * Real.pi / 441 := by positivity

private theorem kilo_le : |20 * Real.pi / 441| ≤ 40 * Real.pi / 441 := by
  rw [abs_of_nonneg kilo_pos]
  linarith [Real.pi_pos]

/-- The test with 16 bits and a ratio of 8: 1 kHz, 1024 samples, exact arithmetic. The delay is 149, so that the positions from 299 on are checked. -/
example : ∃ q, (cfg .up 8 16 true .fir).session [Op.process (realCall (fun i => Real.sin (20 * Real.pi / 441 * i)) 1024 8192)] = .ok q ∧
    q.1.delay = .ok 149 ∧
    |seq ((cfg .up 8 16 true .fir).produced [Op.process (realCall (fun i => Real.sin (20 * Real.pi / 441 * i)) 1024 8192)] q.2) 299 -
      Real.sin (20 * Real.pi / 441 * ((299 - 149) / 8))| ≤ 1 / 20000 := by
  have := accurate_real
  have hv : (cfg .up 8 16 true .fir).Valid := ⟨by decide, by decide, by decide⟩
  have hc := opOk_realCall (cfg .up 8 16 true .fir) (fun i => Real.sin (20 * Real.pi / 441 * i)) 1024 8192
    ⟨by decide, by decide, by decide, by decide, by decide, by decide, by decide⟩
  obtain ⟨f1, f2⟩ := fed_realCall (fun i => Real.sin (20 * Real.pi / 441 * i)) 1024 8192
  obtain ⟨r, os, h, -⟩ := C04_output_frame (cfg .up 8 16 true .fir) hv _ hc
  have hl := (Config.session_op hv hc h).1
  rw [f1] at hl
  obtain ⟨d, hd, hy⟩ := C85_up (cfg .up 8 16 true .fir) hv rfl rfl (by decide) _ hc r os h (20 * Real.pi / 441) (-(Real.pi / 2)) kilo_le (by
    intro i hi
    rw [f2 i (hi.trans_eq f1), sin_cos])
  obtain rfl := delay_of hv hc h hd (e := 149) (by decide +kernel)
  refine ⟨_, h, hd, ?_⟩
  have := hy 299 (by rw [hl]; decide) (by norm_num)
  rw [← sin_cos] at this
  exact_mod_cast this

/-- The test with 20 bits and a ratio of 4, downsampling: the delay is 23.75. -/
example : ∃ q, (cfg .down 4 20 true .fir).session [Op.process (realCall (fun i => Real.sin (20 * Real.pi / 441 * i)) 1024 256)] = .ok q ∧
    q.1.delay = .ok (95 / 4) ∧
    |seq ((cfg .down 4 20 true .fir).produced [Op.process (realCall (fun i => Real.sin (20 * Real.pi / 441 * i)) 1024 256)] q.2) 48 -
      Real.sin (20 * Real.pi / 441 * (4 * (48 - 95 / 4)))| ≤ 1 / 20000 := by
  have := accurate_real
  have hv : (cfg .down 4 20 true .fir).Valid := ⟨by decide, by decide, by decide⟩
  have hc := opOk_realCall (cfg .down 4 20 true .fir) (fun i => Real.sin (20 * Real.pi / 441 * i)) 1024 256
    ⟨by decide, by decide, by decide, by decide, by decide, by decide, by decide⟩
  obtain ⟨f1, f2⟩ := fed_realCall (fun i => Real.sin (20 * Real.pi / 441 * i)) 1024 256
  obtain ⟨r, os, h, -⟩ := C04_output_frame (cfg .down 4 20 true .fir) hv _ hc
  have hl := (Config.session_op hv hc h).1
  rw [f1] at hl
  obtain ⟨d, hd, hy⟩ := C85_down (cfg .down 4 20 true .fir) hv rfl rfl (by decide) _ hc r os h (20 * Real.pi / 441) (-(Real.pi / 2)) (by
    rw [abs_mul, abs_of_nonneg kilo_pos]
    norm_num [cfg]
    linarith [Real.pi_pos]) (by
    intro i hi
    rw [f2 i (hi.trans_eq f1), sin_cos])
  obtain rfl := delay_of hv hc h hd (e := 95 / 4) (by decide +kernel)
  refine ⟨_, h, hd, ?_⟩
  have := hy 48 (by rw [hl]; decide) (by norm_num)
  rw [← sin_cos] at this
  push_cast at this
  exact this

/-- The test with 24 bits and a ratio of 2, oversampling: the delay is 51. -/
example : ∃ q, (cfg .up 2 24 true .fir).session [Op.process (realCall (fun i => Real.sin (20 * Real.pi / 441 * i)) 1024 2048)] = .ok q ∧
    ∃ ops' q', (cfg .down 2 24 true .fir).session ops' = .ok q' ∧
      fed ops' = (cfg .up 2 24 true .fir).produced [Op.process (realCall (fun i => Real.sin (20 * Real.pi / 441 * i)) 1024 2048)] q.2 ∧
    q.1.delay = .ok 51 ∧ q'.1.delay = .ok (51 / 2) ∧
      |seq ((cfg .down 2 24 true .fir).produced ops' q'.2) 103 - Real.sin (20 * Real.pi / 441 * (103 - 51))| ≤ 1 / 20000 := by
  have := accurate_real
  have hv : (cfg .up 2 24 true .fir).Valid := ⟨by decide, by decide, by decide⟩
  have hv' : (cfg .down 2 24 true .fir).Valid := ⟨by decide, by decide, by decide⟩
  have o1 : (cfg .up 2 24 true .fir).CallOk (realCall (fun _ => 0) 1024 2048) :=
    ⟨by decide, by decide, by decide, by decide, by decide, by decide, by decide⟩
  obtain ⟨q, h, ops', q', hc', h', hfed, hl⟩ := realChain (cfg .up 2 24 true .fir) (cfg .down 2 24 true .fir) hv hv'
    (fun i => Real.sin (20 * Real.pi / 441 * i)) 1024 2048 1024 (by decide) o1 ⟨by decide, by decide, by decide, by decide, by decide, by decide, by decide⟩
  obtain ⟨f1, f2⟩ := fed_realCall (fun i => Real.sin (20 * Real.pi / 441 * i)) 1024 2048
  have hc := opOk_realCall (cfg .up 2 24 true .fir) (fun i => Real.sin (20 * Real.pi / 441 * i)) 1024 2048 o1
  obtain ⟨du, dd, hdu, hdd, hy⟩ := C85_over (cfg .up 2 24 true .fir) (cfg .down 2 24 true .fir) hv hv' rfl rfl rfl rfl rfl (by decide) rfl _
    hc q.1 q.2 h _ hc' q'.1 q'.2 h' hfed (20 * Real.pi / 441) (-(Real.pi / 2)) kilo_le (by
    intro i hi
    rw [f2 i (hi.trans_eq f1), sin_cos])
  obtain rfl := delay_of hv hc h hdu (e := 51) (by decide +kernel)
  obtain rfl := delay_of hv' hc' h' hdd (e := 51 / 2) (by decide +kernel)
  refine ⟨_, h, ops', q', h', hfed, hdu, hdd, ?_⟩
  have := hy 103 (by rw [hl]; decide) (by norm_num [cfg])
  rw [← sin_cos] at this
  norm_num [cfg, maxError] at this ⊢
  exact this

private theorem seq_map_range {n i : ℕ} (x : ℕ → F32) (hi : i < n) : seq ((List.range n).map x) i = x i := by simp [seq, hi]

private theorem half32 {ops : List (Op F32)} {n : ℕ} (hf : fed ops = (List.range n).map fun _ => (Fl.fin (1 / 2) : F32)) :
    (∀ v ∈ fed ops, ∃ q, v = Fl.fin q ∧ |q| ≤ 1) ∧
    ∀ i < (fed ops).length, |(((seq (fed ops) i).val : ℚ) : ℝ) - Real.cos (0 * i + Real.pi / 3)| ≤ 2⁻¹ ^ 25 := by
  constructor
  · intro v hv
    rw [hf] at hv
    obtain ⟨i, -, rfl⟩ := List.mem_map.1 hv
    exact ⟨_, rfl, by rw [abs_of_pos] <;> norm_num⟩
  · intro i hi
    rw [hf] at hi ⊢
    rw [List.length_map, List.length_range] at hi
    rw [seq_map_range _ hi, zero_mul, zero_add, Real.cos_pi_div_three]
    simp [Fl.val, Fl.fin]

private theorem zero_low : |(0 : ℝ)| ≤ 40 * Real.pi / 441 := by
  rw [abs_zero]
  positivity

/-- The samples `0.5`, that is `cos (π / 3)`, a constant, in binary32, upsampled by 8 with 24 bits. -/
example : ∃ q, (cfg .up 8 24 true .fir).session [Op.process (call32 (fun _ => 1 / 2) 128 1024)] = .ok q ∧
    ∃ y : ℚ, seq ((cfg .up 8 24 true .fir).produced [Op.process (call32 (fun _ => 1 / 2) 128 1024)] q.2) 600 = Fl.fin y ∧
      |(y : ℝ) - 1 / 2| ≤ 1 / 20000 := by
  have hv : (cfg .up 8 24 true .fir).Valid := ⟨by decide, by decide, by decide⟩
  have hc : ∀ op ∈ [Op.process (call32 (fun _ => 1 / 2) 128 1024)], (cfg .up 8 24 true .fir).OpOk op := by
    intro op hop
    simp only [List.mem_singleton] at hop
    subst hop
    exact ⟨by decide, by decide, by decide, by decide, by decide, by decide, by decide⟩
  have hf := fed_call32 (fun _ => 1 / 2) 128 1024
  obtain ⟨r, os, h, -⟩ := C04_output_frame (cfg .up 8 24 true .fir) hv _ hc
  have hl := Config.produced_length hv (Config.session_rel' hv hc h)
  rw [hf, List.length_map, List.length_range] at hl
  obtain ⟨d, hd, hy⟩ := C85_up_binary32_partial (cfg .up 8 24 true .fir) hv rfl rfl (by decide) (by decide) _ hc r os h (half32 hf).1 0 (Real.pi / 3)
    zero_low (half32 hf).2
  obtain rfl := delay_of hv hc h hd (e := 245) (by decide +kernel)
  obtain ⟨y, h1, h2⟩ := hy 600 (by rw [hl]; decide) (by norm_num)
  refine ⟨_, h, y, h1, ?_⟩
  rw [zero_mul, zero_add, Real.cos_pi_div_three] at h2
  exact h2

/-- The same, downsampled by 8 with 16 bits. -/
example : ∃ q, (cfg .down 8 16 true .fir).session [Op.process (call32 (fun _ => 1 / 2) 1024 128)] = .ok q ∧
    ∃ y : ℚ, seq ((cfg .down 8 16 true .fir).produced [Op.process (call32 (fun _ => 1 / 2) 1024 128)] q.2) 38 = Fl.fin y ∧
      |(y : ℝ) - 1 / 2| ≤ 1 / 20000 := by
  have hv : (cfg .down 8 16 true .fir).Valid := ⟨by decide, by decide, by decide⟩
  have hc : ∀ op ∈ [Op.process (call32 (fun _ => 1 / 2) 1024 128)], (cfg .down 8 16 true .fir).OpOk op := by
    intro op hop
    simp only [List.mem_singleton] at hop
    subst hop
    exact ⟨by decide, by decide, by decide, by decide, by decide, by decide, by decide⟩
  have hf := fed_call32 (fun _ => 1 / 2) 1024 128
  obtain ⟨r, os, h, -⟩ := C04_output_frame (cfg .down 8 16 true .fir) hv _ hc
  have hl := Config.produced_length hv (Config.session_rel' hv hc h)
  rw [hf, List.length_map, List.length_range] at hl
  obtain ⟨d, hd, hy⟩ := C85_down_binary32 (cfg .down 8 16 true .fir) hv rfl rfl (by decide) _ hc r os h (half32 hf).1 0 (Real.pi / 3) (by
    rw [mul_zero, abs_zero]
    positivity) (half32 hf).2
  obtain rfl := delay_of hv hc h hd (e := 149 / 8) (by decide +kernel)
  obtain ⟨y, h1, h2⟩ := hy 38 (by rw [hl]; decide) (by norm_num)
  refine ⟨_, h, y, h1, ?_⟩
  rw [zero_mul, zero_add, Real.cos_pi_div_three] at h2
  exact h2

/-- The same, oversampled by 2 with 16 bits. -/
example : ∃ q, (cfg .up 2 16 true .fir).session [Op.process (call32 (fun _ => 1 / 2) 200 400)] = .ok q ∧
    ∃ ops' q', (cfg .down 2 16 true .fir).session ops' = .ok q' ∧
      fed ops' = (cfg .up 2 16 true .fir).produced [Op.process (call32 (fun _ => 1 / 2) 200 400)] q.2 ∧
      ∃ y : ℚ, seq ((cfg .down 2 16 true .fir).produced ops' q'.2) 63 = Fl.fin y ∧ |(y : ℝ) - 1 / 2| ≤ 1 / 20000 := by
  have hv : (cfg .up 2 16 true .fir).Valid := ⟨by decide, by decide, by decide⟩
  have hv' : (cfg .down 2 16 true .fir).Valid := ⟨by decide, by decide, by decide⟩
  obtain ⟨q, hc, h, ops', q', hc', h', hfed, hl⟩ := chainF32 (cfg .up 2 16 true .fir) (cfg .down 2 16 true .fir) hv hv' (fun _ => 1 / 2)
    200 400 200 (by decide) ⟨by decide, by decide, by decide, by decide, by decide, by decide, by decide⟩
    ⟨by decide, by decide, by decide, by decide, by decide, by decide, by decide⟩
  have hf := fed_call32 (fun _ => 1 / 2) 200 400
  obtain ⟨du, dd, hdu, hdd, hy⟩ := C85_over_binary32_partial (cfg .up 2 16 true .fir) (cfg .down 2 16 true .fir) hv hv' rfl rfl rfl rfl rfl
    (by decide) (by decide) rfl _ hc q.1 q.2 h _ hc' q'.1 q'.2 h' hfed (half32 hf).1 0 (Real.pi / 3) zero_low (half32 hf).2
  obtain rfl := delay_of hv hc h hdu (e := 31) (by decide +kernel)
  obtain rfl := delay_of hv' hc' h' hdd (e := 31 / 2) (by decide +kernel)
  obtain ⟨y, h1, h2⟩ := hy 63 (by rw [hl]; decide) (by norm_num [cfg])
  refine ⟨_, h, _, _, h', hfed, y, h1, ?_⟩
  rw [zero_mul, zero_add, Real.cos_pi_div_three] at h2
  exact h2

end Panda
