import Verif.Proofs.ThresholdFalse

/-!
# The thresholds of the accuracy tests hold at which frequencies? (C78)

tests/testresampler.cc compares resampled sinusoids with ideal ones, at frequencies that are multiples of 50 Hz (25 Hz for downsampling),
and demands that the difference stays below a threshold for every precision (`level (testDb2 ...)`).
-/

namespace Panda

open Examples Finset

private theorem exact_numbers : ∀ m ∈ [Mode.up, Mode.down], ∀ p ∈ [8, 12, 16, 20, 24], ∀ sse : Bool,
    ((sineNano m 2 p : ℚ) / 10 ^ 9) ^ 40 * 10 ^ testDb2 sse m p ≤ 1 := by decide +kernel

private theorem mem_bits {cfg : Config} (hv : cfg.Valid) (hp : cfg.precision ≠ 1) : cfg.precision ∈ [8, 12, 16, 20, 24] := by
  have := hv.precision
  simp only [List.mem_cons, List.not_mem_nil, or_false] at this ⊢
  omega

private theorem tone_one (w p s : ℝ) : tones [(1, w, p)] s = Real.cos (w * s + p) := by simp [tones]

theorem test_exact_le {cfg : Config} (hv : cfg.Valid) (hp : cfg.precision ≠ 1) (m : Mode) (sse : Bool) :
    (sineNano m 2 cfg.precision : ℝ) / 10 ^ 9 ≤ level (testDb2 sse m cfg.precision) := by
  have := le_level (exact_numbers m (by cases m <;> simp) _ (mem_bits hv hp) sse)
  push_cast at this
  exact this

section real

variable [Sample ℝ] [Accurate ℝ]

/-- **C78** In exact arithmetic the thresholds hold at every frequency up to 18 kHz, at every phase, for all block sizes and alignments,
as soon as the filter is filled (`N`: where the sinusoid begins). The coefficients may be rounded to `float`. -/
theorem C78_exact_up (cfg : Config) (hv : cfg.Valid) (hf : cfg.filter = .fir) (hm : cfg.mode = .up) (h2 : cfg.ratio = 2)
    (hp : cfg.precision ≠ 1) (ops : List (Op ℝ)) (hc : ∀ op ∈ ops, cfg.OpOk op) (r : Resampler ℝ) (os : List (Option (Buf ℝ)))
    (h : cfg.session ops = .ok (r, os)) (w p : ℝ) (hw : |w| ≤ testEdge .up) (N : ℕ)
    (hN : ∀ i, N ≤ i → i < (fed ops).length → seq (fed ops) i = Real.cos (w * i + p)) (sse : Bool) :
    ∃ d : ℚ, r.delay = .ok d ∧ ∀ n < (cfg.produced ops os).length, 2 * (N + 63) ≤ n →
      |seq (cfg.produced ops os) n - Real.cos (w * ((n - d) / 2) + p)| ≤ level (testDb2 sse .up cfg.precision) := by
  obtain ⟨d, h3, h4⟩ := C39_passband_up cfg hv hf hm ops hc r os h [(1, w, p)] (by simpa [testEdge] using hw) 0 le_rfl N (by
    intro i h5 h6
    rw [tone_one, hN i h5 h6]
    simp)
  refine ⟨d, h3, fun n hn hs => ?_⟩
  have := h4 n hn (by rw [h2]; exact hs)
  rw [tone_one, h2] at this
  refine this.trans ?_
  have e := test_exact_le hv hp .up sse
  simpa [amps] using e

/-- **C78** The same for downsampling, up to 9 kHz. -/
theorem C78_exact_down (cfg : Config) (hv : cfg.Valid) (hf : cfg.filter = .fir) (hm : cfg.mode = .down) (h2 : cfg.ratio = 2)
    (hp : cfg.precision ≠ 1) (ops : List (Op ℝ)) (hc : ∀ op ∈ ops, cfg.OpOk op) (r : Resampler ℝ) (os : List (Option (Buf ℝ)))
    (h : cfg.session ops = .ok (r, os)) (w p : ℝ) (hw : |w| ≤ testEdge .down) (N : ℕ)
    (hN : ∀ i, N ≤ i → i < (fed ops).length → seq (fed ops) i = Real.cos (w * i + p)) (sse : Bool) :
    ∃ d : ℚ, r.delay = .ok d ∧ ∀ n < (cfg.produced ops os).length, N / 2 + 65 ≤ n →
      |seq (cfg.produced ops os) n - Real.cos (w * (2 * (n - d)) + p)| ≤ level (testDb2 sse .down cfg.precision) := by
  obtain ⟨d, h3, h4⟩ := C40_pass_stop_down cfg hv hf hm ops hc r os h [(1, w, p)] [] (by
    rw [h2]
    unfold testEdge at hw
    simp only [List.mem_cons, List.not_mem_nil, or_false, forall_eq, abs_mul]
    norm_num
    linarith) (by simp) 0 le_rfl N (by
    intro i h5 h6
    rw [tone_one, hN i h5 h6]
    simp [tones])
  refine ⟨d, h3, fun n hn hs => ?_⟩
  have := h4 n hn (by rw [h2]; exact hs)
  rw [tone_one, h2] at this
  refine this.trans ?_
  have e := test_exact_le hv hp .down sse
  simpa [amps] using e

end real

/-! ## binary32 -/

private theorem rounded_numbers :
    ((sineNano .up 2 8 : ℚ) / 10 ^ 9 + gainMilli .up 2 8 / 1000 * 2⁻¹ ^ 25 + (rndNano .up 2 8 / 10 ^ 9 + 2⁻¹ ^ 140)) ^ 40 *
      10 ^ testDb2 true .up 8 ≤ 1 ∧
    ∀ p ∈ [8, 12], ((sineNano .down 2 p : ℚ) / 10 ^ 9 + gainMilli .down 2 p / 1000 * 2⁻¹ ^ 25 + (rndNano .down 2 p / 10 ^ 9 + 2⁻¹ ^ 140)) ^ 40 *
      10 ^ testDb2 true .down p ≤ 1 := by decide +kernel

/-- **C78, what holds** for binary32 samples and arithmetic: with 8 bits the threshold for upsampling holds at every frequency, whatever the
phase, the block sizes and the alignments, with SSE or without. The samples need not be rounded correctly, `2^-25` is half a unit in the last
place. Missing: 12 and 16 bits; 20 and 24 bits are false. -/
theorem C78_binary32_up_partial (cfg : Config) (hv : cfg.Valid) (hf : cfg.filter = .fir) (hm : cfg.mode = .up) (h2 : cfg.ratio = 2)
    (hp : cfg.precision = 8) (ops : List (Op F32)) (hc : ∀ op ∈ ops, cfg.OpOk op) (r : Resampler F32) (os : List (Option (Buf F32)))
    (h : cfg.session ops = .ok (r, os)) (w p : ℝ) (hw : |w| ≤ testEdge .up)
    (hx : ∀ v ∈ fed ops, ∃ q, v = Fl.fin q ∧ |q| ≤ 1) (N : ℕ)
    (hN : ∀ i, N ≤ i → i < (fed ops).length → |(((seq (fed ops) i).val : ℚ) : ℝ) - Real.cos (w * i + p)| ≤ 2⁻¹ ^ 25) :
    ∃ d : ℚ, r.delay = .ok d ∧ ∀ n < (cfg.produced ops os).length, 2 * (N + 63) ≤ n →
      ∃ y : ℚ, seq (cfg.produced ops os) n = Fl.fin y ∧ |(y : ℝ) - Real.cos (w * ((n - d) / 2) + p)| ≤ level (testDb2 true .up 8) := by
  obtain ⟨d, h3, h4⟩ := C39_passband_up_binary32 cfg hv hf hm ops hc r os h 1 (by norm_num) hx [(1, w, p)] (by simpa [testEdge] using hw)
    (2⁻¹ ^ 25) (by positivity) N (by
    intro i h5 h6
    rw [tone_one]
    exact hN i h5 h6)
  refine ⟨d, h3, fun n hn hs => ?_⟩
  obtain ⟨y, h5, h6⟩ := h4 n hn (by rw [h2]; exact hs)
  refine ⟨y, h5, ?_⟩
  rw [tone_one, h2, hp] at h6
  refine h6.trans ?_
  have e := le_level rounded_numbers.1
  push_cast at e
  simpa [amps] using e

/-- **C78, what holds** for binary32 samples and arithmetic: downsampling with 8 and 12 bits. Missing: 16 bits; 20 and 24 bits are false. -/
theorem C78_binary32_down_partial (cfg : Config) (hv : cfg.Valid) (hf : cfg.filter = .fir) (hm : cfg.mode = .down) (h2 : cfg.ratio = 2)
    (hp : cfg.precision ∈ [8, 12]) (ops : List (Op F32)) (hc : ∀ op ∈ ops, cfg.OpOk op) (r : Resampler F32) (os : List (Option (Buf F32)))
    (h : cfg.session ops = .ok (r, os)) (w p : ℝ) (hw : |w| ≤ testEdge .down)
    (hx : ∀ v ∈ fed ops, ∃ q, v = Fl.fin q ∧ |q| ≤ 1) (N : ℕ)
    (hN : ∀ i, N ≤ i → i < (fed ops).length → |(((seq (fed ops) i).val : ℚ) : ℝ) - Real.cos (w * i + p)| ≤ 2⁻¹ ^ 25) :
    ∃ d : ℚ, r.delay = .ok d ∧ ∀ n < (cfg.produced ops os).length, N / 2 + 65 ≤ n →
      ∃ y : ℚ, seq (cfg.produced ops os) n = Fl.fin y ∧
        |(y : ℝ) - Real.cos (w * (2 * (n - d)) + p)| ≤ level (testDb2 true .down cfg.precision) := by
  obtain ⟨d, h3, h4⟩ := C40_pass_stop_down_binary32 cfg hv hf hm ops hc r os h 1 (by norm_num) hx [(1, w, p)] [] (by
    rw [h2]
    unfold testEdge at hw
    simp only [List.mem_cons, List.not_mem_nil, or_false, forall_eq, abs_mul]
    norm_num
    linarith) (by simp) (2⁻¹ ^ 25) (by positivity) N (by
    intro i h5 h6
    rw [tone_one]
    simpa [tones] using hN i h5 h6)
  refine ⟨d, h3, fun n hn hs => ?_⟩
  obtain ⟨y, h5, h6⟩ := h4 n hn (by rw [h2]; exact hs)
  refine ⟨y, h5, ?_⟩
  rw [tone_one, h2] at h6
  refine h6.trans ?_
  have e := le_level (rounded_numbers.2 _ hp)
  push_cast at e
  simpa [amps] using e

/-! ## Too inaccurate for 20 and 24 bits -/

/-- Which configurations fail. -/
private def Fails (cfg : Config) : Prop := cfg.precision = 20 ∨ cfg.precision = 24 ∧ cfg.vec = false

private theorem Fails.bits {cfg : Config} (h : Fails cfg) : cfg.precision ∈ [20, 24] := by
  rcases h with h | ⟨h, -⟩ <;> rw [h] <;> decide

private theorem Fails.table {cfg : Config} (h : Fails cfg) : firTable 2 cfg.precision = some (tab 2 cfg.precision) := by
  rcases h with h | ⟨h, -⟩ <;> rw [h] <;> rfl

private theorem mode_mem (m : Mode) : m ∈ [Mode.up, Mode.down] := by cases m <;> decide

/-- Every evaluation order the configuration may use gives a result that is off by more than the threshold. -/
private theorem fails_off {cfg : Config} (h : Fails cfg) (m : Mode) (o : Option ℕ) (ho : ∀ k, o = some k → cfg.vec = true ∧ k < 4) :
    ∃ y, thrOut m cfg.precision o = Fl.fin y ∧
      level (testDb2 cfg.vec m cfg.precision) < |(y : ℝ) - ((thrWave m cfg.precision).c0 : ℚ)| := by
  have h0 := (thr_wave m (mode_mem m) _ h.bits).2.2.2.2.2.2.2.1
  have key : offBy (thrOut m cfg.precision o) (thrWave m cfg.precision).c0 (thrRat m cfg.precision) = true ∧
      1 ≤ thrRat m cfg.precision ^ 40 * 10 ^ testDb2 cfg.vec m cfg.precision := by
    obtain ⟨c1, c2⟩ := thr_check m (mode_mem m)
    obtain ⟨l1, l2, l3⟩ := thr_level m (mode_mem m)
    rcases h with h | ⟨h, h'⟩
    · rw [h]
      refine ⟨c1 o ?_, by cases cfg.vec <;> assumption⟩
      match o, ho with
      | none, _ => decide
      | some k, ho =>
        have := (ho k rfl).2
        have : k = 0 ∨ k = 1 ∨ k = 2 ∨ k = 3 := by omega
        rcases this with rfl | rfl | rfl | rfl <;> decide
    · rw [h, h']
      refine ⟨?_, l3⟩
      match o, ho with
      | none, _ => exact c2
      | some k, ho =>
        have := (ho k rfl).1
        rw [h'] at this
        cases this
  obtain ⟨y, y1, y2⟩ := offBy_iff key.1
  refine ⟨y, y1, (level_le h0 key.2).trans_lt ?_⟩
  exact_mod_cast y2

/-- The angles of the sinusoid. -/
private theorem wave_angles {cfg : Config} (h : Fails cfg) (m : Mode) : ∃ a b : ℝ, |a| ≤ testEdge .down ∧
    (∀ e : ℤ, (((thrWave m cfg.precision).at e : ℚ) : ℝ) = Real.cos (b + e * a)) ∧ Real.cos b = ((thrWave m cfg.precision).c0 : ℚ) := by
  obtain ⟨w1, w2, w3, w4, w5, w6, -⟩ := thr_wave m (mode_mem m) _ h.bits
  obtain ⟨a1, a2, a3, a4⟩ := arccos_facts (by linarith) w4 w1
  obtain ⟨b1, b2, -, -⟩ := arccos_facts w5 w6 w2
  refine ⟨_, _, ?_, fun e => ratTone_eq a1 a2 b1 b2 e, b1⟩
  rw [abs_of_nonneg a3]
  refine a4.trans ?_
  unfold testEdge
  have : (289 / 1000 : ℝ) ≤ ((thrWave m cfg.precision).s : ℚ) := by
    have := (Rat.cast_le (K := ℝ)).2 w3
    push_cast at this
    exact this
  have := Real.pi_lt_d4
  norm_num
  linarith

/-- A `FirVal` of the rounded sinusoid is one of its dot products. -/
private theorem firVal_wave {vec : Bool} {t : List F32} {X : ℕ → F32} {N m : ℕ} {v : F32} (hf : FirVal vec (seq t) t.length X N m v)
    (ht : 2 ≤ t.length) (ht6 : t.length < 60) (W : Wave)
    (hX : ∀ j, t.length - 1 ≤ j → j < N → X j = W.at32 (2 * ((j : ℤ) - m) - (t.length - 1 : ℕ))) (hm' : t.length + 3 ≤ m) (hN : m + t.length ≤ N) :
    ∃ o : Option ℕ, (∀ k, o = some k → vec = true ∧ k < 4) ∧ v = W.dot t o := by
  rcases hf with h | ⟨hv, k, hk, hkm, hkN, h⟩
  · refine ⟨none, by simp, ?_⟩
    rw [h]
    unfold Wave.dot
    refine firScalar_congr_lt fun i hi => ?_
    rw [hX _ (by omega) (by omega)]
    congr 2
    push_cast
    ring
  · refine ⟨some k, fun k' hk' => by cases hk'; exact ⟨hv, hk⟩, ?_⟩
    rw [h]
    unfold Wave.dot
    refine firVector_congr fun i hi => ?_
    rw [hX _ (by omega) (by omega)]
    congr 2
    push_cast [Nat.cast_sub hkm]
    ring

/-- **C78 is false with 20 bits**, upsampling, with SSE and without, **and with 24 bits without SSE**: for every output sample with an
even number from 126 on there is a sinusoid below 18 kHz that is missed by more than the threshold at this sample. The input is the
sinusoid, rounded to `float`; sizes of the blocks and alignments do not matter. (24 bits with SSE: not decided.) -/
theorem C78_false_up (cfg : Config) (hv : cfg.Valid) (hf : cfg.filter = .fir) (hm : cfg.mode = .up) (h2 : cfg.ratio = 2)
    (hp : cfg.precision = 20 ∨ cfg.precision = 24 ∧ cfg.vec = false) (m : ℕ) (hm60 : 63 ≤ m) :
    ∃ (w p : ℝ) (x : ℕ → ℚ), |w| ≤ testEdge .up ∧ (∀ i, (x i : ℝ) = Real.cos (w * i + p)) ∧
      ∀ (ops : List (Op F32)), (∀ op ∈ ops, cfg.OpOk op) → ∀ (r : Resampler F32) (os : List (Option (Buf F32))),
        cfg.session ops = .ok (r, os) → ∀ N, fed ops = (List.range N).map (fun i => Fl.fin (rnd32 (x i))) → m < N →
        ∃ d : ℚ, r.delay = .ok d ∧ ∃ y : ℚ, seq (cfg.produced ops os) (2 * m) = Fl.fin y ∧
          level (testDb2 cfg.vec .up cfg.precision) < |(y : ℝ) - Real.cos (w * (((2 * m : ℕ) - d) / 2) + p)| := by
  have hF : Fails cfg := hp
  have hT := hF.table
  obtain ⟨a, b, ha, hW, hb⟩ := wave_angles hF .up
  obtain ⟨-, -, -, -, -, -, hO6, -, hO2, hO⟩ := thr_wave .up (mode_mem _) _ hF.bits
  generalize hOd : (tab 2 cfg.precision).length = O at *
  refine ⟨2 * a, b - a * (2 * m - (O - 1 : ℕ)), fun i => (thrWave .up cfg.precision).at (2 * ((i : ℤ) - m) + (O - 1 : ℕ)), ?_, ?_, ?_⟩
  · unfold testEdge at ha ⊢
    rw [abs_mul]
    norm_num
    linarith
  · intro i
    rw [hW]
    congr 1
    push_cast
    ring
  · intro ops hc r os h N hfed hN
    have hd := Config.Reachable.delay hv ⟨ops, os, hc, h⟩
    have hdel : cfg.totalDelay = ((O - 1 : ℕ) : ℚ) := by
      simp [Config.totalDelay, hm, h2, Config.stageDelay, hf, hT, hOd]
    refine ⟨_, hd, ?_⟩
    have hrel := Config.session_rel' hv hc h
    rw [Config.stages_two h2] at hrel
    simp only [Config.stage, hf, hm, hT] at hrel
    obtain ⟨ys, hr, hz⟩ := hrel
    have hz : cfg.produced ops os = ys := hz
    have hlen : (fed ops).length = N := by rw [hfed]; simp
    have hout := (hr.2 m (by rw [hlen]; exact hN)).1
    have hl : ((tab 2 cfg.precision).map fun d => (Sample.ofDouble (d.toRat * 2) : F32)).length = O := by rw [List.length_map, hOd]
    obtain ⟨o, ho, ho'⟩ := firVal_wave hout (by rw [hl]; exact hO) (by rw [hl]; exact hO6) (thrWave .up cfg.precision) (by
      intro j h5 h6
      rw [hl] at h5 h6 ⊢
      rw [padded, if_neg (by omega), hfed]
      have h7 : j - (O - 1) < N := by omega
      simp only [seq, List.getD_eq_getElem?_getD, List.getElem?_map, List.getElem?_range h7, Option.map_some, Option.getD_some]
      show Fl.fin (rnd32 _) = Fl.fin (rnd32 _)
      congr 3
      push_cast [Nat.cast_sub h5]
      ring) (by rw [hl]; omega) (by rw [hl, hlen]; omega)
    obtain ⟨y, y1, y2⟩ := fails_off hF .up o ho
    refine ⟨y, by rw [hz, ho']; exact y1, ?_⟩
    rw [hdel]
    convert y2 using 3
    rw [← hb]
    congr 1
    push_cast
    ring

/-- **C78 is false with 20 bits**, downsampling, with SSE and without, **and with 24 bits without SSE**: sinusoids below 9 kHz. -/
theorem C78_false_down (cfg : Config) (hv : cfg.Valid) (hf : cfg.filter = .fir) (hm : cfg.mode = .down) (h2 : cfg.ratio = 2)
    (hp : cfg.precision = 20 ∨ cfg.precision = 24 ∧ cfg.vec = false) (m : ℕ) (hm60 : 63 ≤ m) :
    ∃ (w p : ℝ) (x : ℕ → ℚ), |w| ≤ testEdge .down ∧ (∀ i, (x i : ℝ) = Real.cos (w * i + p)) ∧
      ∀ (ops : List (Op F32)), (∀ op ∈ ops, cfg.OpOk op) → ∀ (r : Resampler F32) (os : List (Option (Buf F32))),
        cfg.session ops = .ok (r, os) → ∀ N, fed ops = (List.range (2 * N)).map (fun i => Fl.fin (rnd32 (x i))) → m < N →
        ∃ d : ℚ, r.delay = .ok d ∧ ∃ y : ℚ, seq (cfg.produced ops os) m = Fl.fin y ∧
          level (testDb2 cfg.vec .down cfg.precision) < |(y : ℝ) - Real.cos (w * (2 * (m - d)) + p)| := by
  have hF : Fails cfg := hp
  have hT := hF.table
  obtain ⟨a, b, ha, hW, hb⟩ := wave_angles hF .down
  obtain ⟨-, -, -, -, -, -, hO6, -, hO2, hO⟩ := thr_wave .down (mode_mem _) _ hF.bits
  generalize hOd : (tab 2 cfg.precision).length = O at *
  obtain ⟨H, hH⟩ : ∃ H, O = 2 * H := ⟨O / 2, by omega⟩
  refine ⟨a, b - a * (2 * (m - H) + 1), fun i => (thrWave .down cfg.precision).at ((i : ℤ) - (2 * (m - H) + 1)), ha, ?_, ?_⟩
  · intro i
    rw [hW]
    congr 1
    push_cast
    ring
  · intro ops hc r os h N hfed hN
    have hd := Config.Reachable.delay hv ⟨ops, os, hc, h⟩
    have hdel : cfg.totalDelay = (H : ℚ) - 1 / 2 := by
      simp [Config.totalDelay, hm, h2, Config.stageDelay, hf, hT, hOd, hH]
    refine ⟨_, hd, ?_⟩
    have hrel := Config.session_rel' hv hc h
    rw [Config.stages_two h2] at hrel
    simp only [Config.stage, hf, hm, hT] at hrel
    obtain ⟨ys, hr, hz⟩ := hrel
    have hz : cfg.produced ops os = ys := hz
    have hlen : (fed ops).length = 2 * N := by rw [hfed]; simp
    have hly : ys.length = N := by have := hr.1; omega
    have hseq : ∀ i < 2 * N, seq (fed ops) i = (thrWave .down cfg.precision).at32 ((i : ℤ) - (2 * (m - H) + 1)) := by
      intro i hi
      rw [hfed]
      simp only [seq, List.getD_eq_getElem?_getD, List.getElem?_map, List.getElem?_range hi, Option.map_some, Option.getD_some]
      rfl
    obtain ⟨v, hv1, hv2⟩ := hr.2 m (by rw [hly]; exact hN)
    have hl : ((tab 2 cfg.precision).map fun d => (Sample.ofDouble (d.toRat * 1) : F32)).length = O := by rw [List.length_map, hOd]
    obtain ⟨o, ho, ho'⟩ := firVal_wave hv1 (by rw [hl]; exact hO) (by rw [hl]; exact hO6) (thrWave .down cfg.precision) (by
      intro j h5 h6
      rw [hl] at h5 h6 ⊢
      rw [padded, if_neg (by omega)]
      unfold evens
      rw [hseq _ (by omega)]
      congr 1
      push_cast [Nat.cast_sub h5]
      omega) (by rw [hl]; omega) (by rw [hl, hly]; omega)
    have hmid : padded O (odds (seq (fed ops))) (m + (O / 2 - 1)) = (thrWave .down cfg.precision).at32 0 := by
      rw [padded, if_neg (by omega)]
      unfold odds
      rw [hseq _ (by omega)]
      congr 1
      omega
    obtain ⟨y, y1, y2⟩ := fails_off hF .down o ho
    refine ⟨y, ?_, ?_⟩
    · rw [hz, hv2, ho', hl, hmid]
      exact y1
    · rw [hdel]
      convert y2 using 3
      rw [← hb]
      congr 1
      push_cast
      ring

/-! ## The hypotheses are met -/

/-- C78 for a real session in exact arithmetic: 16 bits, `cos (2 i + 1)` (14 kHz), output sample 150. -/
example : ∃ q, (cfg .up 2 16 true .fir).session [Op.process (realCall (fun i => Real.cos (2 * i + 1)) 100 200)] = .ok q ∧
    ∃ d : ℚ, q.1.delay = .ok d ∧ |seq ((cfg .up 2 16 true .fir).produced
      [Op.process (realCall (fun i => Real.cos (2 * i + 1)) 100 200)] q.2) 150 - Real.cos (2 * ((150 - d) / 2) + 1)| ≤ level 178 := by
  have := accurate_real
  have hv : (cfg .up 2 16 true .fir).Valid := ⟨by decide, by decide, by decide⟩
  have hc := opOk_realCall (cfg .up 2 16 true .fir) (fun i => Real.cos (2 * i + 1)) 100 200
    ⟨by decide, by decide, by decide, by decide, by decide, by decide, by decide⟩
  obtain ⟨f1, f2⟩ := fed_realCall (fun i => Real.cos (2 * i + 1)) 100 200
  obtain ⟨r, os, h, -⟩ := C04_output_frame (cfg .up 2 16 true .fir) hv _ hc
  have hl := (Config.session_op hv hc h).1
  rw [f1] at hl
  replace hl : ((cfg .up 2 16 true .fir).produced [Op.process (realCall (fun i => Real.cos (2 * i + 1)) 100 200)] os).length = 200 := hl
  obtain ⟨d, hd, hy⟩ := C78_exact_up (cfg .up 2 16 true .fir) hv rfl rfl rfl (by decide) _ hc r os h 2 1
    (by unfold testEdge; norm_num; linarith [Real.pi_gt_d2]) 0 (fun i _ hi => f2 i (hi.trans_eq f1)) true
  exact ⟨_, h, d, hd, hy 150 (by rw [hl]; norm_num) (by norm_num)⟩

/-- Downsampling: 24 bits, `cos (i + 1)`. -/
example : ∃ q, (cfg .down 2 24 true .fir).session [Op.process (realCall (fun i => Real.cos (1 * i + 1)) 200 100)] = .ok q ∧
    ∃ d : ℚ, q.1.delay = .ok d ∧ |seq ((cfg .down 2 24 true .fir).produced
      [Op.process (realCall (fun i => Real.cos (1 * i + 1)) 200 100)] q.2) 80 - Real.cos (1 * (2 * (80 - d)) + 1)| ≤ level 260 := by
  have := accurate_real
  have hv : (cfg .down 2 24 true .fir).Valid := ⟨by decide, by decide, by decide⟩
  have hc := opOk_realCall (cfg .down 2 24 true .fir) (fun i => Real.cos (1 * i + 1)) 200 100
    ⟨by decide, by decide, by decide, by decide, by decide, by decide, by decide⟩
  obtain ⟨f1, f2⟩ := fed_realCall (fun i => Real.cos (1 * i + 1)) 200 100
  obtain ⟨r, os, h, -⟩ := C04_output_frame (cfg .down 2 24 true .fir) hv _ hc
  have hl := (Config.session_op hv hc h).1
  rw [f1] at hl
  replace hl : ((cfg .down 2 24 true .fir).produced [Op.process (realCall (fun i => Real.cos (1 * i + 1)) 200 100)] os).length = 100 := hl
  obtain ⟨d, hd, hy⟩ := C78_exact_down (cfg .down 2 24 true .fir) hv rfl rfl rfl (by decide) _ hc r os h 1 1
    (by unfold testEdge; norm_num; linarith [Real.pi_gt_d2]) 0 (fun i _ hi => f2 i (hi.trans_eq f1)) true
  exact ⟨_, h, d, hd, hy 80 (by rw [hl]; norm_num) (by norm_num)⟩

/-- A call with `n` samples `x i`, rounded to `float`. -/
def waveCall (x : ℕ → ℚ) (n m : ℕ) : Call F32 :=
  { st := { block16 := 5, tmpAddr := 4, tmp2Addr := 8, junk := fun _ => 0 },
    input := { addr := 4, len := n, get := fun i => Fl.fin (rnd32 (x i)) }, n := n, output := { addr := 100, len := m, get := fun _ => 0 } }

private theorem opOk_waveCall (c : Config) (x : ℕ → ℚ) (n m : ℕ) (h : c.CallOk (waveCall (fun _ => 0) n m)) :
    ∀ op ∈ [Op.process (waveCall x n m)], c.OpOk op := by
  intro op hop
  simp only [List.mem_cons, List.not_mem_nil, or_false] at hop
  subst hop
  exact ⟨h.uint, h.input, h.output, h.mul, h.large, h.nonempty, h.behind⟩

private theorem fed_waveCall (x : ℕ → ℚ) (n m : ℕ) :
    fed [Op.process (waveCall x n m)] = (List.range n).map fun i => Fl.fin (rnd32 (x i)) := rfl

private theorem seq_waveCall (x : ℕ → ℚ) (n m i : ℕ) (hi : i < n) :
    seq (fed [Op.process (waveCall x n m)]) i = Fl.fin (rnd32 (x i)) := by
  rw [fed_waveCall]
  simp [seq, List.getD_eq_getElem?_getD, hi]

/-- The upsampler with 8 bits and a constant (the sinusoid of frequency 0), with SSE. -/
example : ∃ q, (cfg .up 2 8 true .fir).session [Op.process (waveCall (fun _ => 1) 100 200)] = .ok q ∧
    ∃ y : ℚ, seq ((cfg .up 2 8 true .fir).produced [Op.process (waveCall (fun _ => 1) 100 200)] q.2) 150 = Fl.fin y ∧
      |(y : ℝ) - 1| ≤ level 88 := by
  have hv : (cfg .up 2 8 true .fir).Valid := ⟨by decide, by decide, by decide⟩
  have hc := opOk_waveCall (cfg .up 2 8 true .fir) (fun _ => 1) 100 200
    ⟨by decide, by decide, by decide, by decide, by decide, by decide, by decide⟩
  have r1 : rnd32 1 = 1 := by decide +kernel
  obtain ⟨r, os, h, -⟩ := C04_output_frame (cfg .up 2 8 true .fir) hv _ hc
  have hl := Config.produced_length hv (Config.session_rel' hv hc h)
  obtain ⟨d, -, hy⟩ := C78_binary32_up_partial (cfg .up 2 8 true .fir) hv rfl rfl rfl rfl _ hc r os h 0 0
    (by unfold testEdge; norm_num; positivity) (by
      intro v hv
      rw [fed_waveCall] at hv
      simp only [List.mem_map, r1] at hv
      obtain ⟨_, _, rfl⟩ := hv
      exact ⟨1, rfl, by norm_num⟩) 0 (by
      intro i _ hi
      rw [fed_waveCall, List.length_map, List.length_range] at hi
      rw [seq_waveCall _ _ _ _ hi, r1]
      simp [Fl.val, Fl.fin])
  obtain ⟨y, y1, y2⟩ := hy 150 (by rw [hl]; decide) (by norm_num)
  refine ⟨_, h, y, y1, ?_⟩
  have e : level (testDb2 true .up 8) = level 88 := rfl
  rw [e] at y2
  simpa using y2

/-- The downsampler with 12 bits and `cos (0 i)`. -/
example : ∃ q, (cfg .down 2 12 true .fir).session [Op.process (waveCall (fun _ => 1) 200 100)] = .ok q ∧
    ∃ y : ℚ, seq ((cfg .down 2 12 true .fir).produced [Op.process (waveCall (fun _ => 1) 200 100)] q.2) 80 = Fl.fin y ∧
      |(y : ℝ) - 1| ≤ level 144 := by
  have hv : (cfg .down 2 12 true .fir).Valid := ⟨by decide, by decide, by decide⟩
  have hc := opOk_waveCall (cfg .down 2 12 true .fir) (fun _ => 1) 200 100
    ⟨by decide, by decide, by decide, by decide, by decide, by decide, by decide⟩
  have r1 : rnd32 1 = 1 := by decide +kernel
  obtain ⟨r, os, h, -⟩ := C04_output_frame (cfg .down 2 12 true .fir) hv _ hc
  have hl := Config.produced_length hv (Config.session_rel' hv hc h)
  obtain ⟨d, -, hy⟩ := C78_binary32_down_partial (cfg .down 2 12 true .fir) hv rfl rfl rfl (by decide) _ hc r os h 0 0
    (by unfold testEdge; norm_num; positivity) (by
      intro v hv
      rw [fed_waveCall] at hv
      simp only [List.mem_map, r1] at hv
      obtain ⟨_, _, rfl⟩ := hv
      exact ⟨1, rfl, by norm_num⟩) 0 (by
      intro i _ hi
      rw [fed_waveCall, List.length_map, List.length_range] at hi
      rw [seq_waveCall _ _ _ _ hi, r1]
      simp [Fl.val, Fl.fin])
  obtain ⟨y, y1, y2⟩ := hy 80 (by rw [hl, fed_waveCall, List.length_map, List.length_range]; decide) (by norm_num)
  refine ⟨_, h, y, y1, ?_⟩
  replace y2 : |(y : ℝ) - Real.cos (0 * (2 * ((80 : ℕ) - d)) + 0)| ≤ level 144 := y2
  simpa using y2

/-- Sessions with the witnesses exist: 20 bits with SSE, the threshold 113.5 dB is missed. -/
example : ∃ (w p : ℝ) (x : ℕ → ℚ) (q : _) (d y : ℚ), |w| ≤ testEdge .up ∧ (∀ i, (x i : ℝ) = Real.cos (w * i + p)) ∧
    (cfg .up 2 20 true .fir).session [Op.process (waveCall x 100 200)] = .ok q ∧ q.1.delay = .ok d ∧
    seq ((cfg .up 2 20 true .fir).produced [Op.process (waveCall x 100 200)] q.2) (2 * 90) = Fl.fin y ∧
    level 227 < |(y : ℝ) - Real.cos (w * (((2 * 90 : ℕ) - d) / 2) + p)| := by
  have hv : (cfg .up 2 20 true .fir).Valid := ⟨by decide, by decide, by decide⟩
  obtain ⟨w, p, x, h1, h2, h3⟩ := C78_false_up (cfg .up 2 20 true .fir) hv rfl rfl rfl (Or.inl rfl) 90 (by norm_num)
  have hc := opOk_waveCall (cfg .up 2 20 true .fir) x 100 200
    ⟨by decide, by decide, by decide, by decide, by decide, by decide, by decide⟩
  obtain ⟨r, os, h, -⟩ := C04_output_frame (cfg .up 2 20 true .fir) hv _ hc
  obtain ⟨d, h4, y, h5, h6⟩ := h3 _ hc r os h 100 (fed_waveCall _ _ _) (by norm_num)
  exact ⟨w, p, x, _, d, y, h1, h2, h, h4, h5, h6⟩

/-- 24 bits without SSE, downsampling, the threshold 130 dB is missed. -/
example : ∃ (w p : ℝ) (x : ℕ → ℚ) (q : _) (d y : ℚ), |w| ≤ testEdge .down ∧ (∀ i, (x i : ℝ) = Real.cos (w * i + p)) ∧
    (cfg .down 2 24 false .fir).session [Op.process (waveCall x 200 100)] = .ok q ∧ q.1.delay = .ok d ∧
    seq ((cfg .down 2 24 false .fir).produced [Op.process (waveCall x 200 100)] q.2) 90 = Fl.fin y ∧
    level 260 < |(y : ℝ) - Real.cos (w * (2 * ((90 : ℕ) - d)) + p)| := by
  have hv : (cfg .down 2 24 false .fir).Valid := ⟨by decide, by decide, by decide⟩
  obtain ⟨w, p, x, h1, h2, h3⟩ := C78_false_down (cfg .down 2 24 false .fir) hv rfl rfl rfl (Or.inr ⟨rfl, rfl⟩) 90 (by norm_num)
  have hc := opOk_waveCall (cfg .down 2 24 false .fir) x 200 100
    ⟨by decide, by decide, by decide, by decide, by decide, by decide, by decide⟩
  obtain ⟨r, os, h, -⟩ := C04_output_frame (cfg .down 2 24 false .fir) hv _ hc
  obtain ⟨d, h4, y, h5, h6⟩ := h3 _ hc r os h 100 (fed_waveCall _ _ _) (by norm_num)
  exact ⟨w, p, x, _, d, y, h1, h2, h, h4, h5, h6⟩

end Panda
