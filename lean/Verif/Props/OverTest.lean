import Verif.Props.RoundTrip

/-!
# The thresholds of the tests of oversampling and subsampling hold at which frequencies? (C84)

tests/testresampler.cc:875-884 resamples sinusoids up and down again (oversampling) or down and up again (subsampling), by a factor of 2, and
demands that the difference to the delayed sinusoid stays below a threshold: oversampling with 8 and 16 bits at multiples of 50 Hz up to 18 kHz,
subsampling with 16 bits at multiples of 25 Hz up to 9 kHz.
-/

namespace Panda

open Examples Finset

private def overQ (p : ℕ) : ℚ :=
  (1 + (sineNano .down 2 p : ℚ) / 10 ^ 9) * (1 + (sineNano .down 2 p : ℚ) / 10 ^ 9) - 1 + (stopNano 2 p : ℚ) / 10 ^ 9 * ((imgNano 2 p : ℚ) / 10 ^ 9)

private def subQ : ℚ := (1 + (sineNano .down 2 16 : ℚ) / 10 ^ 9) * (1 + (sineNano .up 2 16 : ℚ) / 10 ^ 9) - 1

private def over32Q : ℚ :=
  overQ 8 + (gainMilli .down 2 8 : ℚ) / 1000 * ((gainMilli .up 2 8 : ℚ) / 1000 * 2⁻¹ ^ 25) +
    ((gainMilli .down 2 8 : ℚ) / 1000 * ((rndNano .up 2 8 : ℚ) / 10 ^ 9 * 1 + 2⁻¹ ^ 140) +
      ((rndNano .down 2 8 : ℚ) / 10 ^ 9 * ((gainMilli .up 2 8 : ℚ) / 1000 * 1 + 2⁻¹ ^ 140) + 2⁻¹ ^ 140))

private theorem test_numbers : (∀ p ∈ [8, 16], overQ p ^ 40 * 10 ^ overDb2 p ≤ 1) ∧ subQ ^ 40 * 10 ^ subDb2 ≤ 1 ∧
    over32Q ^ 40 * 10 ^ overDb2 8 ≤ 1 := by decide +kernel

theorem test_over_le {p : ℕ} (hp : p ∈ [8, 16]) : overErr 2 p p ≤ level (overDb2 p) := by
  have := le_level (test_numbers.1 p hp)
  unfold overQ at this
  push_cast at this
  exact this

theorem test_sub_le : subErr 2 16 16 ≤ level subDb2 := by
  have := le_level test_numbers.2.1
  unfold subQ at this
  push_cast at this
  exact this

private theorem over32_le : overErr 2 8 8 + (gainMilli .down 2 8 : ℝ) / 1000 * ((gainMilli .up 2 8 : ℝ) / 1000 * 2⁻¹ ^ 25) + rndErr2 .up .down 2 8 8 1 ≤
    level (overDb2 8) := by
  have := le_level test_numbers.2.2
  unfold over32Q overQ at this
  push_cast at this
  exact this

private theorem tone_one (w p s : ℝ) : tones [(1, w, p)] s = Real.cos (w * s + p) := by simp [tones]

private theorem amps_one (w p : ℝ) : amps [(1, w, p)] = 1 := by simp [amps]

section real

variable [Sample ℝ] [Accurate ℝ]

/-- **C84** Oversampling in exact arithmetic: the thresholds hold at every frequency up to 18 kHz, at every phase, for all block sizes and
alignments, as soon as the filters are filled. The coefficients may be rounded to `float`. -/
theorem C84_over_exact (cu cd : Config) (hu : cu.Valid) (hd : cd.Valid) (hfu : cu.filter = .fir) (hfd : cd.filter = .fir)
    (hmu : cu.mode = .up) (hmd : cd.mode = .down) (h2 : cu.ratio = 2) (h2' : cd.ratio = 2)
    (hp : cu.precision ∈ [8, 16]) (hp' : cd.precision = cu.precision)
    (ops : List (Op ℝ)) (hc : ∀ op ∈ ops, cu.OpOk op) (r : Resampler ℝ) (os : List (Option (Buf ℝ)))
    (h : cu.session ops = .ok (r, os))
    (ops' : List (Op ℝ)) (hc' : ∀ op ∈ ops', cd.OpOk op) (r' : Resampler ℝ) (os' : List (Option (Buf ℝ)))
    (h' : cd.session ops' = .ok (r', os')) (hfed : fed ops' = cu.produced ops os)
    (w p : ℝ) (hw : |w| ≤ testEdge .up) (N : ℕ) (hN : ∀ i, N ≤ i → i < (fed ops).length → seq (fed ops) i = Real.cos (w * i + p)) :
    ∃ du dd : ℚ, r.delay = .ok du ∧ r'.delay = .ok dd ∧ ∀ m < (cd.produced ops' os').length, N + 128 ≤ m →
      |seq (cd.produced ops' os') m - Real.cos (w * (m - (du / 2 + dd)) + p)| ≤ level (overDb2 cu.precision) := by
  obtain ⟨du, dd, h3, h4, h5⟩ := C83_round_trip cu cd hu hd hfu hfd hmu hmd (h2'.trans h2.symm) ops hc r os h ops' hc' r' os' h' hfed
    [(1, w, p)] (by simpa [testEdge] using hw) 0 le_rfl N (by
    intro i h5 h6
    rw [tone_one, hN i h5 h6]
    simp)
  refine ⟨du, dd, h3, h4, fun m hm hs => ?_⟩
  have := h5 m hm hs
  rw [tone_one, amps_one, h2, hp', mul_one, mul_zero, mul_zero, add_zero] at this
  exact this.trans (test_over_le hp)

/-- **C84** Subsampling in exact arithmetic, up to 9 kHz. -/
theorem C84_sub_exact (cd cu : Config) (hd : cd.Valid) (hu : cu.Valid) (hfd : cd.filter = .fir) (hfu : cu.filter = .fir)
    (hmd : cd.mode = .down) (hmu : cu.mode = .up) (h2 : cd.ratio = 2) (h2' : cu.ratio = 2)
    (hp : cd.precision = 16) (hp' : cu.precision = 16)
    (ops : List (Op ℝ)) (hc : ∀ op ∈ ops, cd.OpOk op) (r : Resampler ℝ) (os : List (Option (Buf ℝ)))
    (h : cd.session ops = .ok (r, os))
    (ops' : List (Op ℝ)) (hc' : ∀ op ∈ ops', cu.OpOk op) (r' : Resampler ℝ) (os' : List (Option (Buf ℝ)))
    (h' : cu.session ops' = .ok (r', os')) (hfed : fed ops' = cd.produced ops os)
    (w p : ℝ) (hw : |w| ≤ testEdge .down) (N : ℕ) (hN : ∀ i, N ≤ i → i < (fed ops).length → seq (fed ops) i = Real.cos (w * i + p)) :
    ∃ dd du : ℚ, r.delay = .ok dd ∧ r'.delay = .ok du ∧ ∀ m < (cu.produced ops' os').length, N + 256 ≤ m →
      |seq (cu.produced ops' os') m - Real.cos (w * (m - (dd * 2 + du)) + p)| ≤ level subDb2 := by
  obtain ⟨du, dd, h3, h4, h5⟩ := C83_subsample cd cu hd hu hfd hfu hmd hmu (h2'.trans h2.symm) ops hc r os h ops' hc' r' os' h' hfed
    [(1, w, p)] (by
    rw [h2]
    unfold testEdge at hw
    simp only [List.mem_cons, List.not_mem_nil, or_false, forall_eq, abs_mul]
    norm_num
    linarith) 0 le_rfl N (by
    intro i h5 h6
    rw [tone_one, hN i h5 h6]
    simp)
  refine ⟨du, dd, h3, h4, fun m hm hs => ?_⟩
  have := h5 m hm (by rw [h2]; exact hs)
  rw [tone_one, amps_one, h2, hp, hp', mul_one, mul_zero, mul_zero, add_zero] at this
  exact this.trans test_sub_le

end real

/-- **C84, what holds** for binary32 samples and arithmetic: with 8 bits the threshold for oversampling holds at every frequency, whatever the
phase, the block sizes and the alignments, with SSE or without. Missing: 16 bits. -/
theorem C84_over_binary32_partial (cu cd : Config) (hu : cu.Valid) (hd : cd.Valid) (hfu : cu.filter = .fir) (hfd : cd.filter = .fir)
    (hmu : cu.mode = .up) (hmd : cd.mode = .down) (h2 : cu.ratio = 2) (h2' : cd.ratio = 2)
    (hp : cu.precision = 8) (hp' : cd.precision = 8)
    (ops : List (Op F32)) (hc : ∀ op ∈ ops, cu.OpOk op) (r : Resampler F32) (os : List (Option (Buf F32)))
    (h : cu.session ops = .ok (r, os))
    (ops' : List (Op F32)) (hc' : ∀ op ∈ ops', cd.OpOk op) (r' : Resampler F32) (os' : List (Option (Buf F32)))
    (h' : cd.session ops' = .ok (r', os')) (hfed : fed ops' = cu.produced ops os)
    (w p : ℝ) (hw : |w| ≤ testEdge .up) (hx : ∀ v ∈ fed ops, ∃ q, v = Fl.fin q ∧ |q| ≤ 1) (N : ℕ)
    (hN : ∀ i, N ≤ i → i < (fed ops).length → |(((seq (fed ops) i).val : ℚ) : ℝ) - Real.cos (w * i + p)| ≤ 2⁻¹ ^ 25) :
    ∃ du dd : ℚ, r.delay = .ok du ∧ r'.delay = .ok dd ∧ ∀ m < (cd.produced ops' os').length, N + 128 ≤ m →
      ∃ y : ℚ, seq (cd.produced ops' os') m = Fl.fin y ∧
        |(y : ℝ) - Real.cos (w * (m - (du / 2 + dd)) + p)| ≤ level (overDb2 8) := by
  obtain ⟨du, dd, h3, h4, h5⟩ := C83_round_trip_binary32 cu cd hu hd hfu hfd hmu hmd (h2'.trans h2.symm) ops hc r os h ops' hc' r' os' h' hfed
    1 (by norm_num) (by norm_num) hx [(1, w, p)] (by simpa [testEdge] using hw) (2⁻¹ ^ 25) (by positivity) N (by
    intro i h5 h6
    rw [tone_one]
    exact hN i h5 h6)
  refine ⟨du, dd, h3, h4, fun m hm hs => ?_⟩
  obtain ⟨y, h6, h7⟩ := h5 m hm hs
  refine ⟨y, h6, ?_⟩
  rw [tone_one, amps_one, h2, hp, hp', mul_one, Rat.cast_one] at h7
  exact h7.trans over32_le

/-! ## Examples -/

/-- 18 kHz, 16 bits, exact arithmetic, with and without SSE. -/
example : ∃ q, (cfg .up 2 16 true .fir).session [Op.process (realCall (fun i => Real.cos (40 * Real.pi / 49 * i + 1)) 200 400)] = .ok q ∧
    ∃ ops' q', (cfg .down 2 16 false .fir).session ops' = .ok q' ∧
      fed ops' = (cfg .up 2 16 true .fir).produced [Op.process (realCall (fun i => Real.cos (40 * Real.pi / 49 * i + 1)) 200 400)] q.2 ∧
    ∃ du dd : ℚ, q.1.delay = .ok du ∧ q'.1.delay = .ok dd ∧
      |seq ((cfg .down 2 16 false .fir).produced ops' q'.2) 199 - Real.cos (40 * Real.pi / 49 * (199 - (du / 2 + dd)) + 1)| ≤ level 178 := by
  have := accurate_real
  have hv : (cfg .up 2 16 true .fir).Valid := ⟨by decide, by decide, by decide⟩
  have hv' : (cfg .down 2 16 false .fir).Valid := ⟨by decide, by decide, by decide⟩
  have o1 : (cfg .up 2 16 true .fir).CallOk (realCall (fun _ => 0) 200 400) :=
    ⟨by decide, by decide, by decide, by decide, by decide, by decide, by decide⟩
  obtain ⟨q, h, ops', q', hc', h', hfed, hl⟩ := realChain (cfg .up 2 16 true .fir) (cfg .down 2 16 false .fir) hv hv'
    (fun i => Real.cos (40 * Real.pi / 49 * i + 1)) 200 400 200 (by decide) o1 ⟨by decide, by decide, by decide, by decide, by decide, by decide, by decide⟩
  obtain ⟨f1, f2⟩ := fed_realCall (fun i => Real.cos (40 * Real.pi / 49 * i + 1)) 200 400
  obtain ⟨du, dd, hdu, hdd, hy⟩ := C84_over_exact (cfg .up 2 16 true .fir) (cfg .down 2 16 false .fir) hv hv' rfl rfl rfl rfl rfl rfl (by decide) rfl _
    (opOk_realCall _ _ _ _ o1) q.1 q.2 h _ hc' q'.1 q'.2 h' hfed (40 * Real.pi / 49) 1 (by
    unfold testEdge
    rw [abs_of_pos (by positivity)]) 0 (by
    intro i _ hi
    rw [f2 i (hi.trans_eq f1)])
  refine ⟨_, h, ops', q', h', hfed, du, dd, hdu, hdd, ?_⟩
  have := hy 199 (by rw [hl]; decide) (by decide)
  push_cast at this
  exact this

/-- 5 kHz, 16 bits, exact arithmetic. -/
example : ∃ q, (cfg .down 2 16 true .fir).session [Op.process (realCall (fun i => Real.cos (100 * Real.pi / 441 * i + 1)) 400 200)] = .ok q ∧
    ∃ ops' q', (cfg .up 2 16 true .fir).session ops' = .ok q' ∧
      fed ops' = (cfg .down 2 16 true .fir).produced [Op.process (realCall (fun i => Real.cos (100 * Real.pi / 441 * i + 1)) 400 200)] q.2 ∧
    ∃ dd du : ℚ, q.1.delay = .ok dd ∧ q'.1.delay = .ok du ∧
      |seq ((cfg .up 2 16 true .fir).produced ops' q'.2) 399 - Real.cos (100 * Real.pi / 441 * (399 - (dd * 2 + du)) + 1)| ≤ level 171 := by
  have := accurate_real
  have hv : (cfg .down 2 16 true .fir).Valid := ⟨by decide, by decide, by decide⟩
  have hv' : (cfg .up 2 16 true .fir).Valid := ⟨by decide, by decide, by decide⟩
  have o1 : (cfg .down 2 16 true .fir).CallOk (realCall (fun _ => 0) 400 200) :=
    ⟨by decide, by decide, by decide, by decide, by decide, by decide, by decide⟩
  obtain ⟨q, h, ops', q', hc', h', hfed, hl⟩ := realChain (cfg .down 2 16 true .fir) (cfg .up 2 16 true .fir) hv hv'
    (fun i => Real.cos (100 * Real.pi / 441 * i + 1)) 400 200 400 (by decide) o1 ⟨by decide, by decide, by decide, by decide, by decide, by decide, by decide⟩
  obtain ⟨f1, f2⟩ := fed_realCall (fun i => Real.cos (100 * Real.pi / 441 * i + 1)) 400 200
  obtain ⟨du, dd, hdu, hdd, hy⟩ := C84_sub_exact (cfg .down 2 16 true .fir) (cfg .up 2 16 true .fir) hv hv' rfl rfl rfl rfl rfl rfl rfl rfl _
    (opOk_realCall _ _ _ _ o1) q.1 q.2 h _ hc' q'.1 q'.2 h' hfed (100 * Real.pi / 441) 1 (by
    unfold testEdge
    rw [abs_of_pos (by positivity)]
    linarith [Real.pi_pos]) 0 (by
    intro i _ hi
    rw [f2 i (hi.trans_eq f1)])
  refine ⟨_, h, ops', q', h', hfed, du, dd, hdu, hdd, ?_⟩
  have := hy 399 (by rw [hl]; decide) (by decide)
  push_cast at this
  exact this

private theorem seq_map_range {n i : ℕ} (x : ℕ → F32) (hi : i < n) : seq ((List.range n).map x) i = x i := by simp [seq, hi]

/-- The samples `0.5`, that is `cos (π / 3)`, a constant, in binary32. -/
example : ∃ q, (cfg .up 2 8 true .fir).session [Op.process (call32 (fun _ => 1 / 2) 200 400)] = .ok q ∧
    ∃ ops' q', (cfg .down 2 8 true .fir).session ops' = .ok q' ∧
      fed ops' = (cfg .up 2 8 true .fir).produced [Op.process (call32 (fun _ => 1 / 2) 200 400)] q.2 ∧
      ∃ y : ℚ, seq ((cfg .down 2 8 true .fir).produced ops' q'.2) 180 = Fl.fin y ∧ |(y : ℝ) - 1 / 2| ≤ level 88 := by
  have hv : (cfg .up 2 8 true .fir).Valid := ⟨by decide, by decide, by decide⟩
  have hv' : (cfg .down 2 8 true .fir).Valid := ⟨by decide, by decide, by decide⟩
  obtain ⟨q, hc, h, ops', q', hc', h', hfed, hl⟩ := chainF32 (cfg .up 2 8 true .fir) (cfg .down 2 8 true .fir) hv hv' (fun _ => 1 / 2)
    200 400 200 (by decide) ⟨by decide, by decide, by decide, by decide, by decide, by decide, by decide⟩
    ⟨by decide, by decide, by decide, by decide, by decide, by decide, by decide⟩
  have hf := fed_call32 (fun _ => 1 / 2) 200 400
  obtain ⟨du, dd, -, -, hy⟩ := C84_over_binary32_partial (cfg .up 2 8 true .fir) (cfg .down 2 8 true .fir) hv hv' rfl rfl rfl rfl rfl rfl rfl rfl
    _ hc q.1 q.2 h _ hc' q'.1 q'.2 h' hfed 0 (Real.pi / 3) (by
    unfold testEdge
    rw [abs_zero]
    positivity) (by
    intro v hv
    rw [hf] at hv
    obtain ⟨i, -, rfl⟩ := List.mem_map.1 hv
    exact ⟨_, rfl, by rw [abs_of_pos] <;> norm_num⟩) 0 (by
    intro i _ hi
    rw [hf] at hi ⊢
    rw [List.length_map, List.length_range] at hi
    rw [seq_map_range _ hi, zero_mul, zero_add, Real.cos_pi_div_three]
    simp [Fl.val, Fl.fin])
  obtain ⟨y, h1, h2⟩ := hy 180 (by rw [hl]; decide) (by decide)
  refine ⟨_, h, _, _, h', hfed, y, h1, ?_⟩
  rw [zero_mul, zero_add, Real.cos_pi_div_three] at h2
  exact h2

end Panda
