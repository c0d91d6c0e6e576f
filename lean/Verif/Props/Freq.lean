import Verif.Props.Rounding
import Verif.Proofs.SineConfig

/-!
# Frequency response of FIR resamplers (C39, C40, C53, C55)

The sample type is `ℝ`; the constants are accurate to `2^-24` (class `Accurate`, exact constants and constants rounded
to `float` qualify). Frequencies are in radians per sample. The pass band ends at 18 kHz for a (lower) sample rate of
44.1 kHz, that is at `2 π · 18000 / 44100 = 40 π / 49`.
The versions for binary32 add the rounding errors of C11.
-/

set_option linter.unusedSectionVars false

namespace Panda

open Examples Finset

/-- Bounds for the error of sinusoids in the pass band, in `10^-9`, by mode, ratio and precision. -/
def sineNano : Mode → ℕ → ℕ → ℕ
  | .up, 2, 1 => 715500060
  | .up, 2, 8 => 5772619
  | .up, 2, 12 => 471740
  | .up, 2, 16 => 34657
  | .up, 2, 20 => 2085
  | .up, 2, 24 => 257
  | .up, 4, 1 => 1056370024
  | .up, 4, 8 => 9649270
  | .up, 4, 12 => 599735
  | .up, 4, 16 => 59435
  | .up, 4, 20 => 3262
  | .up, 4, 24 => 436
  | .up, 8, 1 => 1161245018
  | .up, 8, 8 => 13397708
  | .up, 8, 12 => 808878
  | .up, 8, 16 => 78601
  | .up, 8, 20 => 4059
  | .up, 8, 24 => 595
  | .down, 2, 1 => 357750030
  | .down, 2, 8 => 2886310
  | .down, 2, 12 => 235870
  | .down, 2, 16 => 17329
  | .down, 2, 20 => 1043
  | .down, 2, 24 => 129
  | .down, 4, 1 => 492642536
  | .down, 4, 8 => 4819073
  | .down, 4, 12 => 299853
  | .down, 4, 16 => 29718
  | .down, 4, 20 => 1631
  | .down, 4, 24 => 218
  | .down, 8, 1 => 530704965
  | .down, 8, 8 => 6684325
  | .down, 8, 12 => 404393
  | .down, 8, 16 => 39300
  | .down, 8, 20 => 2030
  | .down, 8, 24 => 298
  | _, _, _ => 0

/-- Bounds for what is left of sinusoids in the stop band, in `10^-9`, by ratio and precision. -/
def stopNano : ℕ → ℕ → ℕ
  | 2, 1 => 357750030
  | 2, 8 => 2886310
  | 2, 12 => 235870
  | 2, 16 => 17329
  | 2, 20 => 1043
  | 2, 24 => 129
  | 4, 1 => 393292506
  | 4, 8 => 2891872
  | 4, 12 => 235886
  | 4, 16 => 17329
  | 4, 20 => 1043
  | 4, 24 => 129
  | 8, 1 => 403321477
  | 8, 8 => 2897241
  | 8, 12 => 235910
  | 8, 16 => 17329
  | 8, 20 => 1043
  | 8, 24 => 129
  | _, _ => 0

private theorem sine_numbers : ∀ m ∈ [Mode.up, Mode.down], ∀ r ∈ [1, 2, 4, 8], ∀ p ∈ [1, 8, 12, 16, 20, 24],
    sineErr m r p ≤ (sineNano m r p : ℚ) / 10 ^ 9 ∧ (r ≠ 1 → stopErr r p ≤ (stopNano r p : ℚ) / 10 ^ 9) := by decide +kernel

private theorem gain_numbers : ∀ m ∈ [Mode.up, Mode.down], ∀ r ∈ [1, 2, 4, 8], ∀ p ∈ [1, 8, 12, 16, 20, 24],
    (cfg m r p true .fir).gain ≤ (gainMilli m r p : ℚ) / 1000 := by decide +kernel

section real

variable [Sample ℝ] [Accurate ℝ]

theorem firNum_gain_le (cfg : Config) (hv : cfg.Valid) :
    ((cfg.gain : ℚ) : ℝ) ≤ (gainMilli cfg.mode cfg.ratio cfg.precision : ℝ) / 1000 := by
  have := gain_numbers cfg.mode (by cases cfg.mode <;> simp) cfg.ratio hv.ratio cfg.precision hv.precision
  have h2 : ((cfg.gain : ℚ) : ℝ) ≤ (((gainMilli cfg.mode cfg.ratio cfg.precision : ℚ) / 1000 : ℚ) : ℝ) := by exact_mod_cast this
  refine h2.trans (le_of_eq ?_)
  push_cast
  rfl

theorem firNum_sine_le (cfg : Config) (hv : cfg.Valid) (m : Mode) :
    ((sineErr m cfg.ratio cfg.precision : ℚ) : ℝ) ≤ (sineNano m cfg.ratio cfg.precision : ℝ) / 10 ^ 9 := by
  have := (sine_numbers m (by cases m <;> simp) cfg.ratio hv.ratio cfg.precision hv.precision).1
  have h2 : ((sineErr m cfg.ratio cfg.precision : ℚ) : ℝ) ≤ (((sineNano m cfg.ratio cfg.precision : ℚ) / 10 ^ 9 : ℚ) : ℝ) := by
    exact_mod_cast this
  refine h2.trans (le_of_eq ?_)
  push_cast
  rfl

theorem firNum_stop_le (cfg : Config) (hv : cfg.Valid) (h1 : cfg.ratio ≠ 1) :
    ((stopErr cfg.ratio cfg.precision : ℚ) : ℝ) ≤ (stopNano cfg.ratio cfg.precision : ℝ) / 10 ^ 9 := by
  have := (sine_numbers .down (by simp) cfg.ratio hv.ratio cfg.precision hv.precision).2 h1
  have h2 : ((stopErr cfg.ratio cfg.precision : ℚ) : ℝ) ≤ (((stopNano cfg.ratio cfg.precision : ℚ) / 10 ^ 9 : ℚ) : ℝ) := by
    exact_mod_cast this
  refine h2.trans (le_of_eq ?_)
  push_cast
  rfl

theorem firNum_gain_nonneg (cfg : Config) : 0 ≤ ((cfg.gain : ℚ) : ℝ) := by
  have : (0 : ℚ) ≤ cfg.gain := by
    unfold Config.gain
    refine List.prod_nonneg fun g hg => ?_
    obtain ⟨t, -, rfl⟩ := List.mem_map.1 hg
    exact stageGain_nonneg _ _
  exact_mod_cast this

/-- The input of a session, continued by the ideal signal. -/
noncomputable def toneCont (xs : List ℝ) (L : List (ℝ × ℝ × ℝ)) (i : ℕ) : ℝ := if i < xs.length then seq xs i else tones L i

theorem toneCont_near {xs : List ℝ} {L : List (ℝ × ℝ × ℝ)} {ε : ℝ} (hε : 0 ≤ ε) {N : ℕ}
    (h : ∀ i, N ≤ i → i < xs.length → |seq xs i - tones L i| ≤ ε) : NearTones (toneCont xs L) L ε N := by
  intro i hi
  unfold toneCont
  split
  · exact h i hi (by assumption)
  · simpa using hε

/-- The same for the operators, with the tabulated numbers. -/
theorem op_up {cfg : Config} (hv : cfg.Valid) (hf : cfg.filter = .fir) (hm : cfg.mode = .up) {x : ℕ → ℝ}
    {L : List (ℝ × ℝ × ℝ)} (hL : ∀ a ∈ L, |a.2.1| ≤ 40 * Real.pi / 49) {ε : ℝ} (hε : 0 ≤ ε) {N n : ℕ} (h : NearTones x L ε N)
    (hn : cfg.ratio * (N + 63) ≤ n) :
    |cfg.op x n - tones L ((n - (cfg.totalDelay : ℚ)) / cfg.ratio)| ≤
      (sineNano .up cfg.ratio cfg.precision : ℝ) / 10 ^ 9 * amps L + (gainMilli .up cfg.ratio cfg.precision : ℝ) / 1000 * ε := by
  have hs := Config.settle_le (K := ℝ) hv hf N
  simp only [hm] at hs
  refine (Config.op_up_tones hv hf hm hL h (hs.trans hn)).trans ?_
  have hg := firNum_gain_le cfg hv
  rw [hm] at hg
  exact add_le_add (mul_le_mul_of_nonneg_right (firNum_sine_le cfg hv .up) (amps_nonneg L)) (mul_le_mul_of_nonneg_right hg hε)

/-- C40 for the operator. -/
theorem op_down {cfg : Config} (hv : cfg.Valid) (hf : cfg.filter = .fir) (hm : cfg.mode = .down) {x : ℕ → ℝ}
    {P S : List (ℝ × ℝ × ℝ)} (hP : ∀ a ∈ P, |cfg.ratio * a.2.1| ≤ 40 * Real.pi / 49)
    (hS : ∀ a ∈ S, ∃ j : ℤ, ¬ (cfg.ratio : ℤ) ∣ j ∧ |cfg.ratio * a.2.1 - 2 * Real.pi * j| ≤ 40 * Real.pi / 49)
    {ε : ℝ} (hε : 0 ≤ ε) {N n : ℕ} (h : NearTones x (P ++ S) ε N) (hn : N / cfg.ratio + 65 ≤ n) :
    |cfg.op x n - tones P (cfg.ratio * (n - (cfg.totalDelay : ℚ)))| ≤
      (sineNano .down cfg.ratio cfg.precision : ℝ) / 10 ^ 9 * amps P + (stopNano cfg.ratio cfg.precision : ℝ) / 10 ^ 9 * amps S +
        (gainMilli .down cfg.ratio cfg.precision : ℝ) / 1000 * ε := by
  have hs := Config.settle_le (K := ℝ) hv hf N
  simp only [hm] at hs
  refine (Config.op_down_tones hv hf hm hP hS h (hs.trans hn)).trans ?_
  have hg := firNum_gain_le cfg hv
  rw [hm] at hg
  refine add_le_add (add_le_add (mul_le_mul_of_nonneg_right (firNum_sine_le cfg hv .down) (amps_nonneg P)) ?_)
    (mul_le_mul_of_nonneg_right hg hε)
  by_cases h1 : cfg.ratio = 1
  · have : S = [] := by
      refine List.eq_nil_iff_forall_not_mem.2 fun a ha => ?_
      obtain ⟨j, hj, -⟩ := hS a ha
      rw [h1] at hj
      exact hj (by simp)
    subst this
    simp [amps]
  · exact mul_le_mul_of_nonneg_right (firNum_stop_le cfg hv h1) (amps_nonneg S)

private theorem op_round_trip {cu cd : Config} (hu : cu.Valid) (hd : cd.Valid) (hfu : cu.filter = .fir) (hfd : cd.filter = .fir)
    (hmu : cu.mode = .up) (hmd : cd.mode = .down) (hr : cd.ratio = cu.ratio) {x : ℕ → ℝ}
    {L : List (ℝ × ℝ × ℝ)} (hL : ∀ a ∈ L, |a.2.1| ≤ 40 * Real.pi / 49) {ε : ℝ} (hε : 0 ≤ ε) {N n : ℕ} (h : NearTones x L ε N)
    (hn : N + 128 ≤ n) :
    |cd.op (cu.op x) n - tones L (n - ((cu.totalDelay : ℚ) / cu.ratio + (cd.totalDelay : ℚ)))| ≤
      ((1 + (sineNano .up cu.ratio cu.precision : ℝ) / 10 ^ 9) * (1 + (sineNano .down cd.ratio cd.precision : ℝ) / 10 ^ 9) - 1) *
        amps L + (gainMilli .down cd.ratio cd.precision : ℝ) / 1000 * ((gainMilli .up cu.ratio cu.precision : ℝ) / 1000 * ε) := by
  have hr0 : 0 < cu.ratio := by
    have := hu.ratio
    simp only [List.mem_cons, List.not_mem_nil, or_false] at this
    omega
  have hs1 := Config.settle_le (K := ℝ) hu hfu N
  simp only [hmu] at hs1
  have hs2 := Config.settle_le (K := ℝ) hd hfd (cu.ratio * (N + 63))
  simp only [hmd] at hs2
  rw [hr, Nat.mul_div_cancel_left _ hr0] at hs2
  refine (Config.op_round_trip hu hd hfu hfd hmu hmd hr hL h (((Config.settle_mono hs1).trans hs2).trans hn)).trans ?_
  have g1 := firNum_gain_le cu hu
  have g2 := firNum_gain_le cd hd
  rw [hmu] at g1
  rw [hmd] at g2
  have s1 := firNum_sine_le cu hu .up
  have s2 := firNum_sine_le cd hd .down
  have p1 : (0 : ℝ) ≤ (sineErr .up cu.ratio cu.precision : ℚ) := by
    exact_mod_cast sineErr_nonneg .up cu.ratio cu.precision
  have p2 : (0 : ℝ) ≤ (sineErr .down cd.ratio cd.precision : ℚ) := by
    exact_mod_cast sineErr_nonneg .down cd.ratio cd.precision
  have q1 := firNum_gain_nonneg cu
  have q2 := firNum_gain_nonneg cd
  have := amps_nonneg L
  gcongr

/-- **C39** FIR upsampling: let the input be, from sample `N` on and up to errors of at most `ε`, a sum of sinusoids
`∑ c cos (w i + p)` with frequencies in the pass band. Then output sample `n` is the value of the sum at time
`(n - delay()) / ratio`, up to `sineNano * 10^-9` times the sum of the amplitudes and `gainMilli / 1000 * ε`, as soon as
the filters are filled. -/
theorem C39_passband_up (cfg : Config) (hv : cfg.Valid) (hf : cfg.filter = .fir) (hm : cfg.mode = .up)
    (ops : List (Op ℝ)) (hc : ∀ op ∈ ops, cfg.OpOk op) (r : Resampler ℝ) (os : List (Option (Buf ℝ)))
    (h : cfg.session ops = .ok (r, os)) (L : List (ℝ × ℝ × ℝ)) (hL : ∀ a ∈ L, |a.2.1| ≤ 40 * Real.pi / 49)
    (ε : ℝ) (hε : 0 ≤ ε) (N : ℕ) (hN : ∀ i, N ≤ i → i < (fed ops).length → |seq (fed ops) i - tones L i| ≤ ε) :
    ∃ d : ℚ, r.delay = .ok d ∧
      ∀ n < (cfg.produced ops os).length, cfg.ratio * (N + 63) ≤ n →
        |seq (cfg.produced ops os) n - tones L ((n - d) / cfg.ratio)| ≤
          (sineNano .up cfg.ratio cfg.precision : ℝ) / 10 ^ 9 * amps L + (gainMilli .up cfg.ratio cfg.precision : ℝ) / 1000 * ε := by
  refine ⟨cfg.totalDelay, Config.Reachable.delay hv ⟨ops, os, hc, h⟩, fun n hn hset => ?_⟩
  rw [Config.session_op_of hv hc h (x := toneCont (fed ops) L) (fun i hi => if_pos hi) n hn]
  exact op_up hv hf hm hL hε (toneCont_near hε hN) hset

/-- **C40** FIR downsampling: let the input be, from sample `N` on and up to errors of at most `ε`, a sum of sinusoids `P`
in the pass band and sinusoids `S` in the stop band (frequencies that would alias into the pass band). Then output sample
`m` is the value of the sum of the former at time `ratio * (m - delay())`, up to `sineNano * 10^-9` times the sum of their
amplitudes, `stopNano * 10^-9` times the sum of the amplitudes in the stop band and `gainMilli / 1000 * ε`. -/
theorem C40_pass_stop_down (cfg : Config) (hv : cfg.Valid) (hf : cfg.filter = .fir) (hm : cfg.mode = .down)
    (ops : List (Op ℝ)) (hc : ∀ op ∈ ops, cfg.OpOk op) (r : Resampler ℝ) (os : List (Option (Buf ℝ)))
    (h : cfg.session ops = .ok (r, os)) (P S : List (ℝ × ℝ × ℝ)) (hP : ∀ a ∈ P, |cfg.ratio * a.2.1| ≤ 40 * Real.pi / 49)
    (hS : ∀ a ∈ S, ∃ j : ℤ, ¬ (cfg.ratio : ℤ) ∣ j ∧ |cfg.ratio * a.2.1 - 2 * Real.pi * j| ≤ 40 * Real.pi / 49)
    (ε : ℝ) (hε : 0 ≤ ε) (N : ℕ)
    (hN : ∀ i, N ≤ i → i < (fed ops).length → |seq (fed ops) i - (tones P i + tones S i)| ≤ ε) :
    ∃ d : ℚ, r.delay = .ok d ∧
      ∀ m < (cfg.produced ops os).length, N / cfg.ratio + 65 ≤ m →
        |seq (cfg.produced ops os) m - tones P (cfg.ratio * (m - d))| ≤
          (sineNano .down cfg.ratio cfg.precision : ℝ) / 10 ^ 9 * amps P +
          (stopNano cfg.ratio cfg.precision : ℝ) / 10 ^ 9 * amps S +
          (gainMilli .down cfg.ratio cfg.precision : ℝ) / 1000 * ε := by
  refine ⟨cfg.totalDelay, Config.Reachable.delay hv ⟨ops, os, hc, h⟩, fun m hn hset => ?_⟩
  rw [Config.session_op_of hv hc h (x := toneCont (fed ops) (P ++ S)) (fun i hi => if_pos hi) m hn]
  exact op_down hv hf hm hP hS hε (toneCont_near hε fun i h1 h2 => by rw [tones_append]; exact hN i h1 h2) hset

/-- **C55** FIR: whatever the frequencies, a sum of sinusoids is not amplified: output samples are at most
`1 + sineNano * 10^-9` times the sum of the amplitudes (compare with the bounds of C21 for arbitrary signals). -/
theorem C55_no_frequency_amplified (cfg : Config) (hv : cfg.Valid) (hf : cfg.filter = .fir)
    (ops : List (Op ℝ)) (hc : ∀ op ∈ ops, cfg.OpOk op) (r : Resampler ℝ) (os : List (Option (Buf ℝ)))
    (h : cfg.session ops = .ok (r, os)) (L : List (ℝ × ℝ × ℝ))
    (ε : ℝ) (hε : 0 ≤ ε) (N : ℕ) (hN : ∀ i, N ≤ i → i < (fed ops).length → |seq (fed ops) i - tones L i| ≤ ε) :
    ∀ n < (cfg.produced ops os).length, (match cfg.mode with | .up => cfg.ratio * (N + 63) | .down => N / cfg.ratio + 65) ≤ n →
      |seq (cfg.produced ops os) n| ≤ (1 + (sineNano cfg.mode cfg.ratio cfg.precision : ℝ) / 10 ^ 9) * amps L +
        (gainMilli cfg.mode cfg.ratio cfg.precision : ℝ) / 1000 * ε := by
  intro n hn hset
  rw [Config.session_op_of hv hc h (x := toneCont (fed ops) L) (fun i hi => if_pos hi) n hn]
  refine (Config.op_tones_bound hv hf (toneCont_near hε hN) ((Config.settle_le hv hf N).trans hset)).trans ?_
  have := firNum_sine_le cfg hv cfg.mode
  exact add_le_add (mul_le_mul_of_nonneg_right (by linarith) (amps_nonneg L)) (mul_le_mul_of_nonneg_right (firNum_gain_le cfg hv) hε)

/-- **C53** Oversampling: what a FIR upsampler produced is fed to a FIR downsampler for the same ratio (but any precision).
A sum of sinusoids in the pass band comes out delayed by `ups.delay() / ratio + downs.delay()`. -/
theorem C53_round_trip (cu cd : Config) (hu : cu.Valid) (hd : cd.Valid) (hfu : cu.filter = .fir) (hfd : cd.filter = .fir)
    (hmu : cu.mode = .up) (hmd : cd.mode = .down) (hr : cd.ratio = cu.ratio)
    (ops : List (Op ℝ)) (hc : ∀ op ∈ ops, cu.OpOk op) (r : Resampler ℝ) (os : List (Option (Buf ℝ)))
    (h : cu.session ops = .ok (r, os))
    (ops' : List (Op ℝ)) (hc' : ∀ op ∈ ops', cd.OpOk op) (r' : Resampler ℝ) (os' : List (Option (Buf ℝ)))
    (h' : cd.session ops' = .ok (r', os')) (hfed : fed ops' = cu.produced ops os)
    (L : List (ℝ × ℝ × ℝ)) (hL : ∀ a ∈ L, |a.2.1| ≤ 40 * Real.pi / 49)
    (ε : ℝ) (hε : 0 ≤ ε) (N : ℕ) (hN : ∀ i, N ≤ i → i < (fed ops).length → |seq (fed ops) i - tones L i| ≤ ε) :
    ∃ du dd : ℚ, r.delay = .ok du ∧ r'.delay = .ok dd ∧
      ∀ m < (cd.produced ops' os').length, N + 128 ≤ m →
        |seq (cd.produced ops' os') m - tones L (m - (du / cu.ratio + dd))| ≤
          ((1 + (sineNano .up cu.ratio cu.precision : ℝ) / 10 ^ 9) * (1 + (sineNano .down cd.ratio cd.precision : ℝ) / 10 ^ 9) - 1) *
            amps L + (gainMilli .down cd.ratio cd.precision : ℝ) / 1000 * ((gainMilli .up cu.ratio cu.precision : ℝ) / 1000 * ε) := by
  refine ⟨cu.totalDelay, cd.totalDelay, Config.Reachable.delay hu ⟨ops, os, hc, h⟩, Config.Reachable.delay hd ⟨ops', os', hc', h'⟩,
    fun m hn hset => ?_⟩
  rw [Config.session_op_of hd hc' h' (x := cu.op (toneCont (fed ops) L)) (fun i hi => by
    rw [hfed] at hi ⊢
    exact (Config.session_op_of hu hc h (x := toneCont (fed ops) L) (fun i hi => if_pos hi) i hi).symm) m hn]
  exact op_round_trip hu hd hfu hfd hmu hmd hr hL hε (toneCont_near hε hN) hset

end real

/-! ## Examples -/

namespace Examples

/-- Exact real constants. -/
noncomputable scoped instance : Sample ℝ := ⟨1 / 2, fun q => (q : ℝ)⟩

end Examples

/-- Exact constants are accurate. -/
theorem accurate_real : Accurate ℝ :=
  ⟨rfl, fun q => by
    rw [show (Sample.ofDouble q : ℝ) = (q : ℝ) from rfl, sub_self, abs_zero]
    positivity⟩

/-- A call with the samples `x 0, x 1, ...`. -/
noncomputable def realCall (x : ℕ → ℝ) (n m : ℕ) : Call ℝ :=
  { st := { block16 := 5, tmpAddr := 4, tmp2Addr := 8, junk := fun _ => 0 }, input := { addr := 4, len := n, get := x }, n := n,
    output := { addr := 64, len := m, get := fun _ => 0 } }

theorem fed_realCall (x : ℕ → ℝ) (n m : ℕ) :
    (fed [Op.process (realCall x n m)]).length = n ∧ ∀ i < n, seq (fed [Op.process (realCall x n m)]) i = x i := by
  have e : fed [Op.process (realCall x n m)] = (List.range n).map x := by
    simp [fed, fedStep, realCall, Call.samples]
  rw [e]
  refine ⟨by simp, fun i hi => ?_⟩
  simp [seq, hi]

theorem opOk_realCall (c : Config) (x : ℕ → ℝ) (n m : ℕ) (h : c.CallOk (realCall (fun _ => 0) n m)) :
    ∀ op ∈ [Op.process (realCall x n m)], c.OpOk op := by
  intro op hop
  simp only [List.mem_cons, List.not_mem_nil, or_false] at hop
  subst hop
  exact ⟨h.uint, h.input, h.output, h.mul, h.large, h.nonempty, h.behind⟩

private theorem two_le_edge : (2 : ℝ) ≤ 40 * Real.pi / 49 := by linarith [Real.pi_gt_d2]

/-- C39 for a real session: 16 bits, ratio 4, the input is `3 cos (2 i + 1)` (14 kHz), up to 1/1000. -/
example : ∃ q, (cfg .up 4 16 true .fir).session
      [Op.process (realCall (fun i => 3 * Real.cos (2 * i + 1) + (if i % 2 = 0 then 1 / 1000 else 0)) 100 400)] = .ok q ∧
    ∃ d : ℚ, q.1.delay = .ok d ∧ |seq ((cfg .up 4 16 true .fir).produced
      [Op.process (realCall (fun i => 3 * Real.cos (2 * i + 1) + (if i % 2 = 0 then 1 / 1000 else 0)) 100 400)] q.2) 333 -
        3 * Real.cos (2 * ((333 - d) / 4) + 1)| ≤ 59435 / 10 ^ 9 * 3 + 3826 / 1000 * (1 / 1000) := by
  have := accurate_real
  have hv : (cfg .up 4 16 true .fir).Valid := ⟨by decide, by decide, by decide⟩
  have hc := opOk_realCall (cfg .up 4 16 true .fir) (fun i => 3 * Real.cos (2 * i + 1) + (if i % 2 = 0 then 1 / 1000 else 0)) 100 400
    ⟨by decide, by decide, by decide, by decide, by decide, by decide, by decide⟩
  obtain ⟨f1, f2⟩ := fed_realCall (fun i => 3 * Real.cos (2 * i + 1) + (if i % 2 = 0 then 1 / 1000 else 0)) 100 400
  obtain ⟨r, os, h, -⟩ := C04_output_frame (cfg .up 4 16 true .fir) hv _ hc
  have hl := (Config.session_op hv hc h).1
  rw [f1] at hl
  obtain ⟨d, hd, hy⟩ := C39_passband_up (cfg .up 4 16 true .fir) hv rfl rfl _ hc r os h [(3, 2, 1)] (by
    intro a ha
    simp only [List.mem_cons, List.not_mem_nil, or_false] at ha
    subst ha
    simpa using two_le_edge) (1 / 1000) (by norm_num) 0 (by
    intro i _ hi
    rw [f2 i (hi.trans_eq f1), tones_cons, tones_nil]
    simp only [add_zero]
    rw [add_sub_cancel_left]
    split <;> norm_num)
  refine ⟨_, h, d, hd, ?_⟩
  have := hy 333 (by rw [hl]; decide) (by decide)
  simpa [tones_cons, tones_nil, amps, sineNano, gainMilli, show (cfg .up 4 16 true .fir).ratio = 4 from rfl,
    show (cfg .up 4 16 true .fir).precision = 16 from rfl] using this

/-- C40 and C55 for a real session: 24 bits, ratio 8, the input is `5 cos (i / 4)` (14 kHz), disturbed by `7 cos (i)` (56 kHz). -/
example : ∃ q, (cfg .down 8 24 false .fir).session
      [Op.process (realCall (fun i => 5 * Real.cos (1 / 4 * i + 1) + 7 * Real.cos (1 * i + 2)) 800 100)] = .ok q ∧
    ∃ d : ℚ, q.1.delay = .ok d ∧ |seq ((cfg .down 8 24 false .fir).produced
      [Op.process (realCall (fun i => 5 * Real.cos (1 / 4 * i + 1) + 7 * Real.cos (1 * i + 2)) 800 100)] q.2) 99 -
        5 * Real.cos (1 / 4 * (8 * (99 - d)) + 1)| ≤ 298 / 10 ^ 9 * 5 + 129 / 10 ^ 9 * 7 ∧
    |seq ((cfg .down 8 24 false .fir).produced
      [Op.process (realCall (fun i => 5 * Real.cos (1 / 4 * i + 1) + 7 * Real.cos (1 * i + 2)) 800 100)] q.2) 99| ≤
        (1 + 298 / 10 ^ 9) * 12 := by
  have := accurate_real
  have hv : (cfg .down 8 24 false .fir).Valid := ⟨by decide, by decide, by decide⟩
  have hc := opOk_realCall (cfg .down 8 24 false .fir) (fun i => 5 * Real.cos (1 / 4 * i + 1) + 7 * Real.cos (1 * i + 2)) 800 100
    ⟨by decide, by decide, by decide, by decide, by decide, by decide, by decide⟩
  obtain ⟨f1, f2⟩ := fed_realCall (fun i => 5 * Real.cos (1 / 4 * i + 1) + 7 * Real.cos (1 * i + 2)) 800 100
  obtain ⟨r, os, h, -⟩ := C04_output_frame (cfg .down 8 24 false .fir) hv _ hc
  have hl := (Config.session_op hv hc h).1
  rw [f1] at hl
  have p1 := Real.pi_gt_d2
  have p2 := Real.pi_lt_d2
  obtain ⟨d, hd, hy⟩ := C40_pass_stop_down (cfg .down 8 24 false .fir) hv rfl rfl _ hc r os h [(5, 1 / 4, 1)] [(7, 1, 2)] (by
    intro a ha
    simp only [List.mem_cons, List.not_mem_nil, or_false] at ha
    subst ha
    rw [show (cfg .down 8 24 false .fir).ratio = 8 from rfl]
    norm_num
    linarith) (by
    intro a ha
    simp only [List.mem_cons, List.not_mem_nil, or_false] at ha
    subst ha
    refine ⟨1, by decide, ?_⟩
    rw [show (cfg .down 8 24 false .fir).ratio = 8 from rfl, abs_le]
    norm_num
    constructor <;> linarith) 0 (le_refl _) 0 (by
    intro i _ hi
    rw [f2 i (hi.trans_eq f1), tones_cons, tones_nil, tones_cons, tones_nil]
    simp)
  refine ⟨_, h, d, hd, ?_, ?_⟩
  · have := hy 99 (by rw [hl]; decide) (by decide)
    simpa [tones_cons, tones_nil, amps, sineNano, stopNano, show (cfg .down 8 24 false .fir).ratio = 8 from rfl,
      show (cfg .down 8 24 false .fir).precision = 24 from rfl] using this
  · have := C55_no_frequency_amplified (cfg .down 8 24 false .fir) hv rfl _ hc r os h [(5, 1 / 4, 1), (7, 1, 2)] 0 (le_refl _) 0 (by
      intro i _ hi
      rw [f2 i (hi.trans_eq f1), tones_cons, tones_cons, tones_nil]
      simp) 99 (by rw [hl]; decide) (by decide)
    refine this.trans (le_of_eq ?_)
    simp [amps, sineNano, cfg]
    norm_num

/-- C53 for a real session: up with 24 bits, down with 20 bits, ratio 2; 150 samples of `cos (2 i)`. -/
example : ∃ q, (cfg .up 2 24 true .fir).session [Op.process (realCall (fun i => Real.cos (2 * i)) 150 300)] = .ok q ∧
    ∃ q', (cfg .down 2 20 true .fir).session [Op.process (realCall (seq ((cfg .up 2 24 true .fir).produced
      [Op.process (realCall (fun i => Real.cos (2 * i)) 150 300)] q.2)) 300 150)] = .ok q' ∧
    ∃ du dd : ℚ, q.1.delay = .ok du ∧ q'.1.delay = .ok dd ∧
      |seq ((cfg .down 2 20 true .fir).produced [Op.process (realCall (seq ((cfg .up 2 24 true .fir).produced
        [Op.process (realCall (fun i => Real.cos (2 * i)) 150 300)] q.2)) 300 150)] q'.2) 140 - Real.cos (2 * (140 - (du / 2 + dd)))| ≤
        (1 + 257 / 10 ^ 9) * (1 + 1043 / 10 ^ 9) - 1 := by
  have := accurate_real
  have hv : (cfg .up 2 24 true .fir).Valid := ⟨by decide, by decide, by decide⟩
  have hv' : (cfg .down 2 20 true .fir).Valid := ⟨by decide, by decide, by decide⟩
  have hc := opOk_realCall (cfg .up 2 24 true .fir) (fun i => Real.cos (2 * i)) 150 300
    ⟨by decide, by decide, by decide, by decide, by decide, by decide, by decide⟩
  obtain ⟨f1, f2⟩ := fed_realCall (fun i => Real.cos (2 * i)) 150 300
  obtain ⟨r, os, h, -⟩ := C04_output_frame (cfg .up 2 24 true .fir) hv _ hc
  have hl := (Config.session_op hv hc h).1
  rw [f1] at hl
  replace hl : ((cfg .up 2 24 true .fir).produced [Op.process (realCall (fun i => Real.cos (2 * i)) 150 300)] os).length = 300 := hl
  set ys := (cfg .up 2 24 true .fir).produced [Op.process (realCall (fun i => Real.cos (2 * i)) 150 300)] os with hys
  have hc' := opOk_realCall (cfg .down 2 20 true .fir) (seq ys) 300 150
    ⟨by decide, by decide, by decide, by decide, by decide, by decide, by decide⟩
  obtain ⟨f1', f2'⟩ := fed_realCall (seq ys) 300 150
  obtain ⟨r', os', h', -⟩ := C04_output_frame (cfg .down 2 20 true .fir) hv' _ hc'
  have hl' := (Config.session_op hv' hc' h').1
  rw [f1'] at hl'
  have hfed : fed [Op.process (realCall (seq ys) 300 150)] = ys := by
    refine List.ext_getElem (f1'.trans hl.symm) fun i h1 h2 => ?_
    have := f2' i (h1.trans_eq f1')
    rwa [seq_lt h1, seq_lt h2] at this
  obtain ⟨du, dd, hdu, hdd, hy⟩ := C53_round_trip (cfg .up 2 24 true .fir) (cfg .down 2 20 true .fir) hv hv' rfl rfl rfl rfl rfl _ hc r os h
    _ hc' r' os' h' hfed [(1, 2, 0)] (by
    intro a ha
    simp only [List.mem_cons, List.not_mem_nil, or_false] at ha
    subst ha
    simpa using two_le_edge) 0 (le_refl _) 0 (by
    intro i _ hi
    rw [f2 i (hi.trans_eq f1), tones_cons, tones_nil]
    simp)
  refine ⟨_, h, _, h', du, dd, hdu, hdd, ?_⟩
  have := hy 140 (by rw [hl']; decide) (by decide)
  simpa [tones_cons, tones_nil, amps, sineNano, show (cfg .up 2 24 true .fir).ratio = 2 from rfl,
    show (cfg .up 2 24 true .fir).precision = 24 from rfl, show (cfg .down 2 20 true .fir).ratio = 2 from rfl,
    show (cfg .down 2 20 true .fir).precision = 20 from rfl] using this

/-! ## Binary32 -/

section binary32

theorem val_near (cfg : Config) (hv : cfg.Valid) (hf : cfg.filter = .fir)
    (ops : List (Op F32)) (hc : ∀ op ∈ ops, cfg.OpOk op) (r : Resampler F32) (os : List (Option (Buf F32)))
    (h : cfg.session ops = .ok (r, os)) (M : ℚ) (hM : M ≤ 2 ^ 100) (hx : ∀ v ∈ fed ops, ∃ q, v = Fl.fin q ∧ |q| ≤ M)
    (x : ℕ → ℝ) (hxx : ∀ i < (fed ops).length, x i = (((seq (fed ops) i).val : ℚ) : ℝ)) :
    ∀ n < (cfg.produced ops os).length, ∃ y : ℚ, seq (cfg.produced ops os) n = Fl.fin y ∧
      |(y : ℝ) - cfg.op x n| ≤ (rndNano cfg.mode cfg.ratio cfg.precision : ℝ) / 10 ^ 9 * M + 2⁻¹ ^ 140 := by
  have := accurate_real
  intro n hn
  obtain ⟨y, h1, h2⟩ := C11_binary32 cfg hv hf ops hc r os h M hM hx n hn
  refine ⟨y, h1, ?_⟩
  have e : cfg.op x n = cfg.op (fun i => (((seq (fed ops) i).val : ℚ) : ℝ)) n := by
    refine cascadeOp_causal (k := (fed ops).length) (fun s hs v t e => (Config.stages_taps s hs v t e).1) hxx n ?_
    rw [Config.cascadeN hv]
    rwa [Config.produced_length hv (Config.session_rel' hv hc h)] at hn
  rw [e, ← Config.op_cast hv hf (fun _ => rfl) (by simp [Sample.half]), ← Rat.cast_sub, ← Rat.cast_abs]
  refine le_trans (Rat.cast_le.2 h2) (le_of_eq ?_)
  push_cast
  rfl

noncomputable def cont32 (xs : List F32) (L : List (ℝ × ℝ × ℝ)) (i : ℕ) : ℝ :=
  if i < xs.length then (((seq xs i).val : ℚ) : ℝ) else tones L i

theorem cont32_near {xs : List F32} {L : List (ℝ × ℝ × ℝ)} {ε : ℝ} (hε : 0 ≤ ε) {N : ℕ}
    (h : ∀ i, N ≤ i → i < xs.length → |(((seq xs i).val : ℚ) : ℝ) - tones L i| ≤ ε) : NearTones (cont32 xs L) L ε N := by
  intro i hi
  unfold cont32
  split
  · exact h i hi (by assumption)
  · simpa using hε

/-- **C39** for binary32 samples and arithmetic: the bound of `C39_passband_up` plus the rounding errors. -/
theorem C39_passband_up_binary32 (cfg : Config) (hv : cfg.Valid) (hf : cfg.filter = .fir) (hm : cfg.mode = .up)
    (ops : List (Op F32)) (hc : ∀ op ∈ ops, cfg.OpOk op) (r : Resampler F32) (os : List (Option (Buf F32)))
    (h : cfg.session ops = .ok (r, os)) (M : ℚ) (hM : M ≤ 2 ^ 100) (hx : ∀ v ∈ fed ops, ∃ q, v = Fl.fin q ∧ |q| ≤ M)
    (L : List (ℝ × ℝ × ℝ)) (hL : ∀ a ∈ L, |a.2.1| ≤ 40 * Real.pi / 49)
    (ε : ℝ) (hε : 0 ≤ ε) (N : ℕ)
    (hN : ∀ i, N ≤ i → i < (fed ops).length → |(((seq (fed ops) i).val : ℚ) : ℝ) - tones L i| ≤ ε) :
    ∃ d : ℚ, r.delay = .ok d ∧
      ∀ n < (cfg.produced ops os).length, cfg.ratio * (N + 63) ≤ n →
        ∃ y : ℚ, seq (cfg.produced ops os) n = Fl.fin y ∧ |(y : ℝ) - tones L ((n - d) / cfg.ratio)| ≤
          (sineNano .up cfg.ratio cfg.precision : ℝ) / 10 ^ 9 * amps L + (gainMilli .up cfg.ratio cfg.precision : ℝ) / 1000 * ε +
          ((rndNano .up cfg.ratio cfg.precision : ℝ) / 10 ^ 9 * M + 2⁻¹ ^ 140) := by
  have := accurate_real
  refine ⟨cfg.totalDelay, Config.Reachable.delay hv ⟨ops, os, hc, h⟩, fun n hn hset => ?_⟩
  obtain ⟨y, h1, h2⟩ := val_near cfg hv hf ops hc r os h M hM hx (cont32 (fed ops) L) (fun i hi => if_pos hi) n hn
  refine ⟨y, h1, ?_⟩
  have h3 := op_up hv hf hm hL hε (cont32_near hε hN) hset
  rw [hm] at h2
  rw [abs_le] at h2 h3 ⊢
  constructor <;> linarith [h2.1, h2.2, h3.1, h3.2]

/-- **C40** for binary32 samples and arithmetic: the bound of `C40_pass_stop_down` plus the rounding errors. -/
theorem C40_pass_stop_down_binary32 (cfg : Config) (hv : cfg.Valid) (hf : cfg.filter = .fir) (hm : cfg.mode = .down)
    (ops : List (Op F32)) (hc : ∀ op ∈ ops, cfg.OpOk op) (r : Resampler F32) (os : List (Option (Buf F32)))
    (h : cfg.session ops = .ok (r, os)) (M : ℚ) (hM : M ≤ 2 ^ 100) (hx : ∀ v ∈ fed ops, ∃ q, v = Fl.fin q ∧ |q| ≤ M)
    (P S : List (ℝ × ℝ × ℝ)) (hP : ∀ a ∈ P, |cfg.ratio * a.2.1| ≤ 40 * Real.pi / 49)
    (hS : ∀ a ∈ S, ∃ j : ℤ, ¬ (cfg.ratio : ℤ) ∣ j ∧ |cfg.ratio * a.2.1 - 2 * Real.pi * j| ≤ 40 * Real.pi / 49)
    (ε : ℝ) (hε : 0 ≤ ε) (N : ℕ)
    (hN : ∀ i, N ≤ i → i < (fed ops).length → |(((seq (fed ops) i).val : ℚ) : ℝ) - (tones P i + tones S i)| ≤ ε) :
    ∃ d : ℚ, r.delay = .ok d ∧
      ∀ m < (cfg.produced ops os).length, N / cfg.ratio + 65 ≤ m →
        ∃ y : ℚ, seq (cfg.produced ops os) m = Fl.fin y ∧ |(y : ℝ) - tones P (cfg.ratio * (m - d))| ≤
          (sineNano .down cfg.ratio cfg.precision : ℝ) / 10 ^ 9 * amps P +
          (stopNano cfg.ratio cfg.precision : ℝ) / 10 ^ 9 * amps S +
          (gainMilli .down cfg.ratio cfg.precision : ℝ) / 1000 * ε +
          ((rndNano .down cfg.ratio cfg.precision : ℝ) / 10 ^ 9 * M + 2⁻¹ ^ 140) := by
  have := accurate_real
  refine ⟨cfg.totalDelay, Config.Reachable.delay hv ⟨ops, os, hc, h⟩, fun n hn hset => ?_⟩
  obtain ⟨y, h1, h2⟩ := val_near cfg hv hf ops hc r os h M hM hx (cont32 (fed ops) (P ++ S)) (fun i hi => if_pos hi) n hn
  refine ⟨y, h1, ?_⟩
  have h3 := op_down hv hf hm hP hS hε (cont32_near hε fun i h1 h2 => by rw [tones_append]; exact hN i h1 h2) hset
  rw [hm] at h2
  rw [abs_le] at h2 h3 ⊢
  constructor <;> linarith [h2.1, h2.2, h3.1, h3.2]

/-- A call with binary32 samples. -/
def call32 (x : ℕ → ℚ) (n m : ℕ) : Call F32 :=
  { st := { block16 := 5, tmpAddr := 4, tmp2Addr := 8, junk := fun _ => 0 },
    input := { addr := 4, len := n, get := fun i => Fl.fin (x i) }, n := n,
    output := { addr := 64, len := m, get := fun _ => 0 } }

theorem fed_call32 (x : ℕ → ℚ) (n m : ℕ) : fed [Op.process (call32 x n m)] = (List.range n).map fun i => Fl.fin (x i) := by
  simp [fed, fedStep, call32, Call.samples]

/-- C39 in binary32 for `1, 0, -1, 0, ...`, a quarter of the sample rate (11 kHz); 24 bits, ratio 2. -/
example : ∃ q, (cfg .up 2 24 true .fir).session [Op.process (call32 (fun i => if i % 2 = 1 then 0 else if i % 4 = 0 then 1 else -1) 100 200)]
      = .ok q ∧
    ∃ d : ℚ, q.1.delay = .ok d ∧ ∃ y : ℚ, seq ((cfg .up 2 24 true .fir).produced
      [Op.process (call32 (fun i => if i % 2 = 1 then 0 else if i % 4 = 0 then 1 else -1) 100 200)] q.2) 150 = Fl.fin y ∧
      |(y : ℝ) - Real.cos (Real.pi / 2 * ((150 - d) / 2))| ≤ 1 / 10 ^ 5 := by
  have hv : (cfg .up 2 24 true .fir).Valid := ⟨by decide, by decide, by decide⟩
  have hc : ∀ op ∈ [Op.process (call32 (fun i => if i % 2 = 1 then 0 else if i % 4 = 0 then 1 else -1) 100 200)],
      (cfg .up 2 24 true .fir).OpOk op := by
    intro op hop
    simp only [List.mem_cons, List.not_mem_nil, or_false] at hop
    subst hop
    exact ⟨by decide, by decide, by decide, by decide, by decide, by decide, by decide⟩
  have hfed := fed_call32 (fun i => if i % 2 = 1 then 0 else if i % 4 = 0 then 1 else -1) 100 200
  obtain ⟨r, os, h, -⟩ := C04_output_frame (cfg .up 2 24 true .fir) hv _ hc
  have hl := Config.produced_length hv (Config.session_rel' hv hc h)
  rw [hfed] at hl
  obtain ⟨d, hd, hy⟩ := C39_passband_up_binary32 (cfg .up 2 24 true .fir) hv rfl rfl _ hc r os h 1 (by norm_num) (by
    intro v hv
    rw [hfed] at hv
    obtain ⟨i, -, rfl⟩ := List.mem_map.1 hv
    refine ⟨_, rfl, ?_⟩
    split <;> [skip; split] <;> norm_num) [(1, Real.pi / 2, 0)] (by
    intro a ha
    simp only [List.mem_cons, List.not_mem_nil, or_false] at ha
    subst ha
    simp only
    rw [abs_of_pos (by positivity)]
    linarith [Real.pi_pos]) 0 (le_refl _) 0 (by
    intro i _ hi
    rw [hfed] at hi ⊢
    rw [List.length_map, List.length_range] at hi
    have e : seq ((List.range 100).map fun i => (Fl.fin (if i % 2 = 1 then 0 else if i % 4 = 0 then 1 else -1) : F32)) i =
        Fl.fin (if i % 2 = 1 then 0 else if i % 4 = 0 then 1 else -1) := by simp [seq, hi]
    rw [e, tones_cons, tones_nil]
    simp only [Fl.val, Fl.fin, Option.getD_some, add_zero, one_mul]
    have e2 : Real.pi / 2 * (i : ℝ) = Real.pi / 2 * ((i % 4 : ℕ) : ℝ) + ((i / 4 : ℕ) : ℝ) * (2 * Real.pi) := by
      have : ((4 * (i / 4) + i % 4 : ℕ) : ℝ) = (i : ℝ) := by rw [Nat.div_add_mod]
      rw [← this]
      push_cast
      ring
    rw [e2, Real.cos_add_nat_mul_two_pi]
    have h4 : i % 4 < 4 := Nat.mod_lt _ (by norm_num)
    have h2 : i % 2 = i % 4 % 2 := by omega
    rw [h2]
    generalize i % 4 = j at h4 ⊢
    obtain rfl | rfl | rfl | rfl : j = 0 ∨ j = 1 ∨ j = 2 ∨ j = 3 := by omega
    · simp
    · simp
    · rw [show Real.pi / 2 * ((2 : ℕ) : ℝ) = Real.pi by push_cast; ring]
      simp
    · rw [show Real.pi / 2 * ((3 : ℕ) : ℝ) = Real.pi / 2 + Real.pi by push_cast; ring, Real.cos_add_pi]
      simp)
  refine ⟨_, h, d, hd, ?_⟩
  obtain ⟨y, h1, h2⟩ := hy 150 (by rw [hl]; decide +kernel) (by decide)
  refine ⟨y, h1, ?_⟩
  have e : tones [(1, Real.pi / 2, 0)] (((150 : ℕ) - (d : ℝ)) / ((cfg .up 2 24 true .fir).ratio : ℝ)) =
      Real.cos (Real.pi / 2 * ((150 - d) / 2)) := by
    rw [show (cfg .up 2 24 true .fir).ratio = 2 from rfl]
    simp [tones_cons, tones_nil]
  rw [e] at h2
  refine h2.trans ?_
  norm_num [amps, sineNano, gainMilli, rndNano, cfg]

/-- C40 in binary32 for `3, 1, 3, 1, ...`, that is `2 + cos (π i)`; 20 bits, ratio 2: 2 passes, the rest is suppressed. -/
example : ∃ q, (cfg .down 2 20 true .fir).session [Op.process (call32 (fun i => if i % 2 = 1 then 1 else 3) 200 100)] = .ok q ∧
    ∃ y : ℚ, seq ((cfg .down 2 20 true .fir).produced
      [Op.process (call32 (fun i => if i % 2 = 1 then 1 else 3) 200 100)] q.2) 80 = Fl.fin y ∧ |(y : ℝ) - 2| ≤ 2 / 10 ^ 5 := by
  have hv : (cfg .down 2 20 true .fir).Valid := ⟨by decide, by decide, by decide⟩
  have hc : ∀ op ∈ [Op.process (call32 (fun i => if i % 2 = 1 then 1 else 3) 200 100)], (cfg .down 2 20 true .fir).OpOk op := by
    intro op hop
    simp only [List.mem_cons, List.not_mem_nil, or_false] at hop
    subst hop
    exact ⟨by decide, by decide, by decide, by decide, by decide, by decide, by decide⟩
  have hfed := fed_call32 (fun i => if i % 2 = 1 then 1 else 3) 200 100
  obtain ⟨r, os, h, -⟩ := C04_output_frame (cfg .down 2 20 true .fir) hv _ hc
  have hl := Config.produced_length hv (Config.session_rel' hv hc h)
  rw [hfed] at hl
  obtain ⟨d, hd, hy⟩ := C40_pass_stop_down_binary32 (cfg .down 2 20 true .fir) hv rfl rfl _ hc r os h 3 (by norm_num) (by
    intro v hv
    rw [hfed] at hv
    obtain ⟨i, -, rfl⟩ := List.mem_map.1 hv
    refine ⟨_, rfl, ?_⟩
    split <;> norm_num) [(2, 0, 0)] [(1, Real.pi, 0)] (by
    intro a ha
    simp only [List.mem_cons, List.not_mem_nil, or_false] at ha
    subst ha
    simp
    positivity) (by
    intro a ha
    simp only [List.mem_cons, List.not_mem_nil, or_false] at ha
    subst ha
    refine ⟨1, by decide, ?_⟩
    rw [show (cfg .down 2 20 true .fir).ratio = 2 from rfl]
    simp
    positivity) 0 (le_refl _) 0 (by
    intro i _ hi
    rw [hfed] at hi ⊢
    rw [List.length_map, List.length_range] at hi
    have e : seq ((List.range 200).map fun i => (Fl.fin (if i % 2 = 1 then 1 else 3) : F32)) i =
        Fl.fin (if i % 2 = 1 then 1 else 3) := by simp [seq, hi]
    rw [e, tones_cons, tones_nil, tones_cons, tones_nil]
    simp only [Fl.val, Fl.fin, Option.getD_some, add_zero, one_mul]
    have := cos_add_nat_pi 0 i
    rw [zero_add, mul_comm] at this
    rw [this]
    rcases Nat.mod_two_eq_zero_or_one i with h | h <;> rw [h] <;> norm_num)
  refine ⟨_, h, ?_⟩
  obtain ⟨y, h1, h2⟩ := hy 80 (by rw [hl]; decide +kernel) (by decide)
  refine ⟨y, h1, ?_⟩
  simp only [tones_cons, tones_nil, zero_mul, add_zero, Real.cos_zero, mul_one] at h2
  refine h2.trans ?_
  norm_num [amps, sineNano, stopNano, gainMilli, rndNano, cfg]

end binary32

end Panda
