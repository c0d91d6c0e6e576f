import Verif.Props.Threshold
import Verif.Proofs.RoundTrip

/-!
# Frequency responses of FIR resamplers, images, and oversampling (C83)

A FIR downsampler has an amplitude response: a sinusoid of any frequency comes out as one sinusoid, multiplied by a real number that depends on
its frequency only, and delayed by exactly `delay ()`. A FIR upsampler turns a sinusoid into one, multiplied by a real number and delayed by exactly
`delay ()`, plus images at other frequencies. Oversampling (up, then down) leaves almost nothing of the images, so it is more accurate than the two
resamplers taken one by one (C53).
-/

set_option linter.unusedSectionVars false

namespace Panda

open Examples Finset

/-- Bounds for the sum of the amplitudes of the images of upsampling, in `10^-9`, by ratio and precision. -/
def imgNano : ℕ → ℕ → ℕ
  | 2, 1 => 357750030
  | 2, 8 => 2886310
  | 2, 12 => 235870
  | 2, 16 => 17329
  | 2, 20 => 1043
  | 2, 24 => 129
  | 4, 1 => 563727488
  | 4, 8 => 4830198
  | 4, 12 => 299883
  | 4, 16 => 29718
  | 4, 20 => 1631
  | 4, 24 => 218
  | 8, 1 => 630540053
  | 8, 8 => 6713383
  | 8, 12 => 404485
  | 8, 16 => 39301
  | 8, 20 => 2030
  | 8, 24 => 298
  | _, _ => 0

private theorem img_numbers : ∀ r ∈ [1, 2, 4, 8], ∀ p ∈ [1, 8, 12, 16, 20, 24],
    0 ≤ imgErr r p ∧ imgErr r p ≤ (imgNano r p : ℚ) / 10 ^ 9 := by decide +kernel

private theorem gain_8000 : ∀ m ∈ [Mode.up, Mode.down], ∀ r ∈ [1, 2, 4, 8], ∀ p ∈ [1, 8, 12, 16, 20, 24], (gainMilli m r p : ℚ) ≤ 8000 := by decide +kernel

/-- No images for ratio 1. -/
private theorem stop_numbers : ∀ p ∈ [1, 8, 12, 16, 20, 24], imgErr 1 p = 0 := by decide +kernel

section real

variable [Sample ℝ] [Accurate ℝ]

private theorem img_le {cfg : Config} (hv : cfg.Valid) :
    0 ≤ ((imgErr cfg.ratio cfg.precision : ℚ) : ℝ) ∧ ((imgErr cfg.ratio cfg.precision : ℚ) : ℝ) ≤ (imgNano cfg.ratio cfg.precision : ℝ) / 10 ^ 9 := by
  obtain ⟨h1, h2⟩ := img_numbers cfg.ratio hv.ratio cfg.precision hv.precision
  refine ⟨by exact_mod_cast h1, ?_⟩
  have h3 : ((imgErr cfg.ratio cfg.precision : ℚ) : ℝ) ≤ (((imgNano cfg.ratio cfg.precision : ℚ) / 10 ^ 9 : ℚ) : ℝ) := by exact_mod_cast h2
  refine h3.trans (le_of_eq ?_)
  push_cast
  rfl

/-- **C83** Frequency response of a FIR downsampler: there is a real function `D` of the output frequency, almost 1 in the pass band, almost 0 in
the stop band, nowhere larger than 1 by more than the ripple, such that in every session a sinusoid of any frequency comes out multiplied by `D` and
delayed by exactly `delay ()`: the phase is linear without any error. -/
theorem C83_response_down (cfg : Config) (hv : cfg.Valid) (hf : cfg.filter = .fir) (hm : cfg.mode = .down) :
    ∃ D : ℝ → ℝ, (∀ w, |D w| ≤ 1 + (sineNano .down cfg.ratio cfg.precision : ℝ) / 10 ^ 9) ∧
      (∀ w, |w| ≤ 40 * Real.pi / 49 → |D w - 1| ≤ (sineNano .down cfg.ratio cfg.precision : ℝ) / 10 ^ 9) ∧
      (∀ w, ∀ j : ℤ, ¬ (cfg.ratio : ℤ) ∣ j → |w - 2 * Real.pi * j| ≤ 40 * Real.pi / 49 →
        |D w| ≤ (stopNano cfg.ratio cfg.precision : ℝ) / 10 ^ 9) ∧
      ∀ (ops : List (Op ℝ)) (_ : ∀ op ∈ ops, cfg.OpOk op) (r : Resampler ℝ) (os : List (Option (Buf ℝ))) (_ : cfg.session ops = .ok (r, os))
        (C w φ ε : ℝ) (_ : 0 ≤ ε) (N : ℕ)
        (_ : ∀ i, N ≤ i → i < (fed ops).length → |seq (fed ops) i - C * Real.cos (w * i + φ)| ≤ ε),
        ∃ d : ℚ, r.delay = .ok d ∧ ∀ m < (cfg.produced ops os).length, N / cfg.ratio + 65 ≤ m →
          |seq (cfg.produced ops os) m - C * D (cfg.ratio * w) * Real.cos (w * (cfg.ratio * (m - d)) + φ)| ≤
            (gainMilli .down cfg.ratio cfg.precision : ℝ) / 1000 * ε := by
  refine ⟨downResp cfg.ratio cfg.precision, fun w => ?_, fun w hw => ?_, fun w j hj hw => ?_, ?_⟩
  · exact (downResp_all hv.precision w).trans (by linarith [firNum_sine_le cfg hv .down])
  · exact (downResp_pass hv.precision hw).trans (firNum_sine_le cfg hv .down)
  · refine (downResp_stop hv.ratio hv.precision hj hw).trans (firNum_stop_le cfg hv ?_)
    rintro h1
    rw [h1] at hj
    exact hj (by simp)
  · intro ops hc r os h C w φ ε hε N hN
    refine ⟨cfg.totalDelay, Config.Reachable.delay hv ⟨ops, os, hc, h⟩, fun m hm' hset => ?_⟩
    rw [Config.session_op_of hv hc h (x := toneCont (fed ops) [(C, w, φ)]) (fun i hi => if_pos hi) m hm']
    have hn := toneCont_near (L := [(C, w, φ)]) hε (xs := fed ops) (N := N) (by
      intro i h1 h2
      rw [tones_cons, tones_nil, add_zero]
      exact hN i h1 h2)
    have hs := Config.settle_le (K := ℝ) hv hf N
    simp only [hm] at hs
    have h1 := (Config.op_down_resp hv hf hm (δ := 0) ⟨[], le_refl _, hn⟩).bound (hs.trans hset)
    rw [mul_zero, zero_add] at h1
    have hg := firNum_gain_le cfg hv
    rw [hm] at hg
    refine le_trans (le_of_eq ?_) (h1.trans (mul_le_mul_of_nonneg_right hg hε))
    congr 3
    ring_nf

/-- **C83** Frequency response of a FIR upsampler: there is a real function `U` of the input frequency, almost 1 in the pass band, such that in every
session a sinusoid in the pass band comes out multiplied by `U` and delayed by exactly `delay ()`, plus images of it with small amplitudes: their
frequencies are `(w + 2 π j) / ratio` where `ratio` does not divide `j`. -/
theorem C83_response_up (cfg : Config) (hv : cfg.Valid) (hf : cfg.filter = .fir) (hm : cfg.mode = .up) :
    ∃ U : ℝ → ℝ, (∀ w, |w| ≤ 40 * Real.pi / 49 → |U w - 1| ≤ (sineNano .down cfg.ratio cfg.precision : ℝ) / 10 ^ 9) ∧
      ∀ (ops : List (Op ℝ)) (_ : ∀ op ∈ ops, cfg.OpOk op) (r : Resampler ℝ) (os : List (Option (Buf ℝ))) (_ : cfg.session ops = .ok (r, os))
        (C w φ ε : ℝ) (_ : |w| ≤ 40 * Real.pi / 49) (_ : 0 ≤ ε) (N : ℕ)
        (_ : ∀ i, N ≤ i → i < (fed ops).length → |seq (fed ops) i - C * Real.cos (w * i + φ)| ≤ ε),
        ∃ d : ℚ, r.delay = .ok d ∧ ∃ S : List (ℝ × ℝ × ℝ), amps S ≤ (imgNano cfg.ratio cfg.precision : ℝ) / 10 ^ 9 * |C| ∧
          (∀ a ∈ S, ∃ j : ℤ, ¬ (cfg.ratio : ℤ) ∣ j ∧ cfg.ratio * a.2.1 = w + 2 * Real.pi * j) ∧
          ∀ n < (cfg.produced ops os).length, cfg.ratio * (N + 63) ≤ n →
            |seq (cfg.produced ops os) n - (C * U w * Real.cos (w * ((n - d) / cfg.ratio) + φ) + tones S n)| ≤
              (gainMilli .up cfg.ratio cfg.precision : ℝ) / 1000 * ε := by
  refine ⟨upResp cfg.ratio cfg.precision, fun w hw => ?_, ?_⟩
  · exact (upResp_pass hv.precision hw).trans (firNum_sine_le cfg hv .down)
  · intro ops hc r os h C w φ ε hw hε N hN
    refine ⟨cfg.totalDelay, Config.Reachable.delay hv ⟨ops, os, hc, h⟩, ?_⟩
    have hn := toneCont_near (L := [(C, w, φ)]) hε (xs := fed ops) (N := N) (by
      intro i h1 h2
      rw [tones_cons, tones_nil, add_zero]
      exact hN i h1 h2)
    have hs := Config.settle_le (K := ℝ) hv hf N
    simp only [hm] at hs
    obtain ⟨S, h1, h2, h3⟩ := Config.op_up_split hv hf hm hn (fun k => ((ampErr k cfg.precision : ℚ) : ℝ))
      (fun k hk => upAmp_pass (stageKeys_mem hk) hv.precision hw)
    rw [imgErr_cast] at h1
    refine ⟨S, h1.trans (mul_le_mul_of_nonneg_right (img_le hv).2 (abs_nonneg _)), h2, fun n hn' hset => ?_⟩
    rw [Config.session_op_of hv hc h (x := toneCont (fed ops) [(C, w, φ)]) (fun i hi => if_pos hi) n hn']
    have h4 := h3 n (hs.trans hset)
    have hg := firNum_gain_le cfg hv
    rw [hm] at hg
    refine le_trans (le_of_eq ?_) (h4.trans (mul_le_mul_of_nonneg_right hg hε))
    rw [tones_cons]
    congr 4
    ring_nf

/-- The error of oversampling, for sinusoids in the pass band. -/
noncomputable def overErr (r p p' : ℕ) : ℝ :=
  (1 + (sineNano .down r p : ℝ) / 10 ^ 9) * (1 + (sineNano .down r p' : ℝ) / 10 ^ 9) - 1 + (stopNano r p' : ℝ) / 10 ^ 9 * ((imgNano r p : ℝ) / 10 ^ 9)

/-- Oversampling for the operators. -/
theorem op_over_tones {cu cd : Config} (hu : cu.Valid) (hd : cd.Valid) (hfu : cu.filter = .fir) (hfd : cd.filter = .fir)
    (hmu : cu.mode = .up) (hmd : cd.mode = .down) (hr : cd.ratio = cu.ratio) {x : ℕ → ℝ}
    {L : List (ℝ × ℝ × ℝ)} (hL : ∀ a ∈ L, |a.2.1| ≤ 40 * Real.pi / 49) {ε : ℝ} (hε : 0 ≤ ε) {N n : ℕ} (h : NearTones x L ε N)
    (hn : N + 128 ≤ n) :
    |cd.op (cu.op x) n - tones L (n - ((cu.totalDelay : ℚ) / cu.ratio + (cd.totalDelay : ℚ)))| ≤
      overErr cu.ratio cu.precision cd.precision * amps L +
        (gainMilli .down cu.ratio cd.precision : ℝ) / 1000 * ((gainMilli .up cu.ratio cu.precision : ℝ) / 1000 * ε) := by
  have hr0 : 0 < cu.ratio := by
    have := hu.ratio
    simp only [List.mem_cons, List.not_mem_nil, or_false] at this
    omega
  have hs1 := Config.settle_le (K := ℝ) hu hfu N
  simp only [hmu] at hs1
  have hs2 := Config.settle_le (K := ℝ) hd hfd (cu.ratio * (N + 63))
  simp only [hmd] at hs2
  rw [hr, Nat.mul_div_cancel_left _ hr0] at hs2
  refine (Config.op_over_tones hu hd hfu hfd hmu hmd hr hL h (((Config.settle_mono hs1).trans hs2).trans hn)).trans ?_
  unfold overErr
  have g1 := firNum_gain_le cu hu
  have g2 := firNum_gain_le cd hd
  rw [hmu] at g1
  rw [hmd, hr] at g2
  have s1 := firNum_sine_le cu hu .down
  have s2 := firNum_sine_le cd hd .down
  rw [hr] at s2 ⊢
  have p1 : (0 : ℝ) ≤ (sineErr .down cu.ratio cu.precision : ℚ) := by exact_mod_cast sineErr_nonneg .down cu.ratio cu.precision
  have p2 : (0 : ℝ) ≤ (sineErr .down cu.ratio cd.precision : ℚ) := by exact_mod_cast sineErr_nonneg .down cu.ratio cd.precision
  have q1 := firNum_gain_nonneg cu
  have q2 := firNum_gain_nonneg cd
  obtain ⟨i1, i2⟩ := img_le hu
  have := amps_nonneg L
  have st : ((stopErr cu.ratio cd.precision : ℚ) : ℝ) * ((imgErr cu.ratio cu.precision : ℚ) : ℝ) ≤
      (stopNano cu.ratio cd.precision : ℝ) / 10 ^ 9 * ((imgNano cu.ratio cu.precision : ℝ) / 10 ^ 9) := by
    by_cases h1 : cu.ratio = 1
    · rw [h1, stop_numbers _ hu.precision, Rat.cast_zero, mul_zero]
      positivity
    · have s3 := firNum_stop_le cd hd (by rwa [hr])
      rw [hr] at s3
      have := stopErr_nonneg cu.ratio cd.precision
      gcongr
  gcongr

/-- **C83** Oversampling: what a FIR upsampler produced is fed to a FIR downsampler for the same ratio (but any precision). A sum of sinusoids in
the pass band comes out delayed by `ups.delay () / ratio + downs.delay ()`. The error is about half the one of C53. -/
theorem C83_round_trip (cu cd : Config) (hu : cu.Valid) (hd : cd.Valid) (hfu : cu.filter = .fir) (hfd : cd.filter = .fir)
    (hmu : cu.mode = .up) (hmd : cd.mode = .down) (hr : cd.ratio = cu.ratio)
    (ops : List (Op ℝ)) (hc : ∀ op ∈ ops, cu.OpOk op) (r : Resampler ℝ) (os : List (Option (Buf ℝ)))
    (h : cu.session ops = .ok (r, os))
    (ops' : List (Op ℝ)) (hc' : ∀ op ∈ ops', cd.OpOk op) (r' : Resampler ℝ) (os' : List (Option (Buf ℝ)))
    (h' : cd.session ops' = .ok (r', os')) (hfed : fed ops' = cu.produced ops os)
    (L : List (ℝ × ℝ × ℝ)) (hL : ∀ a ∈ L, |a.2.1| ≤ 40 * Real.pi / 49)
    (ε : ℝ) (hε : 0 ≤ ε) (N : ℕ) (hN : ∀ i, N ≤ i → i < (fed ops).length → |seq (fed ops) i - tones L i| ≤ ε) :
    ∃ du dd : ℚ, r.delay = .ok du ∧ r'.delay = .ok dd ∧
      ∀ m < (cd.produced ops' os').length, N + 128 ≤ m →
        |seq (cd.produced ops' os') m - tones L (m - (du / cu.ratio + dd))| ≤ overErr cu.ratio cu.precision cd.precision * amps L +
          (gainMilli .down cu.ratio cd.precision : ℝ) / 1000 * ((gainMilli .up cu.ratio cu.precision : ℝ) / 1000 * ε) := by
  refine ⟨cu.totalDelay, cd.totalDelay, Config.Reachable.delay hu ⟨ops, os, hc, h⟩, Config.Reachable.delay hd ⟨ops', os', hc', h'⟩,
    fun m hn hset => ?_⟩
  rw [Config.session_op_of hd hc' h' (x := cu.op (toneCont (fed ops) L)) (fun i hi => by
    rw [hfed] at hi ⊢
    exact (Config.session_op_of hu hc h (x := toneCont (fed ops) L) (fun i hi => if_pos hi) i hi).symm) m hn]
  exact op_over_tones hu hd hfu hfd hmu hmd hr hL hε (toneCont_near hε hN) hset

/-- The error of subsampling, for sinusoids in the pass band. -/
noncomputable def subErr (r p p' : ℕ) : ℝ :=
  (1 + (sineNano .down r p : ℝ) / 10 ^ 9) * (1 + (sineNano .up r p' : ℝ) / 10 ^ 9) - 1

/-- Subsampling for the operators. -/
theorem op_sub_tones {cu cd : Config} (hu : cu.Valid) (hd : cd.Valid) (hfu : cu.filter = .fir) (hfd : cd.filter = .fir)
    (hmu : cu.mode = .up) (hmd : cd.mode = .down) (hr : cu.ratio = cd.ratio) {x : ℕ → ℝ}
    {L : List (ℝ × ℝ × ℝ)} (hL : ∀ a ∈ L, |cd.ratio * a.2.1| ≤ 40 * Real.pi / 49) {ε : ℝ} (hε : 0 ≤ ε) {N n : ℕ} (h : NearTones x L ε N)
    (hn : N + 128 * cd.ratio ≤ n) :
    |cu.op (cd.op x) n - tones L (n - ((cd.totalDelay : ℚ) * cd.ratio + (cu.totalDelay : ℚ)))| ≤
      subErr cd.ratio cd.precision cu.precision * amps L +
        (gainMilli .up cd.ratio cu.precision : ℝ) / 1000 * ((gainMilli .down cd.ratio cd.precision : ℝ) / 1000 * ε) := by
  have hs1 := Config.settle_le (K := ℝ) hd hfd N
  simp only [hmd] at hs1
  have hs2 := Config.settle_le (K := ℝ) hu hfu (N / cd.ratio + 65)
  simp only [hmu] at hs2
  rw [hr] at hs2
  have hs3 : cd.ratio * (N / cd.ratio + 65 + 63) ≤ n := by
    have := Nat.mul_div_le N cd.ratio
    linarith
  refine (Config.op_sub_tones hu hd hfu hfd hmu hmd hr hL h (((Config.settle_mono hs1).trans hs2).trans hs3)).trans ?_
  unfold subErr
  have g1 := firNum_gain_le cd hd
  have g2 := firNum_gain_le cu hu
  rw [hmd] at g1
  rw [hmu, hr] at g2
  have s1 := firNum_sine_le cd hd .down
  have s2 := firNum_sine_le cu hu .up
  rw [hr] at s2 ⊢
  have p1 : (0 : ℝ) ≤ (sineErr .down cd.ratio cd.precision : ℚ) := by exact_mod_cast sineErr_nonneg .down cd.ratio cd.precision
  have p2 : (0 : ℝ) ≤ (sineErr .up cd.ratio cu.precision : ℚ) := by exact_mod_cast sineErr_nonneg .up cd.ratio cu.precision
  have q1 := firNum_gain_nonneg cd
  have q2 := firNum_gain_nonneg cu
  have := amps_nonneg L
  gcongr

/-- **C83** Subsampling: what a FIR downsampler produced is fed to a FIR upsampler for the same ratio (but any precision). A sum of sinusoids in
the pass band of the downsampler comes out delayed by `downs.delay () * ratio + ups.delay ()`. -/
theorem C83_subsample (cd cu : Config) (hd : cd.Valid) (hu : cu.Valid) (hfd : cd.filter = .fir) (hfu : cu.filter = .fir)
    (hmd : cd.mode = .down) (hmu : cu.mode = .up) (hr : cu.ratio = cd.ratio)
    (ops : List (Op ℝ)) (hc : ∀ op ∈ ops, cd.OpOk op) (r : Resampler ℝ) (os : List (Option (Buf ℝ)))
    (h : cd.session ops = .ok (r, os))
    (ops' : List (Op ℝ)) (hc' : ∀ op ∈ ops', cu.OpOk op) (r' : Resampler ℝ) (os' : List (Option (Buf ℝ)))
    (h' : cu.session ops' = .ok (r', os')) (hfed : fed ops' = cd.produced ops os)
    (L : List (ℝ × ℝ × ℝ)) (hL : ∀ a ∈ L, |cd.ratio * a.2.1| ≤ 40 * Real.pi / 49)
    (ε : ℝ) (hε : 0 ≤ ε) (N : ℕ) (hN : ∀ i, N ≤ i → i < (fed ops).length → |seq (fed ops) i - tones L i| ≤ ε) :
    ∃ dd du : ℚ, r.delay = .ok dd ∧ r'.delay = .ok du ∧
      ∀ m < (cu.produced ops' os').length, N + 128 * cd.ratio ≤ m →
        |seq (cu.produced ops' os') m - tones L (m - (dd * cd.ratio + du))| ≤ subErr cd.ratio cd.precision cu.precision * amps L +
          (gainMilli .up cd.ratio cu.precision : ℝ) / 1000 * ((gainMilli .down cd.ratio cd.precision : ℝ) / 1000 * ε) := by
  refine ⟨cd.totalDelay, cu.totalDelay, Config.Reachable.delay hd ⟨ops, os, hc, h⟩, Config.Reachable.delay hu ⟨ops', os', hc', h'⟩,
    fun m hn hset => ?_⟩
  rw [Config.session_op_of hu hc' h' (x := cd.op (toneCont (fed ops) L)) (fun i hi => by
    rw [hfed] at hi ⊢
    exact (Config.session_op_of hd hc h (x := toneCont (fed ops) L) (fun i hi => if_pos hi) i hi).symm) m hn]
  exact op_sub_tones hu hd hfu hfd hmu hmd hr hL hε (toneCont_near hε hN) hset

end real

/-- Two binary32 resamplers in a row: how far the outputs are from those of exact arithmetic. -/
theorem chain32 (c₁ c₂ : Config) (h₁ : c₁.Valid) (h₂ : c₂.Valid) (hf₁ : c₁.filter = .fir) (hf₂ : c₂.filter = .fir)
    (ops : List (Op F32)) (hc : ∀ op ∈ ops, c₁.OpOk op) (r : Resampler F32) (os : List (Option (Buf F32)))
    (h : c₁.session ops = .ok (r, os))
    (ops' : List (Op F32)) (hc' : ∀ op ∈ ops', c₂.OpOk op) (r' : Resampler F32) (os' : List (Option (Buf F32)))
    (h' : c₂.session ops' = .ok (r', os')) (hfed : fed ops' = c₁.produced ops os)
    (M : ℚ) (hM0 : 0 ≤ M) (hM : M ≤ 2 ^ 96) (hx : ∀ v ∈ fed ops, ∃ q, v = Fl.fin q ∧ |q| ≤ M)
    (x : ℕ → ℝ) (hxx : ∀ i < (fed ops).length, x i = (((seq (fed ops) i).val : ℚ) : ℝ)) :
    ∀ m < (c₂.produced ops' os').length, ∃ y : ℚ, seq (c₂.produced ops' os') m = Fl.fin y ∧
      |(y : ℝ) - c₂.op (c₁.op x) m| ≤
        (gainMilli c₂.mode c₂.ratio c₂.precision : ℝ) / 1000 * ((rndNano c₁.mode c₁.ratio c₁.precision : ℝ) / 10 ^ 9 * M + 2⁻¹ ^ 140) +
        ((rndNano c₂.mode c₂.ratio c₂.precision : ℝ) / 10 ^ 9 * ((gainMilli c₁.mode c₁.ratio c₁.precision : ℝ) / 1000 * M + 2⁻¹ ^ 140) +
          2⁻¹ ^ 140) := by
  have := accurate_real
  intro m hn
  have hM' : M ≤ 2 ^ 100 := hM.trans (by norm_num)
  have h1 := val_near c₁ h₁ hf₁ ops hc r os h M hM' hx x hxx
  have hb := C22_no_overflow c₁ h₁ hf₁ ops hc r os h M hM' hx
  set M2 : ℚ := (gainMilli c₁.mode c₁.ratio c₁.precision : ℚ) / 1000 * M + 2⁻¹ ^ 140 with hM2
  set R : ℝ := (rndNano c₁.mode c₁.ratio c₁.precision : ℝ) / 10 ^ 9 * M + 2⁻¹ ^ 140 with hR
  have hR0 : 0 ≤ R := by
    have : (0 : ℝ) ≤ M := by exact_mod_cast hM0
    positivity
  have hg8 : (gainMilli c₁.mode c₁.ratio c₁.precision : ℚ) ≤ 8000 := gain_8000 _ (by cases c₁.mode <;> simp) _ h₁.ratio _ h₁.precision
  have hM2' : M2 ≤ 2 ^ 100 := by
    have : (gainMilli c₁.mode c₁.ratio c₁.precision : ℚ) / 1000 ≤ 8 := by linarith
    calc M2 ≤ 8 * 2 ^ 96 + 2⁻¹ ^ 140 := by rw [hM2]; gcongr
      _ ≤ 2 ^ 100 := by norm_num
  -- the exact output of the first resampler, disturbed by the rounding errors
  set e : ℕ → ℝ := fun i => if i < (fed ops').length then (((seq (fed ops') i).val : ℚ) : ℝ) - c₁.op x i else 0 with he
  have hee : ∀ i, |e i| ≤ R := by
    intro i
    simp only [he]
    split
    · next hi =>
      rw [hfed] at hi ⊢
      obtain ⟨y, h2, h3⟩ := h1 i hi
      rw [h2]
      exact h3
    · simpa using hR0
  obtain ⟨y, h2, h3⟩ := val_near c₂ h₂ hf₂ ops' hc' r' os' h' M2 hM2' (by
    intro v hv
    rw [hfed] at hv
    obtain ⟨q, h4, -, h5⟩ := hb v hv
    exact ⟨q, h4, h5⟩) (fun i => c₁.op x i + e i) (fun i hi => by simp only [he, if_pos hi]; ring) m hn
  refine ⟨y, h2, ?_⟩
  have h4 : c₂.op (fun i => c₁.op x i + e i) m = c₂.op (c₁.op x) m + c₂.op e m := congrFun (c₂.op_add (c₁.op x) e) m
  have h5 := Config.op_bound h₂ hf₂ hR0 hee m
  have h7 := mul_le_mul_of_nonneg_right (firNum_gain_le c₂ h₂) hR0
  rw [h4] at h3
  have hM2c : (M2 : ℝ) = (gainMilli c₁.mode c₁.ratio c₁.precision : ℝ) / 1000 * M + 2⁻¹ ^ 140 := by
    rw [hM2]
    push_cast
    rfl
  rw [hM2c] at h3
  rw [abs_le] at h3 h5 ⊢
  constructor <;> linarith [h3.1, h3.2, h5.1, h5.2]

/-- What rounding adds to the error of two resamplers in a row, for samples up to `M`. -/
noncomputable def rndErr2 (m m' : Mode) (r p p' : ℕ) (M : ℝ) : ℝ :=
  (gainMilli m' r p' : ℝ) / 1000 * ((rndNano m r p : ℝ) / 10 ^ 9 * M + 2⁻¹ ^ 140) +
    ((rndNano m' r p' : ℝ) / 10 ^ 9 * ((gainMilli m r p : ℝ) / 1000 * M + 2⁻¹ ^ 140) + 2⁻¹ ^ 140)

/-- **C83** Oversampling in binary32: every output is finite, and the rounding errors of both resamplers add to the bound. -/
theorem C83_round_trip_binary32 (cu cd : Config) (hu : cu.Valid) (hd : cd.Valid) (hfu : cu.filter = .fir) (hfd : cd.filter = .fir)
    (hmu : cu.mode = .up) (hmd : cd.mode = .down) (hr : cd.ratio = cu.ratio)
    (ops : List (Op F32)) (hc : ∀ op ∈ ops, cu.OpOk op) (r : Resampler F32) (os : List (Option (Buf F32)))
    (h : cu.session ops = .ok (r, os))
    (ops' : List (Op F32)) (hc' : ∀ op ∈ ops', cd.OpOk op) (r' : Resampler F32) (os' : List (Option (Buf F32)))
    (h' : cd.session ops' = .ok (r', os')) (hfed : fed ops' = cu.produced ops os)
    (M : ℚ) (hM0 : 0 ≤ M) (hM : M ≤ 2 ^ 96) (hx : ∀ v ∈ fed ops, ∃ q, v = Fl.fin q ∧ |q| ≤ M)
    (L : List (ℝ × ℝ × ℝ)) (hL : ∀ a ∈ L, |a.2.1| ≤ 40 * Real.pi / 49)
    (ε : ℝ) (hε : 0 ≤ ε) (N : ℕ) (hN : ∀ i, N ≤ i → i < (fed ops).length → |(((seq (fed ops) i).val : ℚ) : ℝ) - tones L i| ≤ ε) :
    ∃ du dd : ℚ, r.delay = .ok du ∧ r'.delay = .ok dd ∧
      ∀ m < (cd.produced ops' os').length, N + 128 ≤ m → ∃ y : ℚ, seq (cd.produced ops' os') m = Fl.fin y ∧
        |(y : ℝ) - tones L (m - (du / cu.ratio + dd))| ≤ overErr cu.ratio cu.precision cd.precision * amps L +
          (gainMilli .down cu.ratio cd.precision : ℝ) / 1000 * ((gainMilli .up cu.ratio cu.precision : ℝ) / 1000 * ε) +
          rndErr2 .up .down cu.ratio cu.precision cd.precision M := by
  have := accurate_real
  refine ⟨cu.totalDelay, cd.totalDelay, Config.Reachable.delay hu ⟨ops, os, hc, h⟩, Config.Reachable.delay hd ⟨ops', os', hc', h'⟩,
    fun m hn hset => ?_⟩
  obtain ⟨y, h1, h2⟩ := chain32 cu cd hu hd hfu hfd ops hc r os h ops' hc' r' os' h' hfed M hM0 hM hx (cont32 (fed ops) L)
    (fun i hi => if_pos hi) m hn
  refine ⟨y, h1, ?_⟩
  have h6 := op_over_tones hu hd hfu hfd hmu hmd hr hL hε (cont32_near hε hN) hset
  rw [hmu, hmd, hr] at h2
  unfold rndErr2
  rw [abs_le] at h2 h6 ⊢
  constructor <;> linarith [h2.1, h2.2, h6.1, h6.2]

/-- **C83** Subsampling in binary32. -/
theorem C83_subsample_binary32 (cd cu : Config) (hd : cd.Valid) (hu : cu.Valid) (hfd : cd.filter = .fir) (hfu : cu.filter = .fir)
    (hmd : cd.mode = .down) (hmu : cu.mode = .up) (hr : cu.ratio = cd.ratio)
    (ops : List (Op F32)) (hc : ∀ op ∈ ops, cd.OpOk op) (r : Resampler F32) (os : List (Option (Buf F32)))
    (h : cd.session ops = .ok (r, os))
    (ops' : List (Op F32)) (hc' : ∀ op ∈ ops', cu.OpOk op) (r' : Resampler F32) (os' : List (Option (Buf F32)))
    (h' : cu.session ops' = .ok (r', os')) (hfed : fed ops' = cd.produced ops os)
    (M : ℚ) (hM0 : 0 ≤ M) (hM : M ≤ 2 ^ 96) (hx : ∀ v ∈ fed ops, ∃ q, v = Fl.fin q ∧ |q| ≤ M)
    (L : List (ℝ × ℝ × ℝ)) (hL : ∀ a ∈ L, |cd.ratio * a.2.1| ≤ 40 * Real.pi / 49)
    (ε : ℝ) (hε : 0 ≤ ε) (N : ℕ) (hN : ∀ i, N ≤ i → i < (fed ops).length → |(((seq (fed ops) i).val : ℚ) : ℝ) - tones L i| ≤ ε) :
    ∃ dd du : ℚ, r.delay = .ok dd ∧ r'.delay = .ok du ∧
      ∀ m < (cu.produced ops' os').length, N + 128 * cd.ratio ≤ m → ∃ y : ℚ, seq (cu.produced ops' os') m = Fl.fin y ∧
        |(y : ℝ) - tones L (m - (dd * cd.ratio + du))| ≤ subErr cd.ratio cd.precision cu.precision * amps L +
          (gainMilli .up cd.ratio cu.precision : ℝ) / 1000 * ((gainMilli .down cd.ratio cd.precision : ℝ) / 1000 * ε) +
          rndErr2 .down .up cd.ratio cd.precision cu.precision M := by
  have := accurate_real
  refine ⟨cd.totalDelay, cu.totalDelay, Config.Reachable.delay hd ⟨ops, os, hc, h⟩, Config.Reachable.delay hu ⟨ops', os', hc', h'⟩,
    fun m hn hset => ?_⟩
  obtain ⟨y, h1, h2⟩ := chain32 cd cu hd hu hfd hfu ops hc r os h ops' hc' r' os' h' hfed M hM0 hM hx (cont32 (fed ops) L)
    (fun i hi => if_pos hi) m hn
  refine ⟨y, h1, ?_⟩
  have h6 := op_sub_tones hu hd hfu hfd hmu hmd hr hL hε (cont32_near hε hN) hset
  rw [hmu, hmd, hr] at h2
  unfold rndErr2
  rw [abs_le] at h2 h6 ⊢
  constructor <;> linarith [h2.1, h2.2, h6.1, h6.2]

/-! ## Examples -/

/-- Two sessions in a row: what the first produced is fed to the second. -/
theorem realChain (c₁ c₂ : Config) (h₁ : c₁.Valid) (h₂ : c₂.Valid) (x : ℕ → ℝ) (n m k : ℕ) (hm : c₁.outLen n = m)
    (ho₁ : c₁.CallOk (realCall (fun _ => 0) n m)) (ho₂ : c₂.CallOk (realCall (fun _ => 0) m k)) :
    ∃ q, c₁.session [Op.process (realCall x n m)] = .ok q ∧ ∃ ops' q', (∀ op ∈ ops', c₂.OpOk op) ∧ c₂.session ops' = .ok q' ∧
      fed ops' = c₁.produced [Op.process (realCall x n m)] q.2 ∧ (c₂.produced ops' q'.2).length = c₂.outLen m := by
  have hc := opOk_realCall c₁ x n m ho₁
  obtain ⟨r, os, h, -⟩ := C04_output_frame c₁ h₁ _ hc
  have hl := Config.produced_length h₁ (Config.session_rel' h₁ hc h)
  rw [(fed_realCall x n m).1, hm] at hl
  refine ⟨_, h, ?_⟩
  have hc' := opOk_realCall c₂ (seq (c₁.produced [Op.process (realCall x n m)] os)) m k ho₂
  obtain ⟨f1, f2⟩ := fed_realCall (seq (c₁.produced [Op.process (realCall x n m)] os)) m k
  obtain ⟨r', os', h', -⟩ := C04_output_frame c₂ h₂ _ hc'
  have hl' := Config.produced_length h₂ (Config.session_rel' h₂ hc' h')
  rw [f1] at hl'
  refine ⟨_, _, hc', h', ?_, hl'⟩
  refine List.ext_getElem (f1.trans hl.symm) fun i h1 h2 => ?_
  have := f2 i (h1.trans_eq f1)
  rwa [seq_lt h1, seq_lt h2] at this

private theorem two_le_edge : (2 : ℝ) ≤ 40 * Real.pi / 49 := by linarith [Real.pi_gt_d2]

/-- C83 for a real session: the response of a downsampler by 8 with 24 bits, for `5 cos (i)` (56 kHz): the output is a sinusoid with an
amplitude below `645 / 10^9`. -/
example : ∃ q, (cfg .down 8 24 false .fir).session [Op.process (realCall (fun i => 5 * Real.cos (1 * i + 2)) 800 100)] = .ok q ∧
    ∃ d : ℚ, q.1.delay = .ok d ∧ ∃ A : ℝ, |A| ≤ 645 / 10 ^ 9 ∧ ∀ m : ℕ, m < 100 → 65 ≤ m →
      seq ((cfg .down 8 24 false .fir).produced [Op.process (realCall (fun i => 5 * Real.cos (1 * i + 2)) 800 100)] q.2) m =
        A * Real.cos (1 * (8 * (m - d)) + 2) := by
  have := accurate_real
  have hv : (cfg .down 8 24 false .fir).Valid := ⟨by decide, by decide, by decide⟩
  have hc := opOk_realCall (cfg .down 8 24 false .fir) (fun i => 5 * Real.cos (1 * i + 2)) 800 100
    ⟨by decide, by decide, by decide, by decide, by decide, by decide, by decide⟩
  obtain ⟨f1, f2⟩ := fed_realCall (fun i => 5 * Real.cos (1 * i + 2)) 800 100
  obtain ⟨r, os, h, -⟩ := C04_output_frame (cfg .down 8 24 false .fir) hv _ hc
  have hl := (Config.session_op hv hc h).1
  rw [f1] at hl
  obtain ⟨D, -, -, h1, h2⟩ := C83_response_down (cfg .down 8 24 false .fir) hv rfl rfl
  obtain ⟨d, h3, h4⟩ := h2 _ hc r os h 5 1 2 0 le_rfl 0 (by
    intro i _ hi
    rw [f2 i (hi.trans_eq f1)]
    simp)
  refine ⟨_, h, d, h3, 5 * D 8, ?_, fun m hm h65 => ?_⟩
  · have := h1 8 1 (by decide) (by
      rw [abs_le]
      push_cast
      constructor <;> linarith [Real.pi_gt_d2, Real.pi_lt_d2])
    rw [abs_mul, abs_of_pos (by norm_num : (0 : ℝ) < 5)]
    have e : (stopNano (cfg .down 8 24 false .fir).ratio (cfg .down 8 24 false .fir).precision : ℝ) = 129 := by norm_num [stopNano, cfg]
    rw [e] at this
    linarith
  · have := h4 m (by rw [hl]; exact hm) (by simpa using h65)
    rw [mul_zero] at this
    have := sub_eq_zero.1 (abs_eq_zero.1 (le_antisymm this (abs_nonneg _)))
    rw [this, show ((cfg .down 8 24 false .fir).ratio : ℝ) = 8 by norm_num [cfg], mul_one]

/-- C83 for a real session: upsampling by 4 with 16 bits, for `3 cos (2 i + 1)` (14 kHz). -/
example : ∃ q, (cfg .up 4 16 true .fir).session [Op.process (realCall (fun i => 3 * Real.cos (2 * i + 1)) 100 400)] = .ok q ∧
    ∃ d : ℚ, q.1.delay = .ok d ∧ ∃ (A : ℝ) (S : List (ℝ × ℝ × ℝ)), |A - 3| ≤ 3 * 29718 / 10 ^ 9 ∧ amps S ≤ 3 * 29718 / 10 ^ 9 ∧
      ∀ n : ℕ, n < 400 → 252 ≤ n →
        seq ((cfg .up 4 16 true .fir).produced [Op.process (realCall (fun i => 3 * Real.cos (2 * i + 1)) 100 400)] q.2) n =
          A * Real.cos (2 * ((n - d) / 4) + 1) + tones S n := by
  have := accurate_real
  have hv : (cfg .up 4 16 true .fir).Valid := ⟨by decide, by decide, by decide⟩
  have hc := opOk_realCall (cfg .up 4 16 true .fir) (fun i => 3 * Real.cos (2 * i + 1)) 100 400
    ⟨by decide, by decide, by decide, by decide, by decide, by decide, by decide⟩
  obtain ⟨f1, f2⟩ := fed_realCall (fun i => 3 * Real.cos (2 * i + 1)) 100 400
  obtain ⟨r, os, h, -⟩ := C04_output_frame (cfg .up 4 16 true .fir) hv _ hc
  have hl := (Config.session_op hv hc h).1
  rw [f1] at hl
  have hw : |(2 : ℝ)| ≤ 40 * Real.pi / 49 := by simpa using two_le_edge
  obtain ⟨U, h1, h2⟩ := C83_response_up (cfg .up 4 16 true .fir) hv rfl rfl
  obtain ⟨d, h3, S, h4, -, h5⟩ := h2 _ hc r os h 3 2 1 0 hw le_rfl 0 (by
    intro i _ hi
    rw [f2 i (hi.trans_eq f1)]
    simp)
  refine ⟨_, h, d, h3, 3 * U 2, S, ?_, ?_, fun n hn h252 => ?_⟩
  · have := h1 2 hw
    have e : (sineNano .down (cfg .up 4 16 true .fir).ratio (cfg .up 4 16 true .fir).precision : ℝ) = 29718 := by norm_num [sineNano, cfg]
    rw [e] at this
    rw [show 3 * U 2 - 3 = 3 * (U 2 - 1) by ring, abs_mul, abs_of_pos (by norm_num : (0 : ℝ) < 3)]
    linarith
  · refine h4.trans (le_of_eq ?_)
    norm_num [imgNano, cfg]
  · have := h5 n (by rw [hl]; exact hn) (show 4 * (0 + 63) ≤ n by omega)
    rw [mul_zero] at this
    have := sub_eq_zero.1 (abs_eq_zero.1 (le_antisymm this (abs_nonneg _)))
    rw [this, show ((cfg .up 4 16 true .fir).ratio : ℝ) = 4 by norm_num [cfg]]

/-- C83 for a real session: up with 24 bits, down with 20 bits, ratio 2; 150 samples of `cos (2 i)`. C53 gives 1301 instead of 1173. -/
example : ∃ q, (cfg .up 2 24 true .fir).session [Op.process (realCall (fun i => Real.cos (2 * i)) 150 300)] = .ok q ∧
    ∃ ops' q', (cfg .down 2 20 true .fir).session ops' = .ok q' ∧
      fed ops' = (cfg .up 2 24 true .fir).produced [Op.process (realCall (fun i => Real.cos (2 * i)) 150 300)] q.2 ∧
    ∃ du dd : ℚ, q.1.delay = .ok du ∧ q'.1.delay = .ok dd ∧
      |seq ((cfg .down 2 20 true .fir).produced ops' q'.2) 140 - Real.cos (2 * (140 - (du / 2 + dd)))| ≤ 1173 / 10 ^ 9 := by
  have := accurate_real
  have hv : (cfg .up 2 24 true .fir).Valid := ⟨by decide, by decide, by decide⟩
  have hv' : (cfg .down 2 20 true .fir).Valid := ⟨by decide, by decide, by decide⟩
  have o1 : (cfg .up 2 24 true .fir).CallOk (realCall (fun _ => 0) 150 300) :=
    ⟨by decide, by decide, by decide, by decide, by decide, by decide, by decide⟩
  obtain ⟨q, h, ops', q', hc', h', hfed, hl⟩ := realChain (cfg .up 2 24 true .fir) (cfg .down 2 20 true .fir) hv hv'
    (fun i => Real.cos (2 * i)) 150 300 150 (by decide) o1 ⟨by decide, by decide, by decide, by decide, by decide, by decide, by decide⟩
  obtain ⟨f1, f2⟩ := fed_realCall (fun i => Real.cos (2 * i)) 150 300
  obtain ⟨du, dd, hdu, hdd, hy⟩ := C83_round_trip (cfg .up 2 24 true .fir) (cfg .down 2 20 true .fir) hv hv' rfl rfl rfl rfl rfl _
    (opOk_realCall _ _ _ _ o1) q.1 q.2 h _ hc' q'.1 q'.2 h' hfed [(1, 2, 0)] (by
    intro a ha
    simp only [List.mem_cons, List.not_mem_nil, or_false] at ha
    subst ha
    simpa using two_le_edge) 0 (le_refl _) 0 (by
    intro i _ hi
    rw [f2 i (hi.trans_eq f1), tones_cons, tones_nil]
    simp)
  refine ⟨_, h, ops', q', h', hfed, du, dd, hdu, hdd, ?_⟩
  have := hy 140 (by rw [hl]; decide) (by decide)
  simp only [tones_cons, tones_nil, show (cfg .up 2 24 true .fir).ratio = 2 from rfl, show (cfg .up 2 24 true .fir).precision = 24 from rfl,
    show (cfg .down 2 20 true .fir).precision = 20 from rfl, mul_zero, add_zero, one_mul] at this
  push_cast at this
  refine this.trans ?_
  norm_num [amps, overErr, sineNano, stopNano, imgNano]

/-- C83 for a real session: down by 4 with 16 bits, up by 4 with 24 bits; 600 samples of `cos (i / 2)` (14 kHz of 176 kHz). -/
example : ∃ q, (cfg .down 4 16 true .fir).session [Op.process (realCall (fun i => Real.cos (1 / 2 * i)) 600 150)] = .ok q ∧
    ∃ ops' q', (cfg .up 4 24 false .fir).session ops' = .ok q' ∧
      fed ops' = (cfg .down 4 16 true .fir).produced [Op.process (realCall (fun i => Real.cos (1 / 2 * i)) 600 150)] q.2 ∧
    ∃ dd du : ℚ, q.1.delay = .ok dd ∧ q'.1.delay = .ok du ∧
      |seq ((cfg .up 4 24 false .fir).produced ops' q'.2) 555 - Real.cos (1 / 2 * (555 - (dd * 4 + du)))| ≤ 30155 / 10 ^ 9 := by
  have := accurate_real
  have hv : (cfg .down 4 16 true .fir).Valid := ⟨by decide, by decide, by decide⟩
  have hv' : (cfg .up 4 24 false .fir).Valid := ⟨by decide, by decide, by decide⟩
  have o1 : (cfg .down 4 16 true .fir).CallOk (realCall (fun _ => 0) 600 150) :=
    ⟨by decide, by decide, by decide, by decide, by decide, by decide, by decide⟩
  obtain ⟨q, h, ops', q', hc', h', hfed, hl⟩ := realChain (cfg .down 4 16 true .fir) (cfg .up 4 24 false .fir) hv hv'
    (fun i => Real.cos (1 / 2 * i)) 600 150 600 (by decide) o1 ⟨by decide, by decide, by decide, by decide, by decide, by decide, by decide⟩
  obtain ⟨f1, f2⟩ := fed_realCall (fun i => Real.cos (1 / 2 * i)) 600 150
  obtain ⟨dd, du, hdd, hdu, hy⟩ := C83_subsample (cfg .down 4 16 true .fir) (cfg .up 4 24 false .fir) hv hv' rfl rfl rfl rfl rfl _
    (opOk_realCall _ _ _ _ o1) q.1 q.2 h _ hc' q'.1 q'.2 h' hfed [(1, 1 / 2, 0)] (by
    intro a ha
    simp only [List.mem_cons, List.not_mem_nil, or_false] at ha
    subst ha
    rw [show (cfg .down 4 16 true .fir).ratio = 4 from rfl]
    norm_num
    linarith [Real.pi_gt_d2]) 0 (le_refl _) 0 (by
    intro i _ hi
    rw [f2 i (hi.trans_eq f1), tones_cons, tones_nil]
    simp)
  refine ⟨_, h, ops', q', h', hfed, dd, du, hdd, hdu, ?_⟩
  have := hy 555 (by rw [hl]; decide) (by decide)
  simp only [tones_cons, tones_nil, show (cfg .down 4 16 true .fir).ratio = 4 from rfl, show (cfg .down 4 16 true .fir).precision = 16 from rfl,
    show (cfg .up 4 24 false .fir).precision = 24 from rfl, mul_zero, add_zero, one_mul] at this
  push_cast at this
  refine this.trans ?_
  norm_num [amps, subErr, sineNano]

/-- Two binary32 sessions in a row, the first of them is fed the samples `x 0, x 1, ...`. -/
theorem chainF32 (c₁ c₂ : Config) (h₁ : c₁.Valid) (h₂ : c₂.Valid) (x : ℕ → ℚ) (n m k : ℕ) (hm : c₁.outLen n = m)
    (ho₁ : c₁.CallOk (call32 (fun _ => 0) n m)) (ho₂ : c₂.CallOk (call32 (fun _ => 0) m k)) :
    ∃ q, (∀ op ∈ [Op.process (call32 x n m)], c₁.OpOk op) ∧ c₁.session [Op.process (call32 x n m)] = .ok q ∧
      ∃ ops' q', (∀ op ∈ ops', c₂.OpOk op) ∧ c₂.session ops' = .ok q' ∧
      fed ops' = c₁.produced [Op.process (call32 x n m)] q.2 ∧ (c₂.produced ops' q'.2).length = c₂.outLen m := by
  have hc : ∀ op ∈ [Op.process (call32 x n m)], c₁.OpOk op := by
    intro op hop
    simp only [List.mem_cons, List.not_mem_nil, or_false] at hop
    subst hop
    exact ⟨ho₁.uint, ho₁.input, ho₁.output, ho₁.mul, ho₁.large, ho₁.nonempty, ho₁.behind⟩
  obtain ⟨r, os, h, -⟩ := C04_output_frame c₁ h₁ _ hc
  have hl := Config.produced_length h₁ (Config.session_rel' h₁ hc h)
  rw [fed_call32, List.length_map, List.length_range, hm] at hl
  refine ⟨_, hc, h, ?_⟩
  set ys := c₁.produced [Op.process (call32 x n m)] os with hys
  set c : Call F32 := { call32 (fun _ => 0) m k with input := { addr := 4, len := m, get := seq ys } } with hcdef
  have hc' : ∀ op ∈ [Op.process c], c₂.OpOk op := by
    intro op hop
    simp only [List.mem_cons, List.not_mem_nil, or_false] at hop
    subst hop
    exact ⟨ho₂.uint, ho₂.input, ho₂.output, ho₂.mul, ho₂.large, ho₂.nonempty, ho₂.behind⟩
  have f1 : fed [Op.process c] = (List.range m).map (seq ys) := by simp [fed, fedStep, hcdef, call32, Call.samples]
  obtain ⟨r', os', h', -⟩ := C04_output_frame c₂ h₂ _ hc'
  have hl' := Config.produced_length h₂ (Config.session_rel' h₂ hc' h')
  rw [f1, List.length_map, List.length_range] at hl'
  refine ⟨_, _, hc', h', ?_, hl'⟩
  rw [f1]
  refine List.ext_getElem (by rw [List.length_map, List.length_range, hl]) fun i h1 h2 => ?_
  rw [List.getElem_map, List.getElem_range]
  simp [seq, List.getD_eq_getElem?_getD, h2]

private theorem seq_map_range {n i : ℕ} (x : ℕ → F32) (hi : i < n) : seq ((List.range n).map x) i = x i := by simp [seq, hi]

/-- C83 for a binary32 session: a constant, oversampled by 2 (16 bits up, 24 bits down). -/
example : ∃ q, (cfg .up 2 16 true .fir).session [Op.process (call32 (fun _ => 1 / 2) 200 400)] = .ok q ∧
    ∃ ops' q', (cfg .down 2 24 true .fir).session ops' = .ok q' ∧
      fed ops' = (cfg .up 2 16 true .fir).produced [Op.process (call32 (fun _ => 1 / 2) 200 400)] q.2 ∧
      ∃ y : ℚ, seq ((cfg .down 2 24 true .fir).produced ops' q'.2) 180 = Fl.fin y ∧ |(y : ℝ) - 1 / 2| ≤ 3 / 10 ^ 5 := by
  have hv : (cfg .up 2 16 true .fir).Valid := ⟨by decide, by decide, by decide⟩
  have hv' : (cfg .down 2 24 true .fir).Valid := ⟨by decide, by decide, by decide⟩
  obtain ⟨q, hc, h, ops', q', hc', h', hfed, hl⟩ := chainF32 (cfg .up 2 16 true .fir) (cfg .down 2 24 true .fir) hv hv' (fun _ => 1 / 2)
    200 400 200 (by decide) ⟨by decide, by decide, by decide, by decide, by decide, by decide, by decide⟩
    ⟨by decide, by decide, by decide, by decide, by decide, by decide, by decide⟩
  have hf := fed_call32 (fun _ => 1 / 2) 200 400
  obtain ⟨du, dd, -, -, hy⟩ := C83_round_trip_binary32 (cfg .up 2 16 true .fir) (cfg .down 2 24 true .fir) hv hv' rfl rfl rfl rfl rfl _ hc
    q.1 q.2 h _ hc' q'.1 q'.2 h' hfed (1 / 2) (by norm_num) (by norm_num) (by
    intro v hv
    rw [hf] at hv
    obtain ⟨i, -, rfl⟩ := List.mem_map.1 hv
    exact ⟨_, rfl, by norm_num⟩) [(1 / 2, 0, 0)] (by
    intro a ha
    simp only [List.mem_cons, List.not_mem_nil, or_false] at ha
    subst ha
    simp only [abs_zero]
    positivity) 0 (le_refl _) 0 (by
    intro i _ hi
    rw [hf] at hi ⊢
    rw [List.length_map, List.length_range] at hi
    rw [seq_map_range _ hi, tones_cons, tones_nil]
    simp [Fl.val, Fl.fin])
  obtain ⟨y, h1, h2⟩ := hy 180 (by rw [hl]; decide) (by decide)
  refine ⟨_, h, _, _, h', hfed, y, h1, ?_⟩
  rw [tones_cons, tones_nil] at h2
  simp only [zero_mul, add_zero, Real.cos_zero, mul_one, mul_zero] at h2
  refine h2.trans ?_
  norm_num [amps, overErr, rndErr2, sineNano, stopNano, imgNano, gainMilli, rndNano, cfg]

/-- C83 for a binary32 session: the same, subsampled. -/
example : ∃ q, (cfg .down 2 24 true .fir).session [Op.process (call32 (fun _ => 1 / 2) 400 200)] = .ok q ∧
    ∃ ops' q', (cfg .up 2 16 true .fir).session ops' = .ok q' ∧
      fed ops' = (cfg .down 2 24 true .fir).produced [Op.process (call32 (fun _ => 1 / 2) 400 200)] q.2 ∧
      ∃ y : ℚ, seq ((cfg .up 2 16 true .fir).produced ops' q'.2) 350 = Fl.fin y ∧ |(y : ℝ) - 1 / 2| ≤ 3 / 10 ^ 5 := by
  have hv : (cfg .down 2 24 true .fir).Valid := ⟨by decide, by decide, by decide⟩
  have hv' : (cfg .up 2 16 true .fir).Valid := ⟨by decide, by decide, by decide⟩
  obtain ⟨q, hc, h, ops', q', hc', h', hfed, hl⟩ := chainF32 (cfg .down 2 24 true .fir) (cfg .up 2 16 true .fir) hv hv' (fun _ => 1 / 2)
    400 200 400 (by decide) ⟨by decide, by decide, by decide, by decide, by decide, by decide, by decide⟩
    ⟨by decide, by decide, by decide, by decide, by decide, by decide, by decide⟩
  have hf := fed_call32 (fun _ => 1 / 2) 400 200
  obtain ⟨dd, du, -, -, hy⟩ := C83_subsample_binary32 (cfg .down 2 24 true .fir) (cfg .up 2 16 true .fir) hv hv' rfl rfl rfl rfl rfl _ hc
    q.1 q.2 h _ hc' q'.1 q'.2 h' hfed (1 / 2) (by norm_num) (by norm_num) (by
    intro v hv
    rw [hf] at hv
    obtain ⟨i, -, rfl⟩ := List.mem_map.1 hv
    exact ⟨_, rfl, by norm_num⟩) [(1 / 2, 0, 0)] (by
    intro a ha
    simp only [List.mem_cons, List.not_mem_nil, or_false] at ha
    subst ha
    simp only [mul_zero, abs_zero]
    positivity) 0 (le_refl _) 0 (by
    intro i _ hi
    rw [hf] at hi ⊢
    rw [List.length_map, List.length_range] at hi
    rw [seq_map_range _ hi, tones_cons, tones_nil]
    simp [Fl.val, Fl.fin])
  obtain ⟨y, h1, h2⟩ := hy 350 (by rw [hl]; decide) (by decide)
  refine ⟨_, h, _, _, h', hfed, y, h1, ?_⟩
  rw [tones_cons, tones_nil] at h2
  simp only [zero_mul, add_zero, Real.cos_zero, mul_one, mul_zero] at h2
  refine h2.trans ?_
  norm_num [amps, subErr, rndErr2, sineNano, gainMilli, rndNano, cfg]

end Panda
