import Verif.Model.TestDelay
import Verif.Props.TestPrograms
import Verif.Props.MultiDelay

/-!
# C99: the tests of testmultidelay meet the bound they print

testmultidelay.cc prints the error next to the bound 0.00005, but does not compare the two, and takes the difference without its sign.
Here: the error is below the bound in all tests that are run without arguments, and so is the absolute value of each difference.
-/

set_option linter.unusedSectionVars false

namespace Panda.Tool

open Panda Examples

section real

variable [Sample ℝ]

private theorem sig_cos (x : ℝ) : Real.sin (x * 1000 / 44100 * 2 * Real.pi) = Real.cos (20 * Real.pi / 441 * x + -(Real.pi / 2)) := by
  rw [← sub_eq_add_neg, Real.cos_sub_pi_div_two]
  congr 1
  ring

private theorem sin_up {r : ℕ} (h : r ≠ 0) (x : ℝ) : Real.sin (x * 1000 / newRate .up r * 2 * Real.pi) = Real.sin (x / r * 1000 / 44100 * 2 * Real.pi) := by
  have : (r : ℝ) ≠ 0 := Nat.cast_ne_zero.2 h
  rw [newRate, show x * 1000 / (44100 * r) = x / r * 1000 / 44100 by field_simp]

private theorem sin_down {r : ℕ} (h : r ≠ 0) (x : ℝ) :
    Real.sin (x * 1000 / newRate .down r * 2 * Real.pi) = Real.sin (r * x * 1000 / 44100 * 2 * Real.pi) := by
  have : (r : ℝ) ≠ 0 := Nat.cast_ne_zero.2 h
  rw [newRate, show x * 1000 / (44100 / r) = r * x * 1000 / 44100 by field_simp]

/-- One call of `process_block` of a new resampler is a session. -/
private theorem once {cfg : Config} (hv : cfg.Valid) {r r' : Resampler ℝ} {c : Call ℝ} (hc : cfg.CallOk c) {o : Buf ℝ} (h : cfg.new = .ok r)
    (h' : r.processBlock cfg.bld c.st c.input c.n c.output = .ok (r', o)) :
    cfg.session [.process c] = .ok (r', [some o]) ∧ fed [.process c] = c.samples ∧
      cfg.produced [.process c] [some o] = o.toList (cfg.outLen c.n) ∧ o.len = c.output.len := by
  refine ⟨?_, by simp [fed, fedStep], by simp [Config.produced, Config.producedStep], ?_⟩
  · simp only [Config.session, h, ok_bind, Resampler.runOps, h', pure_eq_ok]
  · obtain ⟨r0, h0, hf⟩ := Resampler.new_fresh (F := ℝ) hv
    rw [h] at h0
    cases h0
    obtain ⟨q, hq, -, hl, -⟩ := hf.state.step hv hf hc
    rw [h'] at hq
    cases hq
    exact hl

private theorem readAll_eq {out : Buf ℝ} {n : ℕ} {l : List ℝ} (h : n ≤ out.len) (hl : readAll out n = .ok l) : l = out.toList n := by
  obtain ⟨_, e, h⟩ := readAll_sat h
  rw [hl] at e
  cases e
  exact h

private theorem toList_length (b : Buf ℝ) (n : ℕ) : (b.toList n).length = n := by simp [Buf.toList]

private theorem fed_sig (c : Call ℝ) (hg : c.input.get = delaySig) (i : ℕ) (hi : i < c.samples.length) :
    seq c.samples i = Real.cos (20 * Real.pi / 441 * i + -(Real.pi / 2)) := by
  have hl : c.samples.length = c.n := by simp [Call.samples]
  rw [← sig_cos]
  have : seq c.samples i = c.input.get i := by
    simp [seq, Call.samples, hl ▸ hi]
  rw [this, hg, delaySig]

/-- The largest difference is small if all are. -/
private theorem delayError_le {dir : Dir} {ratio : ℕ} {d : ℚ} {out : List ℝ} {b : ℝ} (h0 : 0 ≤ b) {n : ℕ}
    (h : ∀ i < n, (d : ℝ) < i - d → |out.getD i 0 - expected dir ratio d i| ≤ b) : delayError dir ratio d out n ≤ b := by
  induction n with
  | zero => exact h0
  | succ n ih =>
    have ih := ih fun i hi => h i (by omega)
    unfold delayError
    split
    · rename_i hd
      refine max_le ih ?_
      have := abs_le.1 (h n (by omega) hd)
      linarith
    · exact ih

/-- `out_samples` (testmultidelay.cc:59, 67, 75). -/
def outSamples (dir : Dir) (ratio : ℕ) : ℕ :=
  match dir with
  | .up => 1024 * ratio
  | .down => 1024 / ratio
  | .over => 1024

private theorem valid {t : Multi} (hr : t.ratio ∈ [1, 2, 4, 8]) (hk : t.kind = .fir) (hb : findPrecisionForBits t.bits ∈ [16, 20, 24]) (m : Mode) :
    (t.cfg m).Valid := by
  refine ⟨hr, ?_, by simp [Multi.cfg, hk]⟩
  simp only [Multi.cfg, List.mem_cons, List.not_mem_nil, or_false] at hb ⊢
  tauto

private theorem fir {t : Multi} (hk : t.kind = .fir) (m : Mode) : (t.cfg m).filter = .fir := by simp [Multi.cfg, hk]

private theorem small : |20 * Real.pi / 441| ≤ 40 * Real.pi / 441 := by
  rw [abs_of_pos (by positivity)]
  have := Real.pi_pos
  linarith

private theorem small_ratio {r : ℕ} (h : r ≤ 8) : |r * (20 * Real.pi / 441)| ≤ 40 * Real.pi / 49 := by
  rw [abs_of_nonneg (by positivity)]
  have : (r : ℝ) ≤ 8 := by exact_mod_cast h
  have := mul_le_mul_of_nonneg_right this Real.pi_pos.le
  have := Real.pi_pos
  linarith

private theorem expected_eq {dir : Dir} {ratio : ℕ} {d : ℚ} (h0 : 0 ≤ d) {i : ℕ} (hd : (d : ℝ) < i - d) :
    expected dir ratio d i = Real.sin ((i - d) * 1000 / newRate dir ratio * 2 * Real.pi) := by
  have : (0 : ℝ) ≤ d := by exact_mod_cast h0
  exact if_pos (by linarith)

variable [Accurate ℝ]

/-- What is claimed of the output and the delay. -/
private def Good (t : Multi) (dir : Dir) (D : ℚ) (q : List ℝ × ℚ) : Prop :=
  q.2 = D ∧ q.1.length = outSamples dir t.ratio ∧ ∀ i < q.1.length, (q.2 : ℝ) < i - q.2 →
    |q.1.getD i 0 - Real.sin ((i - q.2) * 1000 / newRate dir t.ratio * 2 * Real.pi)| ≤ 1 / 20000

private theorem up_run (t : Multi) (hr : t.ratio ∈ [1, 2, 4, 8]) (hk : t.kind = .fir) (hb : findPrecisionForBits t.bits ∈ [16, 20, 24])
    (ia oa ta : ℕ) (stk : Stack ℝ × Stack ℝ) {q : List ℝ × ℚ} (h : multiDelay t .up delaySig ia oa ta stk = .ok q) :
    Good t .up (t.cfg .up).totalDelay q := by
  have hv := valid hr hk hb .up
  have hle : 1 ≤ t.ratio ∧ t.ratio ≤ 8 := by
    simp only [List.mem_cons, List.not_mem_nil, or_false] at hr
    omega
  unfold multiDelay at h
  obtain ⟨ups, hu, h⟩ := bind_ok h
  obtain ⟨downs, hdn, h⟩ := bind_ok h
  obtain ⟨_, -, h⟩ := bind_ok h
  obtain ⟨⟨r, o⟩, hp, h⟩ := bind_ok h
  obtain ⟨d, hd, h⟩ := bind_ok h
  obtain ⟨l, hl, h⟩ := bind_ok h
  cases h
  set c : Call ℝ := ⟨stk.1, ⟨ia, 1024, delaySig⟩, 1024, ⟨oa, 1024 * 8, fun _ => 0⟩⟩ with hc
  have hok : (t.cfg .up).CallOk c := by
    refine ⟨by simp [hc], by simp [hc], ?_, by simp [Multi.cfg], by simp [hc], by simp [hc], by simp [fir hk]⟩
    show 1024 * t.ratio ≤ 1024 * 8
    omega
  obtain ⟨h1, h2, h3, h4⟩ := once hv hok hu hp
  have h4 : o.len = 1024 * 8 := h4
  have hl := readAll_eq (by rw [h4]; omega) hl
  have hops : ∀ op ∈ [Op.process c], (t.cfg .up).OpOk op := by simpa [Config.OpOk] using hok
  obtain ⟨d', hd', hy⟩ := C85_up (t.cfg .up) hv (fir hk .up) rfl hb [.process c] hops r [some o] h1 (20 * Real.pi / 441) (-(Real.pi / 2)) small
    (by rw [h2]; exact fed_sig c rfl)
  have hdd : d' = d := by
    have : (.ok d' : Res ℚ) = .ok d := hd'.symm.trans hd
    cases this
    rfl
  subst hdd
  have hdt : d' = (t.cfg .up).totalDelay := by
    have : (.ok d' : Res ℚ) = .ok _ := hd.symm.trans (Config.Reachable.delay hv ⟨_, _, hops, h1⟩)
    cases this
    rfl
  have ho : (t.cfg .up).outLen c.n = 1024 * t.ratio := rfl
  rw [h3, ho, ← hl] at hy
  refine ⟨hdt, by simp only [hl, toList_length, outSamples], fun i hi hlt => ?_⟩
  have e : Real.sin ((i - (d' : ℝ)) * 1000 / newRate .up t.ratio * 2 * Real.pi) =
      Real.cos (20 * Real.pi / 441 * ((i - d') / t.ratio) + -(Real.pi / 2)) := by
    rw [← sig_cos]
    exact sin_up (by omega) _
  have := hy i hi hlt
  simp only [maxError] at this
  rw [e]
  exact this

private theorem down_run (t : Multi) (hr : t.ratio ∈ [1, 2, 4, 8]) (hk : t.kind = .fir) (hb : findPrecisionForBits t.bits ∈ [16, 20, 24])
    (ia oa ta : ℕ) (stk : Stack ℝ × Stack ℝ) {q : List ℝ × ℚ} (h : multiDelay t .down delaySig ia oa ta stk = .ok q) :
    Good t .down (t.cfg .down).totalDelay q := by
  have hv := valid hr hk hb .down
  have hle : 1 ≤ t.ratio ∧ t.ratio ≤ 8 := by
    simp only [List.mem_cons, List.not_mem_nil, or_false] at hr
    omega
  have hmod : 1024 % t.ratio = 0 := by
    simp only [List.mem_cons, List.not_mem_nil, or_false] at hr
    rcases hr with h | h | h | h <;> rw [h]
  unfold multiDelay at h
  obtain ⟨ups, hu0, h⟩ := bind_ok h
  obtain ⟨downs, hu, h⟩ := bind_ok h
  obtain ⟨_, -, h⟩ := bind_ok h
  obtain ⟨⟨r, o⟩, hp, h⟩ := bind_ok h
  obtain ⟨d, hd, h⟩ := bind_ok h
  obtain ⟨l, hl, h⟩ := bind_ok h
  cases h
  set c : Call ℝ := ⟨stk.1, ⟨ia, 1024, delaySig⟩, 1024, ⟨oa, 1024 * 8, fun _ => 0⟩⟩ with hc
  have hok : (t.cfg .down).CallOk c := by
    refine ⟨by simp [hc], by simp [hc], ?_, fun _ => hmod, by simp [hc], by simp [hc], by simp [fir hk]⟩
    show 1024 / t.ratio ≤ 1024 * 8
    have := Nat.div_le_self 1024 t.ratio
    omega
  obtain ⟨h1, h2, h3, h4⟩ := once hv hok hu hp
  have h4 : o.len = 1024 * 8 := h4
  have hl := readAll_eq (by
    have := Nat.div_le_self 1024 t.ratio
    rw [h4]
    omega) hl
  have hops : ∀ op ∈ [Op.process c], (t.cfg .down).OpOk op := by simpa [Config.OpOk] using hok
  obtain ⟨d', hd', hy⟩ := C85_down (t.cfg .down) hv (fir hk .down) rfl hb [.process c] hops r [some o] h1 (20 * Real.pi / 441) (-(Real.pi / 2)) (small_ratio hle.2)
    (by rw [h2]; exact fed_sig c rfl)
  have hdd : d' = d := by
    have : (.ok d' : Res ℚ) = .ok d := hd'.symm.trans hd
    cases this
    rfl
  subst hdd
  have hdt : d' = (t.cfg .down).totalDelay := by
    have : (.ok d' : Res ℚ) = .ok _ := hd.symm.trans (Config.Reachable.delay hv ⟨_, _, hops, h1⟩)
    cases this
    rfl
  have ho : (t.cfg .down).outLen c.n = 1024 / t.ratio := rfl
  rw [h3, ho, ← hl] at hy
  refine ⟨hdt, by simp only [hl, toList_length, outSamples], fun i hi hlt => ?_⟩
  have e : Real.sin ((i - (d' : ℝ)) * 1000 / newRate .down t.ratio * 2 * Real.pi) =
      Real.cos (20 * Real.pi / 441 * (t.ratio * (i - d')) + -(Real.pi / 2)) := by
    rw [← sig_cos]
    exact sin_down (by omega) _
  have := hy i hi hlt
  simp only [maxError] at this
  rw [e]
  exact this

private theorem over_run (t : Multi) (hr : t.ratio ∈ [1, 2, 4, 8]) (hk : t.kind = .fir) (hb : findPrecisionForBits t.bits ∈ [16, 20, 24])
    (ia oa ta : ℕ) (stk : Stack ℝ × Stack ℝ) {q : List ℝ × ℚ} (h : multiDelay t .over delaySig ia oa ta stk = .ok q) :
    Good t .over ((t.cfg .up).totalDelay / t.ratio + (t.cfg .down).totalDelay) q := by
  have hv := valid hr hk hb .up
  have hv' := valid hr hk hb .down
  have hle : 1 ≤ t.ratio ∧ t.ratio ≤ 8 := by
    simp only [List.mem_cons, List.not_mem_nil, or_false] at hr
    omega
  unfold multiDelay at h
  obtain ⟨ups, hu, h⟩ := bind_ok h
  obtain ⟨downs, hdn, h⟩ := bind_ok h
  obtain ⟨_, -, h⟩ := bind_ok h
  obtain ⟨du, hdu, h⟩ := bind_ok h
  obtain ⟨dd, hdd, h⟩ := bind_ok h
  obtain ⟨⟨r, tmp⟩, hp, h⟩ := bind_ok h
  obtain ⟨⟨r', o⟩, hp', h⟩ := bind_ok h
  obtain ⟨l, hl, h⟩ := bind_ok h
  cases h
  rw [Config.Reachable.delay hv (new_reachable hu)] at hdu
  rw [Config.Reachable.delay hv' (new_reachable hdn)] at hdd
  cases hdu
  cases hdd
  set c : Call ℝ := ⟨stk.1, ⟨ia, 1024, delaySig⟩, 1024, ⟨ta, 1024 * 8, fun _ => 0⟩⟩ with hc
  have hok : (t.cfg .up).CallOk c := by
    refine ⟨by simp [hc], by simp [hc], ?_, by simp [Multi.cfg], by simp [hc], by simp [hc], by simp [fir hk]⟩
    show 1024 * t.ratio ≤ 1024 * 8
    omega
  obtain ⟨h1, h2, h3, h4⟩ := once hv hok hu hp
  have h4 : tmp.len = 1024 * 8 := h4
  have hops : ∀ op ∈ [Op.process c], (t.cfg .up).OpOk op := by simpa [Config.OpOk] using hok
  set c' : Call ℝ := ⟨stk.2, tmp, 1024 * t.ratio, ⟨oa, 1024 * 8, fun _ => 0⟩⟩ with hc'
  have ho' : (t.cfg .down).outLen c'.n = 1024 := by
    show 1024 * t.ratio / t.ratio = 1024
    exact Nat.mul_div_cancel _ hle.1
  have hok' : (t.cfg .down).CallOk c' := by
    refine ⟨?_, ?_, ?_, fun _ => Nat.mul_mod_left _ _, ?_, by simp [fir hk], by simp [fir hk]⟩
    · show 1024 * t.ratio < _
      omega
    · show 1024 * t.ratio ≤ tmp.len
      omega
    · rw [ho']
      show 1024 ≤ 1024 * 8
      omega
    · intros
      show 1024 * t.ratio < _
      omega
  obtain ⟨h1', h2', h3', h4'⟩ := once hv' hok' hdn hp'
  have h4' : o.len = 1024 * 8 := h4'
  have hops' : ∀ op ∈ [Op.process c'], (t.cfg .down).OpOk op := by simpa [Config.OpOk] using hok'
  have hl := readAll_eq (by rw [h4']; omega) hl
  obtain ⟨d1, d2, e1, e2, hy⟩ := C85_over (t.cfg .up) (t.cfg .down) hv hv' (fir hk .up) (fir hk .down) rfl rfl rfl hb rfl [.process c] hops r
    [some tmp] h1 [.process c'] hops' r' [some o] h1' (by rw [h2', h3]; rfl) (20 * Real.pi / 441) (-(Real.pi / 2)) small
    (by rw [h2]; exact fed_sig c rfl)
  rw [Config.Reachable.delay hv ⟨_, _, hops, h1⟩] at e1
  rw [Config.Reachable.delay hv' ⟨_, _, hops', h1'⟩] at e2
  cases e1
  cases e2
  rw [h3', ho', ← hl] at hy
  refine ⟨rfl, by simp only [hl, toList_length, outSamples], fun i hi hlt => ?_⟩
  have := hy i hi hlt
  simp only [maxError] at this
  simp only [newRate]
  rw [sig_cos]
  exact this

private theorem delays : ∀ p ∈ [16, 20, 24], ∀ r ∈ [1, 2, 4, 8],
    (0 ≤ (cfg .up r p true .fir).totalDelay ∧ 4 * (cfg .up r p true .fir).totalDelay < outSamples .up r) ∧
    (0 ≤ (cfg .down r p true .fir).totalDelay ∧ 4 * (cfg .down r p true .fir).totalDelay < outSamples .down r) ∧
    4 * ((cfg .up r p true .fir).totalDelay / r + (cfg .down r p true .fir).totalDelay) < outSamples .over r := by decide +kernel

private theorem total (t : Multi) (hk : t.kind = .fir) (m : Mode) :
    (t.cfg m).totalDelay = (cfg m t.ratio (findPrecisionForBits t.bits) true .fir).totalDelay := by
  simp only [Multi.cfg, hk]
  rfl

/-- **C99** For every FIR filter with 16, 20 or 24 bits and every ratio: in exact arithmetic (the coefficients may be rounded to `float`), every sample
the test looks at differs from the expected value by at most 0.00005, in absolute value. The test looks at more than half of the samples. -/
theorem C99_differences (t : Multi) (hr : t.ratio ∈ [1, 2, 4, 8]) (hk : t.kind = .fir) (hb : findPrecisionForBits t.bits ∈ [16, 20, 24]) (dir : Dir)
    (ia oa ta : ℕ) (stk : Stack ℝ × Stack ℝ) : ∃ out d, multiDelay t dir delaySig ia oa ta stk = .ok (out, d) ∧
      out.length = outSamples dir t.ratio ∧ (∀ i : ℕ, out.length ≤ 2 * i → (d : ℝ) < i - d) ∧
      ∀ i < out.length, (d : ℝ) < i - d → |out.getD i 0 - expected dir t.ratio d i| ≤ 1 / 20000 := by
  obtain ⟨q, h⟩ := C97_multidelay_partial t ⟨hr, .inl hk⟩ dir (fun h => by rw [Multi.Sse, hk] at h; cases h.1) delaySig ia oa ta stk
  suffices hg : ∃ D, Good t dir D q ∧ 0 ≤ D ∧ 4 * D < outSamples dir t.ratio by
    obtain ⟨D, ⟨h1, h2, h3⟩, h0, h4⟩ := hg
    refine ⟨q.1, q.2, h, h2, fun i hi => ?_, fun i hi hd => ?_⟩
    · rw [h2] at hi
      rw [h1]
      have e1 : (4 * D : ℝ) < outSamples dir t.ratio := by exact_mod_cast h4
      have e2 : (outSamples dir t.ratio : ℝ) ≤ 2 * i := by exact_mod_cast hi
      linarith
    · rw [expected_eq (h1 ▸ h0) hd]
      exact h3 i hi hd
  obtain ⟨⟨a1, a2⟩, ⟨a3, a4⟩, a5⟩ := delays _ hb _ hr
  rw [← total t hk .up] at a1 a2 a5
  rw [← total t hk .down] at a3 a4 a5
  cases dir
  · exact ⟨_, up_run t hr hk hb ia oa ta stk h, a1, a2⟩
  · exact ⟨_, down_run t hr hk hb ia oa ta stk h, a3, a4⟩
  · exact ⟨_, over_run t hr hk hb ia oa ta stk h, by positivity, a5⟩

/-- **C99** All tests run by testmultidelay without arguments return an error that is within the bound printed. -/
theorem C99_multidelay (bld : Build) (al : Alloc) (ia oa ta : ℕ) (stk : Stack ℝ × Stack ℝ) :
    ∀ p ∈ delayTests bld al, ∃ e, delayRun p.1 p.2 ia oa ta stk = .ok e ∧ e ≤ 1 / 20000 := by
  rintro ⟨t, dir⟩ hp
  have ht : t.ratio ∈ [1, 2, 4, 8] ∧ t.kind = .fir ∧ findPrecisionForBits t.bits ∈ [16, 20, 24] := by
    simp only [delayTests, List.mem_flatMap, List.mem_map, Prod.mk.injEq] at hp
    obtain ⟨_, -, r, hr, b, hb, rfl, -⟩ := hp
    simp only [List.mem_cons, List.not_mem_nil, or_false] at hr hb
    rcases hr with rfl | rfl | rfl <;> rcases hb with rfl | rfl | rfl <;> simp [findPrecisionForBits]
  obtain ⟨out, d, h, -, -, hy⟩ := C99_differences t ht.1 ht.2.1 ht.2.2 dir ia oa ta stk
  refine ⟨_, by simp only [delayRun, h, ok_bind, pure_eq_ok], delayError_le (by norm_num) hy⟩

end real

/-- Rounding of the coefficients to `float`: `Accurate ℝ` can be met. -/
example : ∃ e, delayRun ⟨x86, someAlloc, 8, 24, .fir⟩ .over 0 4096 8192 (⟨0, 0, 0, fun _ => 1⟩, ⟨0, 0, 0, fun _ => 2⟩) = .ok e ∧ e ≤ 1 / 20000 := by
  have := accurate_real
  have h := C99_multidelay x86 someAlloc 0 4096 8192 (⟨0, 0, 0, fun _ => 1⟩, ⟨0, 0, 0, fun _ => 2⟩) (⟨x86, someAlloc, 8, 24, .fir⟩, .over)
    (by simp [delayTests])
  exact h

/-- There are 27 tests, one of them oversampling by 8 with 24 bits. -/
example : (delayTests x86 someAlloc).length = 27 ∧ (⟨x86, someAlloc, 8, 24, .fir⟩, .over) ∈ delayTests x86 someAlloc :=
  ⟨rfl, by simp [delayTests]⟩

end Panda.Tool
