import Verif.Props.Common
import Verif.Proofs.Edge

/-!
# Memory safety, frame, sizes (C01 – C04, C27 – C32)

Every `UB` outcome of the model (out-of-bounds access, misaligned vector access, null dereference, failed assert,
non-termination) makes a session an error; "runs safely" therefore is `∃ r os, cfg.session ops = .ok (r, os)`.
The operations `ops` are an arbitrary history of `process_block` and `reset` calls.
-/

set_option linter.unusedSectionVars false

namespace Panda

open Examples

variable {F : Type} [Zero F] [One F] [Add F] [Sub F] [Mul F] [Sample F]

/-- A session runs without undefined behaviour, and every output buffer comes back with the same size and address, and
unchanged behind the documented number of output samples. -/
def RunsSafely (cfg : Config) (ops : List (Op F)) : Prop :=
  ∃ r os, cfg.session ops = .ok (r, os) ∧ cfg.FramedOps ops os

theorem runsSafely_of {cfg : Config} (hv : cfg.Valid) {ops : List (Op F)} (hc : ∀ op ∈ ops, cfg.OpOk op) :
    RunsSafely cfg ops := by
  obtain ⟨⟨r, os⟩, h, -, hf, -⟩ := Config.session_sat hv hc
  exact ⟨r, os, h, hf⟩

/-! ## C01 -/

/-- **C01** FIR upsampling by 2, any precision, SSE or not: with `n` readable and `2n` writable samples every call is
safe, at any address and after any history. -/
theorem C01_fir_up2_memory_safe (cfg : Config) (hv : cfg.Valid) (hf : cfg.filter = .fir) (hm : cfg.mode = .up)
    (hr : cfg.ratio = 2) (ops : List (Op F))
    (hc : ∀ c, Op.process c ∈ ops → c.n < 2 ^ 31 ∧ c.input.len = c.n ∧ c.output.len = 2 * c.n) :
    RunsSafely cfg ops := by
  refine runsSafely_of hv fun op hop => ?_
  cases op with
  | reset => trivial
  | process c =>
    obtain ⟨h1, h2, h3⟩ := hc c hop
    refine ⟨by omega, by omega, ?_, ?_, fun _ _ _ => h1, ?_, ?_⟩
    · simp only [Config.outLen, hm, hr]; omega
    · simp [hm]
    · simp [hf]
    · simp [hf]

example : (cfg .up 2 16 true .fir).Valid ∧ ∀ c, Op.process c ∈ [.process (call 100 200), .reset, .process (call 3 6)] →
    c.n < 2 ^ 31 ∧ c.input.len = c.n ∧ c.output.len = 2 * c.n := by
  refine ⟨⟨by decide, by decide, by decide⟩, ?_⟩
  intro c hc
  simp only [List.mem_cons, Op.process.injEq, List.not_mem_nil, or_false, reduceCtorEq, false_or] at hc
  rcases hc with rfl | rfl <;> decide

/-! ## C02 -/

/-- **C02** FIR downsampling by 2: with `n` (even) readable and `n/2` writable samples every call is safe. -/
theorem C02_fir_down2_memory_safe (cfg : Config) (hv : cfg.Valid) (hf : cfg.filter = .fir) (hm : cfg.mode = .down)
    (hr : cfg.ratio = 2) (ops : List (Op F))
    (hc : ∀ c, Op.process c ∈ ops → c.n < 2 ^ 32 ∧ c.n % 2 = 0 ∧ c.input.len = c.n ∧ c.output.len = c.n / 2) :
    RunsSafely cfg ops := by
  refine runsSafely_of hv fun op hop => ?_
  cases op with
  | reset => trivial
  | process c =>
    obtain ⟨h1, h2, h3, h4⟩ := hc c hop
    refine ⟨by omega, by omega, ?_, ?_, ?_, ?_, ?_⟩
    · simp only [Config.outLen, hm, hr]; omega
    · simp [hr, h2]
    · simp [hm]
    · simp [hf]
    · simp [hf]

example : (cfg .down 2 24 true .fir).Valid ∧ ∀ c, Op.process c ∈ [.process (call 5000 2500), .reset, .process (call 6 3)] →
    c.n < 2 ^ 32 ∧ c.n % 2 = 0 ∧ c.input.len = c.n ∧ c.output.len = c.n / 2 := by
  refine ⟨⟨by decide, by decide, by decide⟩, ?_⟩
  intro c hc
  simp only [List.mem_cons, Op.process.injEq, List.not_mem_nil, or_false, reduceCtorEq, false_or] at hc
  rcases hc with rfl | rfl <;> decide

/-! ## C03 -/

/-- **C03** Ratios 4 and 8, FIR, both modes: exactly sized buffers suffice (the internal temporaries are buffers of the
model as well). -/
theorem C03_fir_cascade_memory_safe (cfg : Config) (hv : cfg.Valid) (hf : cfg.filter = .fir)
    (hr : cfg.ratio = 4 ∨ cfg.ratio = 8) (ops : List (Op F))
    (hc : ∀ c, Op.process c ∈ ops → c.n < 2 ^ 32 ∧ (cfg.mode = .down → c.n % cfg.ratio = 0) ∧ c.input.len = c.n ∧
      c.output.len = match cfg.mode with
        | .up => c.n * cfg.ratio
        | .down => c.n / cfg.ratio) :
    RunsSafely cfg ops := by
  refine runsSafely_of hv fun op hop => ?_
  cases op with
  | reset => trivial
  | process c =>
    obtain ⟨h1, h2, h3, h4⟩ := hc c hop
    refine ⟨by omega, by omega, ?_, h2, ?_, ?_, ?_⟩
    · rw [h4, Config.outLen]; exact Nat.le_refl _
    · intro _ _ h; omega
    · simp [hf]
    · simp [hf]

example : (cfg .down 8 24 true .fir).Valid ∧ ∀ c, Op.process c ∈ [.process (call 4000 500), .reset, .process (call 8 1)] →
    c.n < 2 ^ 32 ∧ (Mode.down = .down → c.n % 8 = 0) ∧ c.input.len = c.n ∧ c.output.len = c.n / 8 := by
  refine ⟨⟨by decide, by decide, by decide⟩, ?_⟩
  intro c hc
  simp only [List.mem_cons, Op.process.injEq, List.not_mem_nil, or_false, reduceCtorEq, false_or] at hc
  rcases hc with rfl | rfl <;> decide

/-! ## C27: IIR -/

/-- **C27 (partial)** IIR resamplers, every configuration: safe if zero samples are not passed to a factor 2
resampler and, for the SSE downsampler, two more samples behind the input are readable. Missing: these two
conditions are needed, see `C27_false_*`. -/
theorem C27_iir_memory_safe_partial (cfg : Config) (hv : cfg.Valid) (hf : cfg.filter = .iir) (ops : List (Op F))
    (hc : ∀ c, Op.process c ∈ ops → c.n < 2 ^ 32 ∧ (cfg.mode = .down → c.n % cfg.ratio = 0) ∧
      (cfg.ratio = 2 → 0 < c.n) ∧
      c.input.len = c.n + (if cfg.mode = .down ∧ cfg.iirSse = true then 2 else 0) ∧
      c.output.len = match cfg.mode with
        | .up => c.n * cfg.ratio
        | .down => c.n / cfg.ratio) :
    RunsSafely cfg ops := by
  refine runsSafely_of hv fun op hop => ?_
  cases op with
  | reset => trivial
  | process c =>
    obtain ⟨h1, h2, h3, h4, h5⟩ := hc c hop
    refine ⟨by omega, by rw [h4]; omega, ?_, h2, ?_, ?_, ?_⟩
    · rw [h5, Config.outLen]; exact Nat.le_refl _
    · simp [hf]
    · intro _ h; exact Or.inr (h3 h)
    · intro _ h h' _ _
      rw [h4, if_pos ⟨h, h'⟩]
      exact Nat.le_refl _

example : (cfg .down 8 24 true .iir).Valid ∧
    ∀ c, Op.process c ∈ [.process { call 4000 500 with input := ramp 4002 }, .reset] →
    c.n < 2 ^ 32 ∧ (Mode.down = .down → c.n % 8 = 0) ∧ (8 = 2 → 0 < c.n) ∧
      c.input.len = c.n + 2 ∧ c.output.len = c.n / 8 := by
  refine ⟨⟨by decide, by decide, by decide⟩, ?_⟩
  intro c hc
  simp only [List.mem_cons, Op.process.injEq, List.not_mem_nil, or_false, reduceCtorEq] at hc
  rcases hc with rfl; decide

/-- **C27 is false**: the SSE IIR downsampler reads two samples behind its input. For every state and every `n ≥ 2`,
`process_block` on an input of exactly `n` samples is undefined. -/
theorem C27_false_sse_down_reads_past_end (cfg : Config) (hv : cfg.Valid) (hf : cfg.filter = .iir) (hm : cfg.mode = .down)
    (hr : cfg.ratio = 2) (hsse : cfg.iirSse = true) (r : Resampler F) (h : cfg.Reachable r) (st : Stack F)
    (input output : Buf F) (n : Nat) (h2 : 2 ≤ n) (hl : input.len = n) :
    ¬ ∃ q, r.processBlock cfg.bld st input n output = .ok q := by
  obtain ⟨i, hi, hs⟩ := h.shape2 hv hr
  rw [Resampler.processBlock_two ((h.ratio hv).trans hr) hi]
  cases hs with
  | firUp _ h => rw [hf] at h; cases h
  | firDown _ h => rw [hf] at h; cases h
  | iirUp _ _ _ h => rw [hm] at h; cases h
  | iirUpSse _ _ _ h => rw [hm] at h; cases h
  | iirDown _ _ _ _ h => rw [hsse] at h; cases h
  | iirDownSse f dl =>
    rintro ⟨q, hq⟩
    apply SseFilter.downBlock_oob (bld := cfg.bld) (f := f) (input := input) (output := output) (ioff := 0) (ooff := 0)
      (k := n / 2) (by omega) (by omega)
    unfold Impl.processBlock at hq
    simp only at hq
    revert hq
    cases f.downBlock cfg.bld input 0 (n / 2) output 0 with
    | ok q => intro _; exact ⟨q, rfl⟩
    | error e => intro h; cases h

example : (cfg .down 2 8 true .iir).Valid ∧ (cfg .down 2 8 true .iir).iirSse = true ∧
    ∃ r : Resampler Rat, (cfg .down 2 8 true .iir).Reachable r := by
  have hv : (cfg .down 2 8 true .iir).Valid := ⟨by decide, by decide, by decide⟩
  refine ⟨hv, rfl, ?_⟩
  obtain ⟨r, os, h, -⟩ := runsSafely_of (F := Rat) hv (ops := []) (by simp)
  exact ⟨r, [], os, by simp, h⟩

/-- **C27 is false**: with zero samples the non-SSE IIR code of a factor 2 resampler is undefined on an empty input
buffer (it reads and processes one sample, or stops in an assert). -/
theorem C27_false_zero_samples (cfg : Config) (hv : cfg.Valid) (hf : cfg.filter = .iir) (hr : cfg.ratio = 2)
    (hsse : cfg.iirSse = false) (r : Resampler F) (h : cfg.Reachable r) (st : Stack F) (input output : Buf F)
    (hl : input.len = 0) :
    r.processBlock cfg.bld st input 0 output = .error (if cfg.bld.ndebug then .oobRead else .assertFail) := by
  obtain ⟨i, hi, hs⟩ := h.shape2 hv hr
  rw [Resampler.processBlock_two ((h.ratio hv).trans hr) hi]
  cases hs with
  | firUp _ h => rw [hf] at h; cases h
  | firDown _ h => rw [hf] at h; cases h
  | iirUpSse _ _ _ _ h => rw [hsse] at h; cases h
  | iirDownSse _ _ _ _ h => rw [hsse] at h; cases h
  | iirUp f dl =>
    cases hb : cfg.bld.ndebug <;>
      simp [Impl.processBlock, FpuFilter.upBlock, Build.assert, hb, doWhileN, forN, Buf.rd, hl]
  | iirDown f dl =>
    cases hb : cfg.bld.ndebug <;>
      simp [Impl.processBlock, FpuFilter.downBlock, Build.assert, hb, doWhileN, forN, Buf.rd, hl]

example : (cfg .up 2 8 false .iir).Valid ∧ (cfg .up 2 8 false .iir).iirSse = false ∧ (ramp 0).len = 0 := by
  exact ⟨⟨by decide, by decide, by decide⟩, rfl, rfl⟩

/-! ## C28: zero samples -/

/-- **C28 (partial)** Zero samples: nothing is read, written or changed, except for factor 2 IIR resamplers. Missing: the
IIR factor 2 case, where it is false, see `C28_false_*` and `C27_false_zero_samples`. -/
theorem C28_zero_samples_noop_partial (cfg : Config) (hv : cfg.Valid) (hc : cfg.filter = .fir ∨ cfg.ratio ≠ 2)
    (r : Resampler F) (h : cfg.Reachable r) (st : Stack F) (input output : Buf F) :
    r.processBlock cfg.bld st input 0 output = .ok (r, output) := by
  have hratio := h.ratio hv
  by_cases hr : cfg.ratio = 2
  · have hf : cfg.filter = .fir := by
      rcases hc with h | h
      · exact h
      · exact absurd hr h
    obtain ⟨i, hi, hs⟩ := h.shape2 hv hr
    rw [Resampler.processBlock_two (hratio.trans hr) hi]
    have hre : { r with implX2 := some i } = r := by cases r; simp only at hi; rw [hi]
    cases hs with
    | firUp u _ _ hu => simp [Impl.processBlock, Up2.processBlock_zero hu, hre]
    | firDown d => simp [Impl.processBlock, Down2.processBlock_zero, hre]
    | iirUp _ _ h => rw [hf] at h; cases h
    | iirDown _ _ h => rw [hf] at h; cases h
    | iirUpSse _ _ h => rw [hf] at h; cases h
    | iirDownSse _ _ h => rw [hf] at h; cases h
  · unfold Resampler.processBlock
    rw [if_neg (by rw [hratio]; exact hr)]
    split
    · rfl
    · rfl

example : (cfg .up 4 8 false .iir).Valid ∧ ((cfg .up 4 8 false .iir).filter = .fir ∨ (cfg .up 4 8 false .iir).ratio ≠ 2) := by
  exact ⟨⟨by decide, by decide, by decide⟩, by decide⟩

/-- **C28 is false**: built with `NDEBUG`, a non-SSE IIR factor 2 upsampler treats zero samples exactly like one sample
(it reads one sample, writes two and advances its state). -/
theorem C28_false_zero_processed_as_one (cfg : Config) (hv : cfg.Valid) (hf : cfg.filter = .iir) (hm : cfg.mode = .up)
    (hr : cfg.ratio = 2) (hsse : cfg.iirSse = false) (hn : cfg.bld.ndebug = true) (r : Resampler F) (h : cfg.Reachable r)
    (st : Stack F) (input output : Buf F) :
    r.processBlock cfg.bld st input 0 output = r.processBlock cfg.bld st input 1 output := by
  obtain ⟨i, hi, hs⟩ := h.shape2 hv hr
  rw [Resampler.processBlock_two ((h.ratio hv).trans hr) hi, Resampler.processBlock_two ((h.ratio hv).trans hr) hi]
  cases hs with
  | firUp _ h => rw [hf] at h; cases h
  | firDown _ h => rw [hf] at h; cases h
  | iirUpSse _ _ _ _ h => rw [hsse] at h; cases h
  | iirDownSse _ _ _ _ h => rw [hsse] at h; cases h
  | iirDown _ _ _ h => rw [hm] at h; cases h
  | iirUp f dl => simp [Impl.processBlock, FpuFilter.upBlock, Build.assert, hn, doWhileN]

/-- ... and the same for the downsampler and two samples. -/
theorem C28_false_zero_processed_as_two (cfg : Config) (hv : cfg.Valid) (hf : cfg.filter = .iir) (hm : cfg.mode = .down)
    (hr : cfg.ratio = 2) (hsse : cfg.iirSse = false) (hn : cfg.bld.ndebug = true) (r : Resampler F) (h : cfg.Reachable r)
    (st : Stack F) (input output : Buf F) :
    r.processBlock cfg.bld st input 0 output = r.processBlock cfg.bld st input 2 output := by
  obtain ⟨i, hi, hs⟩ := h.shape2 hv hr
  rw [Resampler.processBlock_two ((h.ratio hv).trans hr) hi, Resampler.processBlock_two ((h.ratio hv).trans hr) hi]
  cases hs with
  | firUp _ h => rw [hf] at h; cases h
  | firDown _ h => rw [hf] at h; cases h
  | iirUpSse _ _ _ _ h => rw [hsse] at h; cases h
  | iirDownSse _ _ _ _ h => rw [hsse] at h; cases h
  | iirUp _ _ _ h => rw [hm] at h; cases h
  | iirDown f dl => simp [Impl.processBlock, FpuFilter.downBlock, Build.assert, hn, doWhileN]

/-- A factor 2 IIR upsampler (8 bit, non-SSE, `NDEBUG`) given zero samples overwrites the output buffer. -/
example : ∃ q, (cfg .up 2 8 false .iir).session [.process { call 0 2 with input := ramp 1 }] = .ok q ∧
    q.2.map (fun o => o.map fun b => b.toList 2 == [-1, -1]) = [some false] := by
  refine ⟨_, rfl, ?_⟩
  decide +kernel

/-! ## C29: block sizes that are not a multiple of the ratio -/

/-- **C29 (partial)** An odd number of samples passed to a factor 2 FIR downsampler has no effect at all.
Missing: ratios 4 and 8, where the claim is false, see `C29_false_desync`. -/
theorem C29_odd_block_rejected_partial (cfg : Config) (hv : cfg.Valid) (hf : cfg.filter = .fir) (hm : cfg.mode = .down)
    (hr : cfg.ratio = 2) (r : Resampler F) (h : cfg.Reachable r) (st : Stack F) (input output : Buf F) (n : Nat)
    (hn : n % 2 = 1) : r.processBlock cfg.bld st input n output = .ok (r, output) := by
  obtain ⟨i, hi, hs⟩ := h.shape2 hv hr
  rw [Resampler.processBlock_two ((h.ratio hv).trans hr) hi]
  have hre : { r with implX2 := some i } = r := by cases r; simp only at hi; rw [hi]
  cases hs with
  | firDown d => simp [Impl.processBlock, Down2.processBlock_odd hn, hre]
  | firUp _ _ h => rw [hm] at h; cases h
  | iirUp _ _ h => rw [hf] at h; cases h
  | iirDown _ _ h => rw [hf] at h; cases h
  | iirUpSse _ _ h => rw [hf] at h; cases h
  | iirDownSse _ _ h => rw [hf] at h; cases h

example : (cfg .down 2 20 true .fir).Valid ∧ 7 % 2 = 1 := ⟨⟨by decide, by decide, by decide⟩, rfl⟩

/-- The IIR factor 2 downsampler processes an odd number of samples (at least 3) by silently dropping the last one. -/
theorem C29_iir_odd_block_drops_sample (cfg : Config) (hv : cfg.Valid) (hf : cfg.filter = .iir) (hm : cfg.mode = .down)
    (hr : cfg.ratio = 2) (r : Resampler F) (h : cfg.Reachable r) (st : Stack F) (input output : Buf F) (k : Nat) :
    r.processBlock cfg.bld st input (2 * k + 1) output = r.processBlock cfg.bld st input (2 * k) output := by
  obtain ⟨i, hi, hs⟩ := h.shape2 hv hr
  rw [Resampler.processBlock_two ((h.ratio hv).trans hr) hi, Resampler.processBlock_two ((h.ratio hv).trans hr) hi]
  have e1 : (2 * k + 1) / 2 = k := by omega
  have e2 : 2 * k / 2 = k := by omega
  cases hs with
  | firUp _ h => rw [hf] at h; cases h
  | firDown _ h => rw [hf] at h; cases h
  | iirUp _ _ _ h => rw [hm] at h; cases h
  | iirUpSse _ _ _ h => rw [hm] at h; cases h
  | iirDown f dl => simp only [Impl.processBlock, e1, e2]
  | iirDownSse f dl => simp only [Impl.processBlock, e1, e2]

example : (cfg .down 2 20 true .iir).Valid := ⟨by decide, by decide, by decide⟩

/-- **C29 is false** for ratio 4: six samples fed into a linear FIR downsampler by 4 produce no output, but do change the
state: afterwards the response to the same four samples differs from that of a resampler that was not given the six
samples, and from that of a resampler that was given four or eight of them. -/
theorem C29_false_desync :
    ((cfg .down 4 1 false .fir).session (F := Rat) [.process (call 6 1), .process (call 4 1)]).toOption.map
        (fun q => q.2.map fun o => o.map fun b => b.toList 1) = some [some [-1], some [9 / 8]] ∧
    ((cfg .down 4 1 false .fir).session (F := Rat) [.process (call 4 1)]).toOption.map
        (fun q => q.2.map fun o => o.map fun b => b.toList 1) = some [some [1 / 16]] ∧
    ((cfg .down 4 1 false .fir).session (F := Rat) [.process (call 4 1), .process (call 4 1)]).toOption.map
        (fun q => q.2.map fun o => o.map fun b => b.toList 1) = some [some [1 / 16], some [29 / 16]] ∧
    ((cfg .down 4 1 false .fir).session (F := Rat) [.process (call 8 2), .process (call 4 1)]).toOption.map
        (fun q => q.2.map fun o => o.map fun b => b.toList 1) = some [some [1 / 16], some [11 / 2]] := by
  decide +kernel

/-! ## C30: large blocks -/

/-- **C30 is false** for FIR upsampling by 2 without SSE: with `2^31 + order ≤ n < 2^32` samples the `uint` index wraps
around, `process_block` returns, but the last output samples are never written. -/
theorem C30_false_large_blocks (cfg : Config) (hv : cfg.Valid) (hf : cfg.filter = .fir) (hm : cfg.mode = .up)
    (hr : cfg.ratio = 2) (hsse : cfg.vec = false) (r : Resampler F) (h : cfg.Reachable r) (st : Stack F)
    (input output : Buf F) (n : Nat) (h1 : 2 ^ 31 + 52 ≤ n) (h2 : n < 2 ^ 32) (hi : input.len = n)
    (ho : output.len = 2 * n) :
    ∃ r' o, r.processBlock cfg.bld st input n output = .ok (r', o) ∧
      o.get (2 * n - 1) = output.get (2 * n - 1) ∧ o.get (2 * n - 2) = output.get (2 * n - 2) := by
  obtain ⟨i, s, xs, hi2, hs, hx⟩ := h.stage2 hv hr
  have hle := Config.Reachable.order_le hv hr h hi2 hf
  have hs := implShape_of hs hx
  rw [Resampler.processBlock_two ((h.ratio hv).trans hr) hi2]
  cases hs with
  | firDown _ _ h => rw [hm] at h; cases h
  | iirUp _ _ h => rw [hf] at h; cases h
  | iirDown _ _ h => rw [hf] at h; cases h
  | iirUpSse _ _ h => rw [hf] at h; cases h
  | iirDownSse _ _ h => rw [hf] at h; cases h
  | firUp u _ _ hu hv2 =>
    rw [hsse] at hv2
    have hle' : u.order ≤ 52 := hle
    obtain ⟨q, hq, -, hfr⟩ := Up2.processBlock_wrap (input := input) (output := output) (n := n) hu hv2 (by omega) h2
      (by omega) (by omega)
    refine ⟨{ r with implX2 := some (.firUp q.1) }, q.2, ?_, hfr _ (by omega), hfr _ (by omega)⟩
    simp [Impl.processBlock, hq]

/-- Such a block exists, and in particular a buffer that held `-1` still holds `-1` at the end although every output
for zero input should be zero. -/
example : (cfg .up 2 24 false .fir).Valid ∧ (cfg .up 2 24 false .fir).vec = false ∧
    (outBuf (2 * (2 ^ 31 + 100))).get (2 * (2 ^ 31 + 100) - 1) = -1 :=
  ⟨⟨by decide, by decide, by decide⟩, rfl, rfl⟩

/-- **C30 (partial)** All other FIR configurations are correct for every block size that fits a `uint` (multiples of the
ratio for DOWN), and factor 2 upsampling for all `n < 2^31`. Missing: FIR UP by 2 with more samples, where it is false. -/
theorem C30_large_blocks_partial (cfg : Config) (hv : cfg.Valid) (hf : cfg.filter = .fir) (ops : List (Op F))
    (hc : ∀ c, Op.process c ∈ ops → c.n < 2 ^ 32 ∧ (cfg.mode = .down → c.n % cfg.ratio = 0) ∧
      (cfg.mode = .up → cfg.ratio = 2 → c.n < 2 ^ 31) ∧ c.n ≤ c.input.len ∧ cfg.outLen c.n ≤ c.output.len) :
    ∃ r os, cfg.session ops = .ok (r, os) ∧ cfg.FramedOps ops os ∧
      CascadeRel cfg.stages (cfg.streams ops os ([], [])).1 (cfg.streams ops os ([], [])).2 := by
  obtain ⟨⟨r, os⟩, h, hr, hfr, -⟩ := Config.session_sat hv (ops := ops) (fun op hop => by
    cases op with
    | reset => trivial
    | process c =>
      obtain ⟨h1, h2, h3, h4, h5⟩ := hc c hop
      exact ⟨h1, h4, h5, h2, fun _ => h3, by simp [hf], by simp [hf]⟩)
  exact ⟨r, os, h, hfr, hr⟩

example : (cfg .up 8 24 true .fir).Valid ∧ (call (2 ^ 32 - 1) (8 * (2 ^ 32 - 1))).n < 2 ^ 32 ∧
    (cfg .up 8 24 true .fir).outLen (2 ^ 32 - 1) ≤ (call (2 ^ 32 - 1) (8 * (2 ^ 32 - 1))).output.len :=
  ⟨⟨by decide, by decide, by decide⟩, by decide, by decide⟩

/-! ## C31: ratio 1 -/

/-- **C31 (partial)** Ratio 1 copies the input for both modes, any filter type, any `n` and history; the object
never changes, `delay()` is 0, `reset()` succeeds without effect. Missing: `order()` and `sse_enabled()` are not usable,
see `C31_false_queries`. -/
theorem C31_ratio1_identity_partial (cfg : Config) (hr : cfg.ratio = 1) :
    ∃ r : Resampler F, cfg.new = .ok r ∧ r.delay = .ok 0 ∧ r.reset = .ok r ∧
      ∀ (st : Stack F) (input output : Buf F) (n : Nat), n ≤ input.len → n ≤ output.len →
        ∃ o, r.processBlock cfg.bld st input n output = .ok (r, o) ∧ o.len = output.len ∧
          (∀ k < n, o.get k = input.get k) ∧ ∀ k, n ≤ k → o.get k = output.get k := by
  refine ⟨{ implX2 := none, implX4 := none, implX8 := none, ratio := 1, mode := cfg.mode, precision := cfg.precision,
            useSseIfAvailable := cfg.useSse, filter := cfg.filter }, ?_, ?_, ?_, ?_⟩
  · simp [Config.new, Resampler.new, hr, initStage]
  · simp only [Resampler.delay]
    cases cfg.mode <;> rfl
  · rfl
  · intro st input output n h1 h2
    obtain ⟨o, ho, hl, -, hg, hf⟩ := copyN_sat (src := input) (dst := output) (soff := 0) (doff := 0) (n := n)
      (by omega) (by omega)
    refine ⟨o, ?_, hl, fun k hk => by simpa using hg k hk, fun k hk => hf k (by omega)⟩
    simp [Resampler.processBlock, ho]

example : (cfg .down 1 24 true .iir).ratio = 1 ∧ 5 ≤ (ramp 5).len ∧ 5 ≤ (outBuf 6).len := by decide

/-- **C31 is false**: `order()` and `sse_enabled()` of a ratio 1 resampler dereference a null pointer. -/
theorem C31_false_queries (cfg : Config) (hr : cfg.ratio = 1) (r : Resampler F) (h : cfg.new = .ok r) :
    r.order = .error .nullDeref ∧ r.sseEnabled = .error .nullDeref := by
  have : r.implX2 = none := by
    simp [Config.new, Resampler.new, hr, initStage] at h
    rw [← h]
  simp [Resampler.order, Resampler.sseEnabled, this, deref]

example : ∃ r : Resampler Rat, (cfg .up 1 24 true .fir).new = .ok r := ⟨_, rfl⟩

/-! ## C32: constructible configurations -/

/-- **C32** For the supported ratios (1, 2, 4, 8), every precision (linear interpolation: FIR only), SSE on or off, on any
platform: the constructor succeeds and creates exactly the stages that will be used, so that `delay` and `reset` are
defined; and so is `process_block` (`Config.session_sat`). -/
theorem C32_constructible (cfg : Config) (hv : cfg.Valid) :
    ∃ r : Resampler F, cfg.new = .ok r ∧ r.implX2.isSome = decide (2 ≤ cfg.ratio) ∧
      r.implX4.isSome = decide (4 ≤ cfg.ratio) ∧ r.implX8.isSome = decide (8 ≤ cfg.ratio) ∧
      (∃ d, r.delay = .ok d) ∧ r.reset = .ok r ∧ ∀ ops : List (Op F), (∀ op ∈ ops, cfg.OpOk op) →
        ∃ q, r.runOps cfg.bld ops = .ok q := by
  obtain ⟨r, hr, h0⟩ := Resampler.new_fresh (F := F) hv
  have key : ∀ (k : Nat) (p : Option (Impl F)), (if k ≤ cfg.ratio then cfg.StageOk k p else p = none) →
      p.isSome = decide (k ≤ cfg.ratio) := by
    intro k p h
    by_cases hk : k ≤ cfg.ratio
    · rw [if_pos hk] at h
      obtain ⟨i, -, rfl, -⟩ := h
      simp [hk]
    · rw [if_neg hk] at h
      simp [h, hk]
  have h2 := key 2 _ h0.x2
  have h4 := key 4 _ h0.x4
  have h8 := key 8 _ h0.x8
  refine ⟨r, hr, h2, h4, h8, ?_, h0.reset, ?_⟩
  · unfold Resampler.delay
    rw [h0.ratio]
    cases r.mode <;> simp only [ge_iff_le] <;>
      by_cases k2 : 2 ≤ cfg.ratio <;> by_cases k4 : 4 ≤ cfg.ratio <;> by_cases k8 : 8 ≤ cfg.ratio <;>
      simp only [k2, k4, k8, decide_true, decide_false, Option.isSome_iff_exists] at h2 h4 h8 <;>
      first
      | omega
      | (try obtain ⟨a, ha⟩ := h2
         try obtain ⟨b, hb⟩ := h4
         try obtain ⟨c, hc⟩ := h8
         simp [*, deref])
  · intro ops hops
    obtain ⟨q, hq, -⟩ := h0.state.runOps hv h0 hops
    exact ⟨q, hq⟩

example : (cfg .down 8 24 false .iir).Valid := ⟨by decide, by decide, by decide⟩

/-- The combination `PREC_LINEAR` with `FILTER_IIR` (accepted by the constructor) has no stages: the first call of
`process_block` dereferences a null pointer. -/
theorem C32_false_iir_linear (cfg : Config) (hf : cfg.filter = .iir) (hp : cfg.precision = 1)
    (hr : cfg.ratio = 2 ∨ cfg.ratio = 4 ∨ cfg.ratio = 8) :
    ∃ r : Resampler F, cfg.new = .ok r ∧ ∀ (st : Stack F) (input output : Buf F) (n : Nat), 0 < n →
      r.processBlock cfg.bld st input n output = .error .nullDeref := by
  have hinit : ∀ k j, initStage (F := F) cfg.bld cfg.al cfg.mode cfg.ratio cfg.precision cfg.useSse cfg.filter j k = .ok none := by
    intro k j
    simp [initStage, hf, hp, createImplIir, iirTable]
  refine ⟨_, by simp only [Config.new, Resampler.new, hinit]; rfl, ?_⟩
  intro st input output n hn
  obtain ⟨n, rfl⟩ : ∃ m, n = m + 1 := ⟨n - 1, by omega⟩
  rcases hr with hr | hr | hr
  · simp [Resampler.processBlock, hr, deref]
  · cases hm : cfg.mode <;> simp [Resampler.processBlock, hr, whileF, Resampler.loopBody, deref]
  · cases hm : cfg.mode <;> simp [Resampler.processBlock, hr, whileF, Resampler.loopBody, deref]

example : (cfg .up 4 1 true .iir).filter = .iir ∧ (cfg .up 4 1 true .iir).precision = 1 := ⟨rfl, rfl⟩

end Panda
