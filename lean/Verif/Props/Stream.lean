import Verif.Props.Common
import Verif.Props.Reset
import Verif.Proofs.Twin
import Verif.Proofs.Stages
import Verif.Spec.Shape

/-!
# Streams: what is produced for what was passed in (C04, C07, C09, C12, C20, C26, C54)

Everything in this file holds for any interpretation of the arithmetic operations (no algebraic laws), in particular for
IEEE floats, bit for bit.
-/

set_option linter.unusedSectionVars false

namespace Panda

open Examples

variable {F : Type} [Zero F] [One F] [Add F] [Sub F] [Mul F] [Sample F]

/-! ## C04 -/

/-- **C04** (output and frame) A session that keeps to the rules succeeds; every call changes the first `n*ratio` (UP) or
`n/ratio` (DOWN) samples of its output buffer only; and what is produced since the last reset is the resampled signal of
what was passed in since then (`CascadeRel`, which mentions nothing but these two streams and the coefficient tables). -/
theorem C04_output_frame (cfg : Config) (hv : cfg.Valid) (ops : List (Op F)) (hc : ∀ op ∈ ops, cfg.OpOk op) :
    ∃ r os, cfg.session ops = .ok (r, os) ∧ cfg.FramedOps ops os ∧
      CascadeRel cfg.stages (fed ops) (cfg.produced ops os) ∧
      (cfg.produced ops os).length = cfg.outLen (fed ops).length := by
  obtain ⟨r, os, h1, h2, h3⟩ := Config.session_spec hv hc
  exact ⟨r, os, h1, h2, h3, Config.produced_length hv h3⟩

/-- **C04** (nothing else matters) Two sessions that pass in the same samples (and use buffers of the same size at the same
places) produce the same samples, bit for bit, whatever the output buffers and the stack contained before, whatever lies
behind the input samples. -/
theorem C04_contents_irrelevant (cfg : Config) (hv : cfg.Valid) (ops ops' : List (Op F)) (hc : ∀ op ∈ ops, cfg.OpOk op)
    (h : SameOps ops ops') :
    ∃ r os r' os', cfg.session ops = .ok (r, os) ∧ cfg.session ops' = .ok (r', os') ∧
      cfg.produced ops os = cfg.produced ops' os' :=
  Config.session_same hv hc h

/-- Two calls with different garbage on the stack and in the output buffer. -/
example : (cfg .down 8 16 true .fir).Valid ∧
    (∀ op ∈ [Op.process (call 16 5), .reset, .process (call 8 1)], (cfg .down 8 16 true .fir).OpOk op) ∧
    SameOps [Op.process (call 16 5), .reset, .process (call 8 1)]
      [Op.process { call 16 5 with output := { outBuf 5 with get := fun i => i * 77 } }, .reset,
       .process { call 8 1 with st := { someStack with junk := fun _ => -12345 } }] := by
  refine ⟨⟨by decide, by decide, by decide⟩, ?_, ?_⟩
  · intro op hop
    simp only [List.mem_cons, List.not_mem_nil, or_false] at hop
    rcases hop with rfl | rfl | rfl
    · exact ⟨by decide, by decide, by decide, by decide, by decide, by decide, by decide⟩
    · trivial
    · exact ⟨by decide, by decide, by decide, by decide, by decide, by decide, by decide⟩
  · exact ⟨⟨rfl, fun _ _ => rfl, rfl, rfl, rfl, rfl, rfl, rfl, rfl⟩,
      ⟨rfl, fun _ _ => rfl, rfl, rfl, rfl, rfl, rfl, rfl, rfl⟩, trivial⟩

/-! ## C54 -/

/-- **C54** Control flow and memory accesses never depend on sample values: whether a session (legal or not, with any
constructor arguments) succeeds, and which undefined behaviour it hits if not, is determined by the sizes and places of
the buffers. -/
theorem C54_outcome_data_independent {A B : Type} [Zero A] [One A] [Add A] [Sub A] [Mul A] [Sample A] [Zero B] [One B] [Add B]
    [Sub B] [Mul B] [Sample B] (cfg : Config) (ops : List (Op A)) (ops' : List (Op B)) (h : SameShape ops ops') :
    (cfg.session ops).map (fun _ => ()) = (cfg.session ops').map (fun _ => ()) := by
  have hrel : ListRel (OpRel fun (_ : A) (_ : B) => True) ops ops' := by
    induction ops generalizing ops' with
    | nil =>
      cases ops' with
      | nil => exact .nil
      | cons _ _ => exact h.elim
    | cons o l ih =>
      cases ops' with
      | nil => cases o <;> exact h.elim
      | cons o' m =>
        cases o <;> cases o' <;> first | exact h.elim | skip
        · obtain ⟨⟨h1, h2, h3, h4, h5, h6, h7, h8⟩, h9⟩ := h
          exact .cons ⟨⟨h6, h7, h8, fun _ => trivial⟩, ⟨h2, h3, fun _ _ => trivial⟩, h1, ⟨h4, h5, fun _ _ => trivial⟩⟩
            (ih _ h9)
        · exact .cons trivial (ih _ h)
  have hrr := Config.session_rel (ρ := fun (_ : A) (_ : B) => True)
    ⟨trivial, trivial, fun _ _ => trivial, fun _ _ => trivial, fun _ _ => trivial, trivial, fun _ => trivial⟩ cfg hrel
  cases e1 : cfg.session ops <;> cases e2 : cfg.session ops' <;> rw [e1, e2] at hrr
  · cases (show _ = _ from hrr); rfl
  · exact hrr.elim
  · exact hrr.elim
  · rfl

/-- Silence and a ramp; the call is an illegal one (output buffer too small). -/
example : SameShape [Op.process { call 5 2 with input := { ramp 5 with get := fun _ => 0 } }] [Op.process (call 5 2)] ∧
    ((cfg .up 2 16 true .fir).session [Op.process (call 5 2)]).map (fun _ => ()) = .error .oobWrite := by
  refine ⟨⟨⟨rfl, rfl, rfl, rfl, rfl, rfl, rfl, rfl⟩, trivial⟩, ?_⟩
  decide +kernel

/-! ## C07 -/

/-- **C07** The signal passes the factor 2 stages one after the other, whatever the block sizes: for every mode and ratio,
`mid`, `mid'` are the intermediate streams. -/
theorem C07_cascade (cfg : Config) (hv : cfg.Valid) (ops : List (Op F)) (hc : ∀ op ∈ ops, cfg.OpOk op)
    (r : Resampler F) (os : List (Option (Buf F))) (h : cfg.session ops = .ok (r, os)) :
    ∃ s2 s4 s8 : Stage F, cfg.stage 2 = [s2] ∧ cfg.stage 4 = [s4] ∧ cfg.stage 8 = [s8] ∧
      match cfg.mode, cfg.ratio with
      | _, 1 => cfg.produced ops os = fed ops
      | _, 2 => s2.Rel (fed ops) (cfg.produced ops os)
      | .up, 4 => ∃ mid, s2.Rel (fed ops) mid ∧ s4.Rel mid (cfg.produced ops os)
      | .down, 4 => ∃ mid, s4.Rel (fed ops) mid ∧ s2.Rel mid (cfg.produced ops os)
      | .up, 8 => ∃ mid mid', s2.Rel (fed ops) mid ∧ s4.Rel mid mid' ∧ s8.Rel mid' (cfg.produced ops os)
      | .down, 8 => ∃ mid mid', s8.Rel (fed ops) mid ∧ s4.Rel mid mid' ∧ s2.Rel mid' (cfg.produced ops os)
      | _, _ => False := by
  have hrel := Config.session_rel' hv hc h
  obtain ⟨s2, s4, s8, h2, h4, h8, h⟩ := Config.stages_cases (F := F) hv
  refine ⟨s2, s4, s8, h2, h4, h8, ?_⟩
  rcases h with ⟨hr, h⟩ | ⟨hr, h⟩ | ⟨hr, hm, h⟩ | ⟨hr, hm, h⟩ | ⟨hr, hm, h⟩ | ⟨hr, hm, h⟩ <;> rw [h] at hrel
  · rw [hr]; cases cfg.mode <;> exact hrel
  · obtain ⟨zs, h1, hz⟩ := hrel
    cases hz
    rw [hr]; cases cfg.mode <;> exact h1
  · obtain ⟨ys, h1, zs, h3, hz⟩ := hrel
    cases hz
    rw [hr, hm]; exact ⟨ys, h1, h3⟩
  · obtain ⟨ys, h1, zs, h3, hz⟩ := hrel
    cases hz
    rw [hr, hm]; exact ⟨ys, h1, h3⟩
  · obtain ⟨ys, h1, ys', h3, zs, h5, hz⟩ := hrel
    cases hz
    rw [hr, hm]; exact ⟨ys, ys', h1, h3, h5⟩
  · obtain ⟨ys, h1, ys', h3, zs, h5, hz⟩ := hrel
    cases hz
    rw [hr, hm]; exact ⟨ys, ys', h1, h3, h5⟩

/-- Three blocks for a ratio 8 resampler; 200 samples are more than its internal block size. -/
example : ∃ (ops : List (Op Rat)) (r : Resampler Rat) (os : List (Option (Buf Rat))),
    (∀ op ∈ ops, (cfg .up 8 20 true .fir).OpOk op) ∧ ops.length = 3 ∧ (cfg .up 8 20 true .fir).session ops = .ok (r, os) := by
  have hc : ∀ op ∈ [Op.process (call 3 24), .process (call 200 1600), .process (call 1 8)], (cfg .up 8 20 true .fir).OpOk op := by
    intro op hop
    simp only [List.mem_cons, List.not_mem_nil, or_false] at hop
    rcases hop with rfl | rfl | rfl <;>
      exact ⟨by decide, by decide, by decide, by decide, by decide, by decide, by decide⟩
  obtain ⟨r, os, h, -⟩ := C04_output_frame (cfg .up 8 20 true .fir) ⟨by decide, by decide, by decide⟩ _ hc
  exact ⟨_, r, os, hc, rfl, h⟩

/-! ## C09, C20 -/

/-- **C20** (single samples) Without vectorised FIR code: if two signals agree up to sample `k`, so do the outputs up to
sample `k*ratio` (UP) or `k/ratio` (DOWN), bit for bit, whatever follows; for any block sizes, any places of buffers,
any two builds. -/
theorem C20_causal (cfg cfg' : Config) (hs : cfg.SameFilter cfg') (hv : cfg.Valid) (hv' : cfg'.Valid)
    (hn : cfg.filter = .fir → cfg.vec = false) (ops ops' : List (Op F)) (hc : ∀ op ∈ ops, cfg.OpOk op)
    (hc' : ∀ op ∈ ops', cfg'.OpOk op) (r r' : Resampler F) (os os' : List (Option (Buf F)))
    (h : cfg.session ops = .ok (r, os)) (h' : cfg'.session ops' = .ok (r', os')) (k : Nat) (hk : k ≤ (fed ops).length)
    (hk' : k ≤ (fed ops').length) (he : ∀ i < k, seq (fed ops) i = seq (fed ops') i) :
    ∀ i < cfg.outLen k, seq (cfg.produced ops os) i = seq (cfg'.produced ops' os') i := by
  have h1 := Config.session_rel' hv hc h
  have h2 := Config.session_rel' hv' hc' h'
  rw [hs.stages] at h2
  have := CascadeRel.causal (Config.stages_scalar hn) (fun s hs v t e => (Config.stages_taps s hs v t e).1) h1 h2 hk hk' he
  rwa [Config.cascadeN hv] at this

/-- **C20** (streaming) The results of the first calls do not depend on the calls that follow, in any session (any
configuration, legal or not). -/
theorem C20_streaming (cfg : Config) (ops later : List (Op F)) (r : Resampler F) (os : List (Option (Buf F)))
    (h : cfg.session (ops ++ later) = .ok (r, os)) :
    ∃ r0 os0 os1, cfg.session ops = .ok (r0, os0) ∧ r0.runOps cfg.bld later = .ok (r, os1) ∧ os = os0 ++ os1 := by
  unfold Config.session at h ⊢
  obtain ⟨r0, h0, h⟩ := bind_ok_iff.1 h
  rw [Resampler.runOps_append] at h
  obtain ⟨⟨r1, os0⟩, h1, h⟩ := bind_ok_iff.1 h
  obtain ⟨⟨r2, os1⟩, h2, h⟩ := bind_ok_iff.1 h
  cases h
  exact ⟨r1, os0, os1, by rw [h0]; exact h1, h2, rfl⟩

/-- **C09** Without vectorised FIR code (in particular for IIR filters with SSE) the same signal in different blocks gives
the same output, bit for bit; for any places of the buffers, any two builds. -/
theorem C09_block_size_independent (cfg cfg' : Config) (hs : cfg.SameFilter cfg') (hv : cfg.Valid) (hv' : cfg'.Valid)
    (hn : cfg.filter = .fir → cfg.vec = false) (ops ops' : List (Op F)) (hc : ∀ op ∈ ops, cfg.OpOk op)
    (hc' : ∀ op ∈ ops', cfg'.OpOk op) (r r' : Resampler F) (os os' : List (Option (Buf F)))
    (h : cfg.session ops = .ok (r, os)) (h' : cfg'.session ops' = .ok (r', os')) (he : fed ops = fed ops') :
    cfg.produced ops os = cfg'.produced ops' os' := by
  have h1 := Config.session_rel' hv hc h
  have h2 := Config.session_rel' hv' hc' h'
  rw [hs.stages, ← he] at h2
  exact CascadeRel.functional (Config.stages_scalar hn) (fun s hs v t e => (Config.stages_taps s hs v t e).1) h1 h2

/-- The part of a ramp from `a`, `n` samples. -/
def rampFrom (a n : Nat) : Buf Rat := { addr := 4 * a, len := n, get := fun i => a + i + 1 }

/-- The ramp `1, ..., 6` in two different ways, after some other samples and a reset the second time; sessions of both
kinds exist. -/
example :
    let c := cfg .down 2 24 false .fir
    let ops := [Op.process (call 6 3)]
    let ops' := [Op.process (call 2 1), .reset, .process { call 2 1 with input := rampFrom 0 2 },
      .process { call 4 2 with input := rampFrom 2 4 }]
    c.Valid ∧ (c.filter = .fir → c.vec = false) ∧ fed ops = fed ops' ∧
    (∃ q, c.session ops = .ok q) ∧ (∃ q, c.session ops' = .ok q) := by
  intro c ops ops'
  have hv : c.Valid := ⟨by decide, by decide, by decide⟩
  have hc : ∀ op ∈ ops, c.OpOk op := by
    intro op hop
    simp only [ops, List.mem_cons, List.not_mem_nil, or_false] at hop
    subst hop
    exact ⟨by decide, by decide, by decide, by decide, by decide, by decide, by decide⟩
  have hc' : ∀ op ∈ ops', c.OpOk op := by
    intro op hop
    simp only [ops', List.mem_cons, List.not_mem_nil, or_false] at hop
    rcases hop with rfl | rfl | rfl | rfl
    · exact ⟨by decide, by decide, by decide, by decide, by decide, by decide, by decide⟩
    · trivial
    · exact ⟨by decide, by decide, by decide, by decide, by decide, by decide, by decide⟩
    · exact ⟨by decide, by decide, by decide, by decide, by decide, by decide, by decide⟩
  obtain ⟨r, os, h, -⟩ := C04_output_frame c hv ops hc
  obtain ⟨r', os', h', -⟩ := C04_output_frame c hv ops' hc'
  exact ⟨hv, fun _ => rfl, by decide +kernel, ⟨_, h⟩, ⟨_, h'⟩⟩

/-! ## C12 -/

/-- **C12** FIR upsampling: `delay()` is a whole number `d` of output samples, and output sample `d + ratio*k` is input
sample `k`, bit for bit. -/
theorem C12_samples_at_delay (cfg : Config) (hv : cfg.Valid) (hf : cfg.filter = .fir) (hm : cfg.mode = .up)
    (ops : List (Op F)) (hc : ∀ op ∈ ops, cfg.OpOk op)
    (r : Resampler F) (os : List (Option (Buf F))) (h : cfg.session ops = .ok (r, os)) :
    ∃ d : Nat, r.delay = .ok (d : Rat) ∧
      ∀ k, d + cfg.ratio * k < (cfg.produced ops os).length →
        seq (cfg.produced ops os) (d + cfg.ratio * k) = seq (fed ops) k := by
  have hrel := Config.session_rel' hv hc h
  have hd : r.delay = .ok cfg.totalDelay := Config.Reachable.delay hv ⟨ops, os, hc, h⟩
  have tab : ∀ k ∈ [2, 4, 8], ∃ t : List Dec, firTable k cfg.precision = some t := by
    intro k hk
    exact Option.isSome_iff_exists.1 (tables_exist hk hv.precision).1
  obtain ⟨t2, ht2⟩ := tab 2 (by simp)
  obtain ⟨t4, ht4⟩ := tab 4 (by simp)
  obtain ⟨t8, ht8⟩ := tab 8 (by simp)
  have l2 := firTable_length ht2
  have l4 := firTable_length ht4
  have l8 := firTable_length ht8
  obtain ⟨s2, s4, s8, h2, h4, h8, h⟩ := Config.stages_cases (F := F) hv
  simp only [Config.stage, hf, hm, ht2, ht4, ht8, Option.toList, List.map_cons, List.map_nil] at h2 h4 h8
  cases h2; cases h4; cases h8
  rw [hd]
  simp only [Config.totalDelay, hm, Config.stageDelay, hf, ht2, ht4, ht8, Option.getD_some]
  rcases h with ⟨hr, h⟩ | ⟨hr, h⟩ | ⟨hr, -, h⟩ | ⟨hr, hm', h⟩ | ⟨hr, -, h⟩ | ⟨hr, hm', h⟩
  · rw [h] at hrel
    refine ⟨0, by simp [hr], fun k hk => ?_⟩
    rw [show cfg.produced ops os = fed ops from hrel, hr]
    congr 1
    omega
  · rw [h] at hrel
    obtain ⟨ys, h1, hz⟩ := hrel
    cases hz
    refine ⟨t2.length - 1, by simp [hr], fun k hk => ?_⟩
    rw [hr] at hk ⊢
    have := firUp_sample (by simpa using ⟨l2.1, l2.2.2⟩) h1 k (by simpa using hk)
    simpa using this
  · rw [h] at hrel
    obtain ⟨ys, h1, zs, h3, hz⟩ := hrel
    cases hz
    refine ⟨2 * (t2.length - 1) + (t4.length - 1), by simp [hr], fun k hk => ?_⟩
    rw [hr] at hk ⊢
    have e1 := h1.1
    have e3 := h3.1
    have a3 := firUp_sample (by simpa using ⟨l4.1, l4.2.2⟩) h3 (t2.length - 1 + 2 * k) (by simp; omega)
    have a1 := firUp_sample (by simpa using ⟨l2.1, l2.2.2⟩) h1 k (by simp; omega)
    simp only [List.length_map] at a1 a3
    rw [← a1, ← a3]
    congr 1
    omega
  · rw [hm] at hm'; cases hm'
  · rw [h] at hrel
    obtain ⟨ys, h1, ys', h3, zs, h5, hz⟩ := hrel
    cases hz
    refine ⟨4 * (t2.length - 1) + 2 * (t4.length - 1) + (t8.length - 1), by simp [hr], fun k hk => ?_⟩
    rw [hr] at hk ⊢
    have e1 := h1.1
    have e3 := h3.1
    have e5 := h5.1
    have a5 := firUp_sample (by simpa using ⟨l8.1, l8.2.2⟩) h5 (t4.length - 1 + 2 * (t2.length - 1 + 2 * k)) (by simp; omega)
    have a3 := firUp_sample (by simpa using ⟨l4.1, l4.2.2⟩) h3 (t2.length - 1 + 2 * k) (by simp; omega)
    have a1 := firUp_sample (by simpa using ⟨l2.1, l2.2.2⟩) h1 k (by simp; omega)
    simp only [List.length_map] at a1 a3 a5
    rw [← a1, ← a3, ← a5]
    congr 1
    omega
  · rw [hm] at hm'; cases hm'

/-- Enough samples for the statement to say something: 16 bit, ratio 2: the delay is 31, 40 samples give 80, so 24 of
them reappear. -/
example : ∃ (r : Resampler Rat) (os : List (Option (Buf Rat))),
    (cfg .up 2 16 true .fir).session [Op.process (call 40 80)] = .ok (r, os) ∧
    ((cfg .up 2 16 true .fir).produced [Op.process (call 40 80)] os).length = 80 ∧ r.delay = .ok 31 := by
  have hv : (cfg .up 2 16 true .fir).Valid := ⟨by decide, by decide, by decide⟩
  have hc : ∀ op ∈ [Op.process (call 40 80)], (cfg .up 2 16 true .fir).OpOk op := by
    intro op hop
    simp only [List.mem_cons, List.not_mem_nil, or_false] at hop
    subst hop
    exact ⟨by decide, by decide, by decide, by decide, by decide, by decide, by decide⟩
  obtain ⟨r, os, h, -, -, hl⟩ := C04_output_frame _ hv _ hc
  refine ⟨r, os, h, hl, ?_⟩
  rw [Config.Reachable.delay hv ⟨_, os, hc, h⟩]
  decide +kernel

/-! ## C26 -/

/-- **C26** IIR filters with ratio 2 (the higher ratios are cascades of such stages, C07): the outputs of the two all-pass
chains. `c` are the coefficients. With SSE and an odd number of coefficients the odd branch has one more section (with
coefficient 1), see `C25`. -/
theorem C26_iir_up (cfg : Config) (hv : cfg.Valid) (hf : cfg.filter = .iir) (hm : cfg.mode = .up) (h2 : cfg.ratio = 2)
    (ops : List (Op F)) (hc : ∀ op ∈ ops, cfg.OpOk op)
    (r : Resampler F) (os : List (Option (Buf F))) (h : cfg.session ops = .ok (r, os)) :
    ∃ t gd, iirTable 2 cfg.precision = some (t, gd) ∧ ∃ c : List F, c = t.map (fun d => Sample.ofDouble d.toRat) ∧
      ∀ m < (fed ops).length,
        seq (cfg.produced ops os) (2 * m) = branchOut c.length (seq c) 0 (seq (fed ops)) m ∧
        seq (cfg.produced ops os) (2 * m + 1) =
          if cfg.iirSse = true ∧ c.length % 2 = 1 then allpass 1 (branchOut c.length (seq c) 1 (seq (fed ops))) m
          else branchOut c.length (seq c) 1 (seq (fed ops)) m := by
  have hrel := Config.session_rel' hv hc h
  obtain ⟨⟨t, gd⟩, ht⟩ := Option.isSome_iff_exists.1 ((tables_exist (k := 2) (by simp) hv.precision).2 (hv.iir hf))
  refine ⟨t, gd, ht, _, rfl, ?_⟩
  rw [Config.stages_two h2] at hrel
  simp only [Config.stage, hf, hm, ht, Option.toList, List.map_cons, List.map_nil] at hrel
  obtain ⟨ys, h1, hz⟩ := hrel
  cases hz
  intro m hlt
  refine ⟨(h1.2 m hlt).1, ?_⟩
  rw [(h1.2 m hlt).2]
  unfold iirBranch1
  split <;> rfl

/-- **C26** for DOWN, without SSE: half the sum of the two chains, applied to the odd and even samples. -/
theorem C26_iir_down (cfg : Config) (hv : cfg.Valid) (hf : cfg.filter = .iir) (hm : cfg.mode = .down) (h2 : cfg.ratio = 2)
    (hsse : cfg.iirSse = false) (ops : List (Op F)) (hc : ∀ op ∈ ops, cfg.OpOk op)
    (r : Resampler F) (os : List (Option (Buf F))) (h : cfg.session ops = .ok (r, os)) :
    ∃ t gd, iirTable 2 cfg.precision = some (t, gd) ∧ ∃ c : List F, c = t.map (fun d => Sample.ofDouble d.toRat) ∧
      ∀ m < (fed ops).length / 2,
        seq (cfg.produced ops os) m =
          Sample.half * (branchOut c.length (seq c) 0 (odds (seq (fed ops))) m
            + branchOut c.length (seq c) 1 (evens (seq (fed ops))) m) := by
  have hrel := Config.session_rel' hv hc h
  obtain ⟨⟨t, gd⟩, ht⟩ := Option.isSome_iff_exists.1 ((tables_exist (k := 2) (by simp) hv.precision).2 (hv.iir hf))
  refine ⟨t, gd, ht, _, rfl, ?_⟩
  rw [Config.stages_two h2] at hrel
  simp only [Config.stage, hf, hm, hsse, ht, Option.toList, List.map_cons, List.map_nil] at hrel
  obtain ⟨ys, h1, hz⟩ := hrel
  cases hz
  intro m hlt
  rw [h1.2 m (by have := h1.1; omega)]
  simp [iirBranch1]

/-- **C26** for DOWN, with SSE (other order of evaluation, and one more section with coefficient 1 if the number of
coefficients is odd). -/
theorem C26_iir_down_sse (cfg : Config) (hv : cfg.Valid) (hf : cfg.filter = .iir) (hm : cfg.mode = .down) (h2 : cfg.ratio = 2)
    (hsse : cfg.iirSse = true) (ops : List (Op F)) (hc : ∀ op ∈ ops, cfg.OpOk op)
    (r : Resampler F) (os : List (Option (Buf F))) (h : cfg.session ops = .ok (r, os)) :
    ∃ t gd, iirTable 2 cfg.precision = some (t, gd) ∧ ∃ c : List F, c = t.map (fun d => Sample.ofDouble d.toRat) ∧
      ∀ m < (fed ops).length / 2,
        seq (cfg.produced ops os) m =
          ((if c.length % 2 = 1 then allpass 1 (branchOut c.length (seq c) 1 (evens (seq (fed ops)))) m
            else branchOut c.length (seq c) 1 (evens (seq (fed ops))) m)
            + branchOut c.length (seq c) 0 (odds (seq (fed ops))) m) * Sample.half := by
  have hrel := Config.session_rel' hv hc h
  obtain ⟨⟨t, gd⟩, ht⟩ := Option.isSome_iff_exists.1 ((tables_exist (k := 2) (by simp) hv.precision).2 (hv.iir hf))
  refine ⟨t, gd, ht, _, rfl, ?_⟩
  rw [Config.stages_two h2] at hrel
  simp only [Config.stage, hf, hm, hsse, ht, Option.toList, List.map_cons, List.map_nil] at hrel
  obtain ⟨ys, h1, hz⟩ := hrel
  cases hz
  intro m hlt
  rw [h1.2 m (by have := h1.1; omega)]
  simp only [iirBranch1, if_true, true_and]
  split <;> rfl

/-- IIR sessions exist, for both directions. -/
example : (∃ q, (cfg .up 2 16 false .iir).session [Op.process (call 4 8)] = .ok q) ∧
    (∃ q, (cfg .down 2 16 true .iir).session [Op.process { call 4 2 with input := ramp 6 }] = .ok q) := by
  constructor
  · obtain ⟨r, os, h, -⟩ := C04_output_frame (cfg .up 2 16 false .iir) ⟨by decide, by decide, by decide⟩
      [Op.process (call 4 8)] (by
        intro op hop
        simp only [List.mem_cons, List.not_mem_nil, or_false] at hop
        subst hop
        exact ⟨by decide, by decide, by decide, by decide, by decide, by decide, by decide⟩)
    exact ⟨_, h⟩
  · obtain ⟨r, os, h, -⟩ := C04_output_frame (cfg .down 2 16 true .iir) ⟨by decide, by decide, by decide⟩
      [Op.process { call 4 2 with input := ramp 6 }] (by
        intro op hop
        simp only [List.mem_cons, List.not_mem_nil, or_false] at hop
        subst hop
        exact ⟨by decide, by decide, by decide, by decide, by decide, by decide, by decide⟩)
    exact ⟨_, h⟩

end Panda
