import Verif.Props.Stream
import Verif.Proofs.Linear

/-!
# Exact arithmetic (C05, C06, C08, C10, C17, C18, C19, C25)

`K` is any commutative ring; the constants (`half`, conversion of the coefficients) are arbitrary, so rounding of the
coefficients to `float` is covered, rounding of the computation is not (see `Verif.Props.Rounding`).
-/

set_option linter.unusedSectionVars false

namespace Panda

open Examples Finset

variable {K : Type} [CommRing K] [Sample K]

/-! ## C05, C06 -/

/-- **C05** FIR upsampling by 2 is half-band interpolation of the whole stream. -/
theorem C05_fir_up2 (cfg : Config) (hv : cfg.Valid) (hf : cfg.filter = .fir) (hm : cfg.mode = .up) (h2 : cfg.ratio = 2)
    (ops : List (Op K)) (hc : ∀ op ∈ ops, cfg.OpOk op) (r : Resampler K) (os : List (Option (Buf K)))
    (h : cfg.session ops = .ok (r, os)) :
    ∃ t : List Dec, firTable 2 cfg.precision = some t ∧ (cfg.produced ops os).length = 2 * (fed ops).length ∧
      ∀ m < (fed ops).length,
        seq (cfg.produced ops os) (2 * m) = ∑ i ∈ range t.length, seq (t.map fun d => Sample.ofDouble (d.toRat * 2)) i *
          zext (seq (fed ops)) (m - ((t.length : ℤ) - 1) + i) ∧
        seq (cfg.produced ops os) (2 * m + 1) = zext (seq (fed ops)) (m - ((t.length : ℤ) - 1) + (t.length / 2 : ℕ)) := by
  obtain ⟨hl, ho⟩ := Config.session_op hv hc h
  obtain ⟨t, ht⟩ := Option.isSome_iff_exists.1 (tables_exist (k := 2) (by simp) hv.precision).1
  have hl : (cfg.produced ops os).length = 2 * (fed ops).length := by
    rw [hl]; simp only [Config.outLen, hm, h2]; omega
  refine ⟨t, ht, hl, fun m hlt => ?_⟩
  have e0 := ho (2 * m) (by omega)
  have e1 := ho (2 * m + 1) (by omega)
  simp only [Config.op, Config.stages_two h2, Config.stage, hf, hm, ht, Option.toList, List.map_cons, List.map_nil, cascadeOp,
    Stage.op, firUpOp, List.length_map] at e0 e1
  rw [if_pos (by omega)] at e0
  rw [if_neg (by omega)] at e1
  rw [e0, e1, show 2 * m / 2 = m by omega, show (2 * m + 1) / 2 = m by omega]
  exact ⟨rfl, rfl⟩

/-- **C06** FIR downsampling by 2 is half-band decimation of the whole stream. -/
theorem C06_fir_down2 (cfg : Config) (hv : cfg.Valid) (hf : cfg.filter = .fir) (hm : cfg.mode = .down) (h2 : cfg.ratio = 2)
    (ops : List (Op K)) (hc : ∀ op ∈ ops, cfg.OpOk op) (r : Resampler K) (os : List (Option (Buf K)))
    (h : cfg.session ops = .ok (r, os)) :
    ∃ t : List Dec, firTable 2 cfg.precision = some t ∧ (cfg.produced ops os).length = (fed ops).length / 2 ∧
      ∀ m < (fed ops).length / 2,
        seq (cfg.produced ops os) m = ∑ i ∈ range t.length, seq (t.map fun d => Sample.ofDouble (d.toRat * 1)) i *
          zext (seq (fed ops)) (2 * (m - ((t.length : ℤ) - 1) + i)) +
          Sample.half * zext (seq (fed ops)) (2 * (m - ((t.length : ℤ) - 1) + (t.length / 2 : ℕ) - 1) + 1) := by
  obtain ⟨hl, ho⟩ := Config.session_op hv hc h
  obtain ⟨t, ht⟩ := Option.isSome_iff_exists.1 (tables_exist (k := 2) (by simp) hv.precision).1
  have hl : (cfg.produced ops os).length = (fed ops).length / 2 := by
    rw [hl]; simp only [Config.outLen, hm, h2]
  refine ⟨t, ht, hl, fun m hlt => ?_⟩
  have e0 := ho m (by omega)
  simp only [Config.op, Config.stages_two h2, Config.stage, hf, hm, ht, Option.toList, List.map_cons, List.map_nil, cascadeOp,
    Stage.op, firDownOp, List.length_map] at e0
  exact e0

/-- Sessions to which C05 and C06 apply (SSE, two blocks). -/
example : (∃ q, (cfg .up 2 24 true .fir).session [Op.process (call 40 80), .process (call 7 14)] = .ok q) ∧
    (∃ q, (cfg .down 2 24 true .fir).session [Op.process (call 40 20), .process (call 6 3)] = .ok q) := by
  constructor
  · obtain ⟨r, os, h, -⟩ := C04_output_frame (cfg .up 2 24 true .fir) ⟨by decide, by decide, by decide⟩
      [Op.process (call 40 80), .process (call 7 14)] (by
        intro op hop
        simp only [List.mem_cons, List.not_mem_nil, or_false] at hop
        rcases hop with rfl | rfl <;>
        exact ⟨by decide, by decide, by decide, by decide, by decide, by decide, by decide⟩)
    exact ⟨_, h⟩
  · obtain ⟨r, os, h, -⟩ := C04_output_frame (cfg .down 2 24 true .fir) ⟨by decide, by decide, by decide⟩
      [Op.process (call 40 20), .process (call 6 3)] (by
        intro op hop
        simp only [List.mem_cons, List.not_mem_nil, or_false] at hop
        rcases hop with rfl | rfl <;>
        exact ⟨by decide, by decide, by decide, by decide, by decide, by decide, by decide⟩)
    exact ⟨_, h⟩

/-! ## C08, C10, C25 -/

/-- Two resamplers with the same mode, ratio, precision and filter type, whatever the build (SSE, NEON, plain), the
`use_sse` argument and the allocator, give the same output for the same signal, in whatever blocks it comes. -/
theorem same_signal_same_output (cfg cfg' : Config) (hmode : cfg'.mode = cfg.mode) (hratio : cfg'.ratio = cfg.ratio)
    (hprec : cfg'.precision = cfg.precision) (hfilter : cfg'.filter = cfg.filter) (hv : cfg.Valid) (hv' : cfg'.Valid)
    (ops ops' : List (Op K)) (hc : ∀ op ∈ ops, cfg.OpOk op) (hc' : ∀ op ∈ ops', cfg'.OpOk op) (r r' : Resampler K)
    (os os' : List (Option (Buf K))) (h : cfg.session ops = .ok (r, os)) (h' : cfg'.session ops' = .ok (r', os'))
    (he : fed ops = fed ops') : cfg.produced ops os = cfg'.produced ops' os' := by
  obtain ⟨hl, ho⟩ := Config.session_op hv hc h
  obtain ⟨hl', ho'⟩ := Config.session_op hv' hc' h'
  have hlen : (cfg.produced ops os).length = (cfg'.produced ops' os').length := by
    rw [hl, hl', he]
    unfold Config.outLen
    rw [hmode, hratio]
  refine seq_ext hlen fun i hi => ?_
  rw [ho i hi, ho' i (by omega), he, Config.op_congr hmode hratio hprec hfilter]

/-- **C08** The output signal does not depend on how the input signal is divided into blocks (nor on the place of the
buffers), with SSE or without. -/
theorem C08_block_size_independent (cfg : Config) (hv : cfg.Valid) (ops ops' : List (Op K)) (hc : ∀ op ∈ ops, cfg.OpOk op)
    (hc' : ∀ op ∈ ops', cfg.OpOk op) (r r' : Resampler K) (os os' : List (Option (Buf K))) (h : cfg.session ops = .ok (r, os))
    (h' : cfg.session ops' = .ok (r', os')) (he : fed ops = fed ops') : cfg.produced ops os = cfg.produced ops' os' :=
  same_signal_same_output cfg cfg rfl rfl rfl rfl hv hv ops ops' hc hc' r r' os os' h h' he

/-- **C10** FIR: with and without SSE (or NEON), in any build, the output is the same. -/
theorem C10_sse_eq_fpu (cfg cfg' : Config) (hmode : cfg'.mode = cfg.mode) (hratio : cfg'.ratio = cfg.ratio)
    (hprec : cfg'.precision = cfg.precision) (hf : cfg.filter = .fir) (hf' : cfg'.filter = .fir) (hv : cfg.Valid)
    (hv' : cfg'.Valid) (ops ops' : List (Op K)) (hc : ∀ op ∈ ops, cfg.OpOk op) (hc' : ∀ op ∈ ops', cfg'.OpOk op)
    (r r' : Resampler K) (os os' : List (Option (Buf K))) (h : cfg.session ops = .ok (r, os))
    (h' : cfg'.session ops' = .ok (r', os')) (he : fed ops = fed ops') : cfg.produced ops os = cfg'.produced ops' os' :=
  same_signal_same_output cfg cfg' hmode hratio hprec (by rw [hf, hf']) hv hv' ops ops' hc hc' r r' os os' h h' he

/-- **C25** (exact arithmetic) IIR: with and without SSE the output is the same. -/
theorem C25_iir_sse_eq_fpu_exact (cfg cfg' : Config) (hmode : cfg'.mode = cfg.mode) (hratio : cfg'.ratio = cfg.ratio)
    (hprec : cfg'.precision = cfg.precision) (hf : cfg.filter = .iir) (hf' : cfg'.filter = .iir) (hv : cfg.Valid)
    (hv' : cfg'.Valid) (ops ops' : List (Op K)) (hc : ∀ op ∈ ops, cfg.OpOk op) (hc' : ∀ op ∈ ops', cfg'.OpOk op)
    (r r' : Resampler K) (os os' : List (Option (Buf K))) (h : cfg.session ops = .ok (r, os))
    (h' : cfg'.session ops' = .ok (r', os')) (he : fed ops = fed ops') : cfg.produced ops os = cfg'.produced ops' os' :=
  same_signal_same_output cfg cfg' hmode hratio hprec (by rw [hf, hf']) hv hv' ops ops' hc hc' r r' os os' h h' he

/-- The ramp `1, ..., 16` in one block with SSE, in blocks of 8 without. -/
example :
    let c := cfg .down 8 16 true .iir
    let c' := cfg .down 8 16 false .iir
    let ops := [Op.process { call 16 2 with input := ramp 18 }]
    let ops' := [Op.process { call 8 1 with input := rampFrom 0 8 }, .process { call 8 1 with input := rampFrom 8 8 }]
    c.Valid ∧ c'.Valid ∧ c.iirSse = true ∧ c'.iirSse = false ∧ fed ops = fed ops' ∧
    (∃ q, c.session ops = .ok q) ∧ (∃ q, c'.session ops' = .ok q) := by
  intro c c' ops ops'
  have hv : c.Valid := ⟨by decide, by decide, by decide⟩
  have hv' : c'.Valid := ⟨by decide, by decide, by decide⟩
  have hc : ∀ op ∈ ops, c.OpOk op := by
    intro op hop
    simp only [ops, List.mem_cons, List.not_mem_nil, or_false] at hop
    subst hop
    exact ⟨by decide, by decide, by decide, by decide, by decide, by decide, by decide⟩
  have hc' : ∀ op ∈ ops', c'.OpOk op := by
    intro op hop
    simp only [ops', List.mem_cons, List.not_mem_nil, or_false] at hop
    rcases hop with rfl | rfl <;>
    exact ⟨by decide, by decide, by decide, by decide, by decide, by decide, by decide⟩
  obtain ⟨r, os, h, -⟩ := C04_output_frame c hv ops hc
  obtain ⟨r', os', h', -⟩ := C04_output_frame c' hv' ops' hc'
  exact ⟨hv, hv', rfl, rfl, by decide +kernel, ⟨_, h⟩, ⟨_, h'⟩⟩

/-! ## C18 -/

/-- **C18** Linearity: if the third input signal is `a` times the first plus `b` times the second, so is the output
signal, however the signals are divided into blocks. (Sum: `a = b = 1`; scaling: `b = 0`; silence: `a = b = 0`.) -/
theorem C18_linear (cfg : Config) (hv : cfg.Valid) (a b : K) (ops1 ops2 ops3 : List (Op K))
    (hc1 : ∀ op ∈ ops1, cfg.OpOk op) (hc2 : ∀ op ∈ ops2, cfg.OpOk op) (hc3 : ∀ op ∈ ops3, cfg.OpOk op)
    (r1 r2 r3 : Resampler K) (os1 os2 os3 : List (Option (Buf K))) (h1 : cfg.session ops1 = .ok (r1, os1))
    (h2 : cfg.session ops2 = .ok (r2, os2)) (h3 : cfg.session ops3 = .ok (r3, os3))
    (hl : (fed ops1).length = (fed ops2).length)
    (he : fed ops3 = List.zipWith (fun x y => a * x + b * y) (fed ops1) (fed ops2)) :
    cfg.produced ops3 os3 = List.zipWith (fun x y => a * x + b * y) (cfg.produced ops1 os1) (cfg.produced ops2 os2) := by
  have zip_seq : ∀ l m : List K, l.length = m.length →
      seq (List.zipWith (fun x y => a * x + b * y) l m) = fun n => a * seq l n + b * seq m n := by
    intro l m hlm
    funext n
    simp only [seq, List.getD_eq_getElem?_getD, List.getElem?_zipWith]
    by_cases hn : n < l.length
    · rw [List.getElem?_eq_getElem hn, List.getElem?_eq_getElem (by omega)]; rfl
    · rw [List.getElem?_eq_none (by omega), List.getElem?_eq_none (by omega)]; simp
  obtain ⟨l1, o1⟩ := Config.session_op hv hc1 h1
  obtain ⟨l2, o2⟩ := Config.session_op hv hc2 h2
  obtain ⟨l3, o3⟩ := Config.session_op hv hc3 h3
  have l12 : (cfg.produced ops1 os1).length = (cfg.produced ops2 os2).length := by rw [l1, l2, hl]
  have hlen : (cfg.produced ops3 os3).length = (cfg.produced ops1 os1).length := by
    rw [l3, l1, he, List.length_zipWith, hl, Nat.min_self]
  refine seq_ext ?_ fun i hi => ?_
  · rw [List.length_zipWith, ← l12, Nat.min_self, hlen]
  · rw [zip_seq _ _ l12, o3 i hi, he, zip_seq _ _ hl, Config.op_lin]
    simp only
    rw [o1 i (by omega), o2 i (by omega)]

/-- Three signals as in the theorem: 1, 2, 3, 4 and 5, 6, 7, 8 and 10 times the first plus the second. -/
example :
    let c := cfg .up 4 12 true .iir
    let ops1 := [Op.process { call 4 16 with input := rampFrom 0 4 }]
    let ops2 := [Op.process { call 4 16 with input := rampFrom 4 4 }]
    let ops3 := [Op.process { call 1 4 with input := { ramp 1 with get := fun _ => 15 } },
      .process { call 3 12 with input := { ramp 3 with get := fun i => 26 + 11 * i } }]
    fed ops3 = List.zipWith (fun x y => 10 * x + 1 * y) (fed ops1) (fed ops2) ∧ (fed ops1).length = (fed ops2).length ∧
    (∃ q, c.session ops1 = .ok q) ∧ (∃ q, c.session ops2 = .ok q) ∧ (∃ q, c.session ops3 = .ok q) := by
  intro c ops1 ops2 ops3
  have hv : c.Valid := ⟨by decide, by decide, by decide⟩
  have hc1 : ∀ op ∈ ops1, c.OpOk op := by
    intro op hop
    simp only [ops1, List.mem_cons, List.not_mem_nil, or_false] at hop
    subst hop
    exact ⟨by decide, by decide, by decide, by decide, by decide, by decide, by decide⟩
  have hc2 : ∀ op ∈ ops2, c.OpOk op := by
    intro op hop
    simp only [ops2, List.mem_cons, List.not_mem_nil, or_false] at hop
    subst hop
    exact ⟨by decide, by decide, by decide, by decide, by decide, by decide, by decide⟩
  have hc3 : ∀ op ∈ ops3, c.OpOk op := by
    intro op hop
    simp only [ops3, List.mem_cons, List.not_mem_nil, or_false] at hop
    rcases hop with rfl | rfl <;>
    exact ⟨by decide, by decide, by decide, by decide, by decide, by decide, by decide⟩
  obtain ⟨_, _, g1, -⟩ := C04_output_frame c hv ops1 hc1
  obtain ⟨_, _, g2, -⟩ := C04_output_frame c hv ops2 hc2
  obtain ⟨_, _, g3, -⟩ := C04_output_frame c hv ops3 hc3
  exact ⟨by decide +kernel, by decide +kernel, ⟨_, g1⟩, ⟨_, g2⟩, ⟨_, g3⟩⟩

/-! ## C19 -/

theorem seq_zeros_append (k : ℕ) (xs : List K) : seq (List.replicate k 0 ++ xs) = delayed k (seq xs) := by
  funext n
  simp only [seq, delayed, List.getD_eq_getElem?_getD]
  by_cases h : n < k
  · rw [if_pos h, List.getElem?_append_left (by simpa using h)]
    simp [h]
  · rw [if_neg h, List.getElem?_append_right (by simpa using h)]
    simp

/-- **C19** Time invariance, UP: `k` zero samples before the signal give `k*ratio` zero samples before the output. -/
theorem C19_time_invariant_up (cfg : Config) (hv : cfg.Valid) (hm : cfg.mode = .up) (k : ℕ) (ops ops' : List (Op K))
    (hc : ∀ op ∈ ops, cfg.OpOk op) (hc' : ∀ op ∈ ops', cfg.OpOk op) (r r' : Resampler K)
    (os os' : List (Option (Buf K))) (h : cfg.session ops = .ok (r, os)) (h' : cfg.session ops' = .ok (r', os'))
    (he : fed ops' = List.replicate k 0 ++ fed ops) :
    cfg.produced ops' os' = List.replicate (k * cfg.ratio) 0 ++ cfg.produced ops os := by
  obtain ⟨hl, ho⟩ := Config.session_op hv hc h
  obtain ⟨hl', ho'⟩ := Config.session_op hv hc' h'
  have hlen : (cfg.produced ops' os').length = k * cfg.ratio + (cfg.produced ops os).length := by
    rw [hl, hl', he]
    simp only [Config.outLen, hm, List.length_append, List.length_replicate, add_mul]
  refine seq_ext (by simpa using hlen) fun i hi => ?_
  rw [ho' i hi, he, seq_zeros_append, seq_zeros_append, Config.op_delayed_up hv hm]
  unfold delayed
  split
  · rfl
  · rw [ho _ (by omega)]

/-- **C19** Time invariance, DOWN: `k*ratio` zero samples before the signal give `k` zero samples before the output. -/
theorem C19_time_invariant_down (cfg : Config) (hv : cfg.Valid) (hm : cfg.mode = .down) (k : ℕ) (ops ops' : List (Op K))
    (hc : ∀ op ∈ ops, cfg.OpOk op) (hc' : ∀ op ∈ ops', cfg.OpOk op) (r r' : Resampler K)
    (os os' : List (Option (Buf K))) (h : cfg.session ops = .ok (r, os)) (h' : cfg.session ops' = .ok (r', os'))
    (he : fed ops' = List.replicate (k * cfg.ratio) 0 ++ fed ops) :
    cfg.produced ops' os' = List.replicate k 0 ++ cfg.produced ops os := by
  obtain ⟨hl, ho⟩ := Config.session_op hv hc h
  obtain ⟨hl', ho'⟩ := Config.session_op hv hc' h'
  have hpos : 0 < cfg.ratio := by
    have := hv.ratio
    simp only [List.mem_cons, List.not_mem_nil, or_false] at this
    omega
  have hlen : (cfg.produced ops' os').length = k + (cfg.produced ops os).length := by
    rw [hl, hl', he]
    simp only [Config.outLen, hm, List.length_append, List.length_replicate]
    rw [add_comm, Nat.add_mul_div_right _ _ hpos, add_comm]
  refine seq_ext (by simpa using hlen) fun i hi => ?_
  rw [ho' i hi, he, seq_zeros_append, seq_zeros_append, Config.op_delayed_down hv hm]
  unfold delayed
  split
  · rfl
  · rw [ho _ (by omega)]

/-- A ramp, and the same ramp after 16 zero samples. -/
example :
    let c := cfg .down 8 20 true .fir
    let ops := [Op.process (call 16 2)]
    let ops' := [Op.process { call 16 2 with input := { ramp 16 with get := fun _ => 0 } }, .process (call 16 2)]
    fed ops' = List.replicate (2 * c.ratio) 0 ++ fed ops ∧
    (∃ q, c.session ops = .ok q) ∧ (∃ q, c.session ops' = .ok q) := by
  intro c ops ops'
  have hv : c.Valid := ⟨by decide, by decide, by decide⟩
  have hc : ∀ op ∈ ops, c.OpOk op := by
    intro op hop
    simp only [ops, List.mem_cons, List.not_mem_nil, or_false] at hop
    subst hop
    exact ⟨by decide, by decide, by decide, by decide, by decide, by decide, by decide⟩
  have hc' : ∀ op ∈ ops', c.OpOk op := by
    intro op hop
    simp only [ops', List.mem_cons, List.not_mem_nil, or_false] at hop
    rcases hop with rfl | rfl <;>
    exact ⟨by decide, by decide, by decide, by decide, by decide, by decide, by decide⟩
  obtain ⟨_, _, g1, -⟩ := C04_output_frame c hv ops hc
  obtain ⟨_, _, g2, -⟩ := C04_output_frame c hv ops' hc'
  exact ⟨by decide +kernel, ⟨_, g1⟩, ⟨_, g2⟩⟩

/-! ## C17 -/

/-- **C17** (window) FIR: an output sample depends on at most `cfg.memory` input samples before its own position; UP. -/
theorem C17_window_up (cfg : Config) (hv : cfg.Valid) (hf : cfg.filter = .fir) (hm : cfg.mode = .up) (ops ops' : List (Op K))
    (hc : ∀ op ∈ ops, cfg.OpOk op) (hc' : ∀ op ∈ ops', cfg.OpOk op) (r r' : Resampler K)
    (os os' : List (Option (Buf K))) (h : cfg.session ops = .ok (r, os)) (h' : cfg.session ops' = .ok (r', os')) (n : ℕ)
    (hn : n < (cfg.produced ops os).length) (hn' : n < (cfg.produced ops' os').length)
    (he : ∀ i, n / cfg.ratio ≤ i + cfg.memory → i ≤ n / cfg.ratio → seq (fed ops) i = seq (fed ops') i) :
    seq (cfg.produced ops os) n = seq (cfg.produced ops' os') n := by
  rw [(Config.session_op hv hc h).2 n hn, (Config.session_op hv hc' h').2 n hn']
  exact Config.op_local_up hv hf hm he

/-- **C17** (window) the same for DOWN. -/
theorem C17_window_down (cfg : Config) (hv : cfg.Valid) (hf : cfg.filter = .fir) (hm : cfg.mode = .down) (ops ops' : List (Op K))
    (hc : ∀ op ∈ ops, cfg.OpOk op) (hc' : ∀ op ∈ ops', cfg.OpOk op) (r r' : Resampler K)
    (os os' : List (Option (Buf K))) (h : cfg.session ops = .ok (r, os)) (h' : cfg.session ops' = .ok (r', os')) (n : ℕ)
    (hn : n < (cfg.produced ops os).length) (hn' : n < (cfg.produced ops' os').length)
    (he : ∀ i, cfg.ratio * n ≤ i + cfg.memory → i < cfg.ratio * (n + 1) → seq (fed ops) i = seq (fed ops') i) :
    seq (cfg.produced ops os) n = seq (cfg.produced ops' os') n := by
  rw [(Config.session_op hv hc h).2 n hn, (Config.session_op hv hc' h').2 n hn']
  exact Config.op_local_down hv hf hm he

/-- The memory is at most 62 input samples for UP, at most 490 for DOWN. -/
theorem C17_memory_bound (cfg : Config) (hv : cfg.Valid) :
    cfg.memory ≤ match cfg.mode with | .up => 62 | .down => 490 := by
  obtain ⟨bld, al, mode, ratio, precision, useSse, filter⟩ := cfg
  have hr : ratio ∈ [1, 2, 4, 8] := hv.ratio
  have hp : precision ∈ [1, 8, 12, 16, 20, 24] := hv.precision
  simp only [Config.memory]
  have key : ∀ mode ∈ [Mode.up, Mode.down], ∀ ratio ∈ [1, 2, 4, 8], ∀ precision ∈ [1, 8, 12, 16, 20, 24],
    Config.memory ⟨⟨true, true, true⟩, ⟨id, id⟩, mode, ratio, precision, true, .fir⟩ ≤
      match mode with | .up => 62 | .down => 490 := by decide +kernel
  exact key mode (by cases mode <;> simp) ratio hr precision hp

/-- **C17** FIR: after any history followed by `Z ≥ memory` zero samples, the output for whatever follows is the output of
a new (or reset) resampler. `ops` passes in `a`, then `Z` zeros, then `b`; `ops'` passes in `b` only. -/
theorem C17_forgets (cfg : Config) (hv : cfg.Valid) (hf : cfg.filter = .fir) (a b : List K) (Z : ℕ) (hZ : cfg.memory ≤ Z)
    (hmul : cfg.mode = .down → cfg.ratio ∣ a.length + Z) (ops ops' : List (Op K))
    (hc : ∀ op ∈ ops, cfg.OpOk op) (hc' : ∀ op ∈ ops', cfg.OpOk op) (r r' : Resampler K)
    (os os' : List (Option (Buf K))) (h : cfg.session ops = .ok (r, os)) (h' : cfg.session ops' = .ok (r', os'))
    (he : fed ops = a ++ List.replicate Z 0 ++ b) (he' : fed ops' = b) :
    (cfg.produced ops os).drop (cfg.outLen (a.length + Z)) = cfg.produced ops' os' := by
  obtain ⟨hl, ho⟩ := Config.session_op hv hc h
  obtain ⟨hl', ho'⟩ := Config.session_op hv hc' h'
  have hpos : 0 < cfg.ratio := by
    have := hv.ratio
    simp only [List.mem_cons, List.not_mem_nil, or_false] at this
    omega
  have hlen : (cfg.produced ops os).length = cfg.outLen (a.length + Z) + (cfg.produced ops' os').length := by
    rw [hl, hl', he, he']
    simp only [List.length_append, List.length_replicate]
    unfold Config.outLen
    cases hm : cfg.mode
    · simp only; ring
    · obtain ⟨q, hq⟩ := hmul hm
      simp only
      rw [hq, Nat.mul_div_cancel_left _ hpos, add_comm, Nat.add_mul_div_left _ _ hpos, add_comm]
  have hseq : ∀ i, a.length ≤ i → seq (fed ops) i = delayed (a.length + Z) (seq b) i := by
    intro i hi
    rw [he]
    simp only [seq, delayed, List.getD_eq_getElem?_getD]
    by_cases h1 : i < a.length + Z
    · rw [if_pos h1, List.append_assoc, List.getElem?_append_right hi, List.getElem?_append_left (by simp; omega)]
      simp only [List.getElem?_replicate]
      rw [if_pos (by omega)]
      rfl
    · rw [if_neg h1, List.getElem?_append_right (by simp; omega)]
      simp
  refine seq_ext (by simp [hlen]) fun i hi => ?_
  have hd : seq ((cfg.produced ops os).drop (cfg.outLen (a.length + Z))) i =
      seq (cfg.produced ops os) (cfg.outLen (a.length + Z) + i) := by
    simp [seq, List.getD_eq_getElem?_getD, List.getElem?_drop]
  have hi : i < (cfg.produced ops' os').length := by
    rw [List.length_drop] at hi
    omega
  rw [hd, ho _ (by omega), ho' i hi, he']
  cases hm : cfg.mode
  · have e : cfg.op (delayed (a.length + Z) (seq b)) (cfg.outLen (a.length + Z) + i) = cfg.op (seq b) i := by
      rw [Config.op_delayed_up hv hm]
      simp only [Config.outLen, hm, delayed]
      rw [if_neg (by omega)]
      congr 1
      omega
    rw [← e]
    refine Config.op_local_up hv hf hm fun j hj1 hj2 => hseq j ?_
    have : a.length + Z ≤ (cfg.outLen (a.length + Z) + i) / cfg.ratio := by
      rw [Nat.le_div_iff_mul_le hpos]
      simp only [Config.outLen, hm]
      omega
    omega
  · obtain ⟨q, hq⟩ := hmul hm
    have hout : cfg.outLen (a.length + Z) = q := by
      simp only [Config.outLen, hm]
      rw [hq, Nat.mul_div_cancel_left _ hpos]
    have e : cfg.op (delayed (a.length + Z) (seq b)) (q + i) = cfg.op (seq b) i := by
      rw [hq, mul_comm, Config.op_delayed_down hv hm]
      simp only [delayed]
      rw [if_neg (by omega)]
      congr 1
      omega
    rw [hout, ← e]
    refine Config.op_local_down hv hf hm fun j hj1 hj2 => hseq j ?_
    have : a.length + Z ≤ cfg.ratio * (q + i) := by
      rw [hq]
      exact Nat.mul_le_mul_left _ (by omega)
    omega

/-- Something, 40 zero samples (the memory of this filter is 31 samples), something else. -/
example :
    let c := cfg .up 2 16 true .fir
    let ops := [Op.process (call 5 10), .process { call 40 80 with input := { ramp 40 with get := fun _ => 0 } }, .process (call 7 14)]
    let ops' := [Op.process (call 7 14)]
    c.memory = 31 ∧ fed ops = (ramp 5).toList 5 ++ List.replicate 40 0 ++ (ramp 7).toList 7 ∧ fed ops' = (ramp 7).toList 7 ∧
    (∃ q, c.session ops = .ok q) ∧ (∃ q, c.session ops' = .ok q) := by
  intro c ops ops'
  have hv : c.Valid := ⟨by decide, by decide, by decide⟩
  have hc : ∀ op ∈ ops, c.OpOk op := by
    intro op hop
    simp only [ops, List.mem_cons, List.not_mem_nil, or_false] at hop
    rcases hop with rfl | rfl | rfl <;>
    exact ⟨by decide, by decide, by decide, by decide, by decide, by decide, by decide⟩
  have hc' : ∀ op ∈ ops', c.OpOk op := by
    intro op hop
    simp only [ops', List.mem_cons, List.not_mem_nil, or_false] at hop
    subst hop
    exact ⟨by decide, by decide, by decide, by decide, by decide, by decide, by decide⟩
  obtain ⟨_, _, g1, -⟩ := C04_output_frame c hv ops hc
  obtain ⟨_, _, g2, -⟩ := C04_output_frame c hv ops' hc'
  exact ⟨by decide, by decide +kernel, by decide +kernel, ⟨_, g1⟩, ⟨_, g2⟩⟩

end Panda
