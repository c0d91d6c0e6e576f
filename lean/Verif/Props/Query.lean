import Verif.Props.Common
import Verif.Proofs.Query

/-!
# The query functions and the precision helpers (C14, C33 – C36)
-/

set_option linter.unusedSectionVars false

namespace Panda

open Examples

variable {F : Type} [Zero F] [One F] [Add F] [Sub F] [Mul F] [Sample F]

/-! ## C14: `delay()` -/

/-- The configuration space that `delay()` depends on is finite. -/
private theorem totalDelay_all : ∀ m ∈ [Mode.up, Mode.down], ∀ f ∈ [Filter.fir, Filter.iir], ∀ ratio ∈ [1, 2, 4, 8],
    ∀ p ∈ [1, 8, 12, 16, 20, 24], (f = .iir → p ≠ 1) →
      0 ≤ (cfg m ratio p true f).totalDelay ∧
      (f = .fir → m = .up → (cfg m ratio p true f).totalDelay.den = 1) ∧
      (f = .fir → m = .down → ((cfg m ratio p true f).totalDelay * ratio).den = 1) := by decide +kernel

private theorem totalDelay_spec {cfg : Config} (hv : cfg.Valid) : 0 ≤ cfg.totalDelay ∧
    (cfg.filter = .fir → cfg.mode = .up → cfg.totalDelay.den = 1) ∧
    (cfg.filter = .fir → cfg.mode = .down → (cfg.totalDelay * cfg.ratio).den = 1) := by
  have hm : cfg.mode ∈ [Mode.up, Mode.down] := by cases cfg.mode <;> simp
  have hf : cfg.filter ∈ [Filter.fir, Filter.iir] := by cases cfg.filter <;> simp
  exact totalDelay_all cfg.mode hm cfg.filter hf cfg.ratio hv.ratio cfg.precision hv.precision hv.iir

private theorem nat_of_den {q : Rat} (h0 : 0 ≤ q) (h : q.den = 1) : ∃ k : Nat, q = k := by
  refine ⟨q.num.toNat, ?_⟩
  have hn : 0 ≤ q.num := Rat.num_nonneg.2 h0
  have : ((q.num.toNat : Nat) : Int) = q.num := Int.toNat_of_nonneg hn
  rw [← Rat.intCast_natCast, this]
  apply Rat.ext <;> simp [h]

/-- **C14 (partial)** `delay()` is defined and never negative, for every supported configuration and after any
history. For FIR upsampling of any ratio it is a natural number; for FIR downsampling a multiple of `1/ratio`, so
for factor 2 a multiple of 0.5.
Missing: the granularity for IIR filters, where it is false (`C14_false_iir_granularity`). -/
theorem C14_delay_nonneg_partial (cfg : Config) (hv : cfg.Valid) (r : Resampler F) (h : cfg.Reachable r) :
    ∃ d : Rat, r.delay = .ok d ∧ 0 ≤ d ∧
      (cfg.filter = .fir → cfg.mode = .up → ∃ k : Nat, d = k) ∧
      (cfg.filter = .fir → cfg.mode = .down → ∃ k : Nat, d * cfg.ratio = k) := by
  obtain ⟨h0, h1, h2⟩ := totalDelay_spec hv
  refine ⟨_, h.delay hv, h0, fun hf hm => nat_of_den h0 (h1 hf hm), fun hf hm => nat_of_den ?_ (h2 hf hm)⟩
  exact Rat.mul_nonneg h0 (by exact_mod_cast Nat.zero_le _)

/-- A resampler with a history. -/
example : (cfg .down 4 16 true .fir).Valid ∧
    ∃ r : Resampler Rat, (cfg .down 4 16 true .fir).Reachable r := by
  have hv : (cfg .down 4 16 true .fir).Valid := ⟨by decide, by decide, by decide⟩
  refine ⟨hv, ?_⟩
  have hc : ∀ op ∈ [Op.process (call 16 4)], (cfg .down 4 16 true .fir).OpOk op := by
    intro op hop
    simp only [List.mem_cons, List.not_mem_nil, or_false] at hop
    subst hop
    exact ⟨by decide, by decide, by decide, by decide, by decide, by decide, by decide⟩
  obtain ⟨q, hq, -⟩ := Config.session_sat hv hc
  exact ⟨q.1, _, q.2, hc, hq⟩

/-- **C14 is false for IIR filters**: the documentation says that for factor 2 `delay()` is a multiple of 0.5 (of 1.0 for
upsampling), but no factor 2 IIR resampler has such a delay. -/
theorem C14_false_iir_granularity (cfg : Config) (hv : cfg.Valid) (hf : cfg.filter = .iir) (hr : cfg.ratio = 2)
    (r : Resampler F) (h : cfg.Reachable r) : ∃ d : Rat, r.delay = .ok d ∧ ¬ ∃ k : Int, 2 * d = k := by
  have key : ∀ m ∈ [Mode.up, Mode.down], ∀ p ∈ [8, 12, 16, 20, 24],
      (2 * (Examples.cfg m 2 p true .iir).totalDelay).den ≠ 1 := by decide +kernel
  have hm : cfg.mode ∈ [Mode.up, Mode.down] := by cases cfg.mode <;> simp
  have hp := hv.precision
  have hp1 := hv.iir hf
  have := key cfg.mode hm cfg.precision (by simp only [List.mem_cons, List.not_mem_nil, or_false] at hp ⊢; omega)
  refine ⟨_, h.delay hv, ?_⟩
  rintro ⟨k, hk⟩
  apply this
  have e : (Examples.cfg cfg.mode 2 cfg.precision true .iir).totalDelay = cfg.totalDelay := by
    unfold Config.totalDelay Config.stageDelay
    rw [hf, hr]
    rfl
  rw [e, hk]
  simp

example : (cfg .up 2 16 true .iir).Valid ∧
    ∃ r : Resampler Rat, (cfg .up 2 16 true .iir).Reachable r := by
  have hv : (cfg .up 2 16 true .iir).Valid := ⟨by decide, by decide, by decide⟩
  obtain ⟨q, hq, -⟩ := Config.session_sat (F := Rat) hv (ops := []) (by simp)
  exact ⟨hv, q.1, [], q.2, by simp, hq⟩

/-! ## C33, C34: precisions -/

/-- The enumerators of `Resampler2::Precision` (pandaresampler.hh:148-158), by value: the number of bits. -/
def precisions : List Nat := [1, 8, 12, 16, 20, 24]

/-- **C33** `find_precision_for_bits` returns a precision; for at most 24 bits it is the least one that provides the
requested number of bits, for more the best one there is. -/
theorem C33_find_precision (bits : Nat) :
    findPrecisionForBits bits ∈ precisions ∧
    (bits ≤ 24 → bits ≤ findPrecisionForBits bits) ∧
    (∀ p ∈ precisions, bits ≤ p → findPrecisionForBits bits ≤ p) ∧
    (24 < bits → ∀ p ∈ precisions, p ≤ findPrecisionForBits bits) := by
  unfold findPrecisionForBits precisions
  simp only [List.mem_cons, List.not_mem_nil, or_false]
  repeat' split
  all_goals refine ⟨?_, ?_, ?_, ?_⟩ <;> intros <;> omega

example : findPrecisionForBits 13 = 16 ∧ findPrecisionForBits 0 = 1 ∧ findPrecisionForBits 4294967295 = 24 := by decide

/-- **C33** (monotone) asking for more bits never gives less precision. -/
theorem C33_find_precision_monotone {a b : Nat} (h : a ≤ b) : findPrecisionForBits a ≤ findPrecisionForBits b := by
  unfold findPrecisionForBits
  repeat' split
  all_goals omega

example : (9 : Nat) ≤ 17 ∧ findPrecisionForBits 9 < findPrecisionForBits 17 := by decide

/-- **C33** (fixed points) every precision is the one found for its own number of bits. -/
theorem C33_find_precision_fixed (p : Nat) (h : p ∈ precisions) : findPrecisionForBits p = p := by
  simp only [precisions, List.mem_cons, List.not_mem_nil, or_false] at h
  rcases h with rfl | rfl | rfl | rfl | rfl | rfl <;> rfl

example : (20 : Nat) ∈ precisions := by decide

/-- **C34** `precision_name`: different precisions have different names, none of them is the name given to invalid
values, and every invalid value gets that name. -/
theorem C34_precision_name (p q : Nat) :
    (p ∈ precisions → q ∈ precisions → precisionName p = precisionName q → p = q) ∧
    (precisionName p = "unknown precision enum value" ↔ p ∉ precisions) := by
  constructor
  · intro hp hq
    have : ∀ p ∈ precisions, ∀ q ∈ precisions, precisionName p = precisionName q → p = q := by decide
    exact this p hp q hq
  · constructor
    · intro h hp
      revert h
      revert p
      decide
    · intro h
      simp only [precisions, List.mem_cons, List.not_mem_nil, or_false, not_or] at h
      unfold precisionName
      split <;> simp_all

example : precisionName 24 = "24 bit (144dB)" ∧ (24 : Nat) ∈ precisions ∧ precisionName 7 = "unknown precision enum value" := by
  decide

/-- **C34** The name tells the number of bits, and 6 dB for each bit; `find_precision_for_bits` for the number in the name gives the precision. -/
theorem C34_name_tells (p : Nat) (h : p ∈ precisions) (h1 : p ≠ 1) :
    precisionName p = toString p ++ " bit (" ++ toString (6 * p) ++ "dB)" ∧ findPrecisionForBits p = p := by
  refine ⟨?_, C33_find_precision_fixed p h⟩
  have : ∀ p ∈ precisions, p ≠ 1 → precisionName p = toString p ++ " bit (" ++ toString (6 * p) ++ "dB)" := by decide +kernel
  exact this p h h1

example : (20 : Nat) ∈ precisions ∧ (20 : Nat) ≠ 1 := by decide

/-! ## C35: `order()` -/

/-- **C35** `order()` is the number of coefficients of the first stage's filter (twice-rate stage of that precision),
it is constant over the life of the object, at least 2, and even for FIR filters. -/
theorem C35_order (cfg : Config) (hv : cfg.Valid) (h2 : 2 ≤ cfg.ratio) (r : Resampler F) (h : cfg.Reachable r) :
    ∃ n, r.order = .ok n ∧ 2 ≤ n ∧
      (cfg.filter = .fir → n % 2 = 0 ∧ ∃ t, firTable 2 cfg.precision = some t ∧ n = t.length) ∧
      (cfg.filter = .iir → ∃ t gd, iirTable 2 cfg.precision = some (t, gd) ∧ n = t.length) := by
  refine ⟨_, h.order hv h2, ?_⟩
  have hp := hv.precision
  have hi := hv.iir
  unfold Config.stageOrder
  cases hf : cfg.filter
  · have hp1 := hi hf
    have hp : cfg.precision ∈ [8, 12, 16, 20, 24] := by
      simp only [List.mem_cons, List.not_mem_nil, or_false] at hp ⊢; omega
    generalize cfg.precision = p at hp
    simp only [reduceCtorEq, false_implies, true_implies, true_and]
    simp only [List.mem_cons, List.not_mem_nil, or_false] at hp
    rcases hp with rfl | rfl | rfl | rfl | rfl <;> exact ⟨by decide, _, _, rfl, rfl⟩
  · generalize cfg.precision = p at hp
    simp only [reduceCtorEq, false_implies, true_implies, and_true]
    simp only [List.mem_cons, List.not_mem_nil, or_false] at hp
    rcases hp with rfl | rfl | rfl | rfl | rfl | rfl <;> exact ⟨by decide, by decide, _, rfl, rfl⟩

example : (cfg .up 2 16 true .fir).Valid ∧ 2 ≤ (cfg .up 2 16 true .fir).ratio ∧
    ∃ r : Resampler Rat, (cfg .up 2 16 true .fir).Reachable r := by
  have hv : (cfg .up 2 16 true .fir).Valid := ⟨by decide, by decide, by decide⟩
  obtain ⟨q, hq, -⟩ := Config.session_sat (F := Rat) hv (ops := []) (by simp)
  exact ⟨hv, by decide, q.1, [], q.2, by simp, hq⟩

/-- **C35** (monotone) of two resamplers with the same filter type, the one with the higher precision has at least the
same order, whatever their modes and ratios. -/
theorem C35_order_monotone (c1 c2 : Config) (h1 : c1.Valid) (h2 : c2.Valid) (hr1 : 2 ≤ c1.ratio) (hr2 : 2 ≤ c2.ratio)
    (hf : c1.filter = c2.filter) (hp : c1.precision ≤ c2.precision) (r1 r2 : Resampler F) (hq1 : c1.Reachable r1)
    (hq2 : c2.Reachable r2) : ∃ n1 n2, r1.order = .ok n1 ∧ r2.order = .ok n2 ∧ n1 ≤ n2 := by
  refine ⟨_, _, hq1.order h1 hr1, hq2.order h2 hr2, ?_⟩
  have key : ∀ f ∈ [Filter.fir, Filter.iir], ∀ p ∈ [1, 8, 12, 16, 20, 24], ∀ q ∈ [1, 8, 12, 16, 20, 24], p ≤ q →
      (f = .iir → p ≠ 1) → (f = .iir → q ≠ 1) →
      (Examples.cfg .up 2 p true f).stageOrder 2 ≤ (Examples.cfg .up 2 q true f).stageOrder 2 := by decide +kernel
  have hm : c1.filter ∈ [Filter.fir, Filter.iir] := by cases c1.filter <;> simp
  have := key c1.filter hm c1.precision h1.precision c2.precision h2.precision hp h1.iir (hf ▸ h2.iir)
  have e1 : (Examples.cfg .up 2 c1.precision true c1.filter).stageOrder 2 = c1.stageOrder 2 := rfl
  have e2 : (Examples.cfg .up 2 c2.precision true c1.filter).stageOrder 2 = c2.stageOrder 2 := by rw [hf]; rfl
  rwa [e1, e2] at this

example : (cfg .up 2 12 true .iir).precision ≤ (cfg .down 8 20 false .iir).precision ∧
    (cfg .up 2 12 true .iir).filter = (cfg .down 8 20 false .iir).filter := by decide

/-- **C35** (the internal check) `create_impl_with_coeffs` compares the `order` argument with `filter->order()` (the
template argument). In all 32 calls that occur in `create_impl` the template argument, the passed number and the number
of elements of the coefficient array agree, the scaling is 2 for UP and 1 for DOWN, and the array is the one that
`firTable` selects for that stage. -/
theorem C35_order_check_passes : ∀ c ∈ firCreate,
    c.order = c.n ∧ c.table.length = c.n ∧ c.scaling = (if c.up then 2 else 1) ∧
      (c.stage ≠ 0 → firTable c.stage c.precision = some c.table) ∧
      (c.stage = 0 → ∀ k, firTable k c.precision = some c.table) := by
  have h : ∀ c ∈ firCreate, c.order = c.n ∧ c.table.length = c.n ∧ c.scaling = (if c.up then 2 else 1) ∧
      (c.stage ≠ 0 → firTable c.stage c.precision = some c.table) ∧
      (c.stage = 0 → c.precision = 1 ∧ c.table = firLinear) := by decide +kernel
  intro c hc
  obtain ⟨a, b, d, e, f⟩ := h c hc
  refine ⟨a, b, d, e, fun h0 k => ?_⟩
  obtain ⟨hp, ht⟩ := f h0
  simp [firTable, hp, ht]

example : (⟨4, 12, true, 10, fir4x12, 10, 2⟩ : FirCreate).order = 10 ∧ firCreate.length = 32 := by decide

/-- **C35** (completeness) for every stage, precision and mode there is exactly one such call. -/
theorem C35_create_complete (k p : Nat) (up : Bool) (hk : k ∈ [2, 4, 8]) (hp : p ∈ precisions) :
    (firCreate.filter fun c => (c.stage == k || c.stage == 0) && c.precision == p && c.up == up).length = 1 := by
  have : ∀ k ∈ [2, 4, 8], ∀ p ∈ precisions, ∀ up : Bool,
      (firCreate.filter fun c => (c.stage == k || c.stage == 0) && c.precision == p && c.up == up).length = 1 := by
    decide +kernel
  exact this k hk p hp up

example : (8 : Nat) ∈ [2, 4, 8] ∧ (20 : Nat) ∈ precisions := by decide

/-! ## C36: `sse_enabled()` -/

/-- Does the object run vectorised code? -/
def Impl.isVector : Impl F → Prop
  | .firUp u => u.useSse = true
  | .firDown d => d.useSse = true
  | .iirUpSse _ _ | .iirDownSse _ _ => True
  | .iirUp _ _ | .iirDown _ _ => False

/-- **C36** `sse_enabled()` is true exactly if vector code was requested and is compiled in: for FIR filters with SSE or
NEON, for IIR filters with SSE; and it is true exactly if the first stage is an object that runs vector code. -/
theorem C36_sse_enabled (cfg : Config) (hv : cfg.Valid) (h2 : 2 ≤ cfg.ratio) (r : Resampler F) (h : cfg.Reachable r) :
    ∃ b, r.sseEnabled = .ok b ∧
      (b = true ↔ cfg.useSse = true ∧ (cfg.bld.sse = true ∨ (cfg.bld.neon = true ∧ cfg.filter = .fir))) ∧
      ∃ i, r.implX2 = some i ∧ (b = true ↔ i.isVector) := by
  have hs := h.sseEnabled hv h2
  refine ⟨_, hs, ?_, ?_⟩
  · unfold Config.stageSse Config.vec Config.iirSse
    cases cfg.filter <;> cases cfg.bld.sse <;> cases cfg.bld.neon <;> cases cfg.useSse <;> simp
  · unfold Resampler.sseEnabled at hs
    cases hi : r.implX2 with
    | none => rw [hi] at hs; cases hs
    | some i =>
      refine ⟨i, rfl, ?_⟩
      rw [hi] at hs
      have : i.sseEnabled = cfg.stageSse := by
        simpa [deref] using hs
      rw [← this]
      cases i <;> simp [Impl.sseEnabled, Impl.isVector]

example : (cfg .up 2 16 true .iir).Valid ∧ (cfg .up 2 16 true .iir).useSse = true ∧ (cfg .up 2 16 true .iir).bld.sse = true :=
  ⟨⟨by decide, by decide, by decide⟩, rfl, rfl⟩

/-- On a NEON build without SSE, `sse_available()` is true and vector code was requested, and still an IIR resampler
runs (and reports) scalar code. -/
theorem C36_neon_iir_is_scalar (cfg : Config) (hv : cfg.Valid) (h2 : 2 ≤ cfg.ratio) (hf : cfg.filter = .iir)
    (hn : cfg.bld.neon = true) (hs : cfg.bld.sse = false) (r : Resampler F) (h : cfg.Reachable r) :
    sseAvailable cfg.bld = true ∧ r.sseEnabled = .ok false := by
  refine ⟨by simp [sseAvailable, hn], ?_⟩
  rw [h.sseEnabled hv h2]
  simp [Config.stageSse, hf, Config.iirSse, hs]

example : ({ cfg .up 2 16 true .iir with bld := { sse := false, neon := true, ndebug := true } } : Config).Valid :=
  ⟨by decide, by decide, by decide⟩

end Panda
