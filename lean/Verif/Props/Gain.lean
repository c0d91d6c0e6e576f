import Verif.Props.Exact
import Verif.Proofs.Gain

/-!
# Gain, DC gain and affine signals (C21, C41, C13)

`K` is an ordered field. For C21 and C41 the constants are accurate to `2^-24` (class `Accurate`): exact constants and
constants rounded to `float` qualify. C13 holds for any conversion of the coefficients.
-/

set_option linter.unusedSectionVars false

namespace Panda

open Examples Finset

/-- Exact constants are accurate. -/
theorem accurate_rat : Accurate Rat :=
  ⟨rfl, fun q => by
    rw [show (Sample.ofDouble q : Rat) = q from rfl, Rat.cast_id, sub_self, abs_zero]
    positivity⟩

section bounds

variable {K : Type} [Field K] [LinearOrder K] [IsStrictOrderedRing K] [Sample K] [Accurate K]

/-- Gain bounds in thousandths, by mode, ratio and precision. -/
def gainMilli : Mode → ℕ → ℕ → ℕ
  | .up, 2, 1 => 1001
  | .up, 2, 8 => 2148
  | .up, 2, 12 => 2274
  | .up, 2, 16 => 2356
  | .up, 2, 20 => 2440
  | .up, 2, 24 => 2509
  | .up, 4, 1 => 1001
  | .up, 4, 8 => 3256
  | .up, 4, 12 => 3560
  | .up, 4, 16 => 3826
  | .up, 4, 20 => 4255
  | .up, 4, 24 => 4443
  | .up, 8, 1 => 1001
  | .up, 8, 8 => 4215
  | .up, 8, 12 => 4963
  | .up, 8, 16 => 5682
  | .up, 8, 20 => 6577
  | .up, 8, 24 => 7121
  | .down, 2, 1 => 1001
  | .down, 2, 8 => 1574
  | .down, 2, 12 => 1637
  | .down, 2, 16 => 1678
  | .down, 2, 20 => 1720
  | .down, 2, 24 => 1755
  | .down, 4, 1 => 1001
  | .down, 4, 8 => 1980
  | .down, 4, 12 => 2100
  | .down, 4, 16 => 2202
  | .down, 4, 20 => 2360
  | .down, 4, 24 => 2431
  | .down, 8, 1 => 1001
  | .down, 8, 8 => 2272
  | .down, 8, 12 => 2514
  | .down, 8, 16 => 2736
  | .down, 8, 20 => 3004
  | .down, 8, 24 => 3163
  | _, _, _ => 1000

/-- Bounds for the relative error of constant signals in `10^-9`, by mode, ratio and precision. -/
def dcNano : Mode → ℕ → ℕ → ℕ
  | .up, 2, 1 => 60
  | .up, 2, 8 => 3051168
  | .up, 2, 12 => 292286
  | .up, 2, 16 => 24225
  | .up, 2, 20 => 1340
  | .up, 2, 24 => 216
  | .up, 4, 1 => 120
  | .up, 4, 8 => 8467591
  | .up, 4, 12 => 582792
  | .up, 4, 16 => 44508
  | .up, 4, 20 => 3165
  | .up, 4, 24 => 560
  | .up, 8, 1 => 179
  | .up, 8, 8 => 14662880
  | .up, 8, 12 => 951522
  | .up, 8, 16 => 85209
  | .up, 8, 20 => 5331
  | .up, 8, 24 => 1029
  | .down, 2, 1 => 30
  | .down, 2, 8 => 1525584
  | .down, 2, 12 => 146143
  | .down, 2, 16 => 12113
  | .down, 2, 20 => 670
  | .down, 2, 24 => 108
  | .down, 4, 1 => 60
  | .down, 4, 8 => 4549908
  | .down, 4, 12 => 248511
  | .down, 4, 16 => 16448
  | .down, 4, 20 => 1382
  | .down, 4, 24 => 265
  | .down, 8, 1 => 90
  | .down, 8, 8 => 8214145
  | .down, 8, 12 => 394511
  | .down, 8, 16 => 37478
  | .down, 8, 20 => 1900
  | .down, 8, 24 => 425
  | _, _, _ => 0

private theorem numbers : ∀ m ∈ [Mode.up, Mode.down], ∀ r ∈ [1, 2, 4, 8], ∀ p ∈ [1, 8, 12, 16, 20, 24],
    (cfg m r p true .fir).gain ≤ (gainMilli m r p : ℚ) / 1000 ∧
    (cfg m r p true .fir).dcErr ≤ (dcNano m r p : ℚ) / 10 ^ 9 := by decide +kernel

theorem dcGain_numbers (cfg : Config) (hv : cfg.Valid) :
    cfg.gain ≤ (gainMilli cfg.mode cfg.ratio cfg.precision : ℚ) / 1000 ∧
    cfg.dcErr ≤ (dcNano cfg.mode cfg.ratio cfg.precision : ℚ) / 10 ^ 9 :=
  numbers cfg.mode (by cases cfg.mode <;> simp) cfg.ratio hv.ratio cfg.precision hv.precision

/-- **C21** FIR: no output sample exceeds the largest input sample by more than the factor tabulated in `gainMilli`. -/
theorem C21_gain_bound (cfg : Config) (hv : cfg.Valid) (hf : cfg.filter = .fir)
    (ops : List (Op K)) (hc : ∀ op ∈ ops, cfg.OpOk op) (r : Resampler K) (os : List (Option (Buf K)))
    (h : cfg.session ops = .ok (r, os)) (M : K) (hM : ∀ x ∈ fed ops, |x| ≤ M) :
    ∀ y ∈ cfg.produced ops os, |y| ≤ (gainMilli cfg.mode cfg.ratio cfg.precision : K) / 1000 * M := by
  intro y hy
  obtain ⟨n, hn, rfl⟩ := List.mem_iff_getElem.1 hy
  obtain ⟨hl, ho⟩ := Config.session_op hv hc h
  have e := ho n hn
  have hne : fed ops ≠ [] := by
    intro h0
    rw [hl, h0] at hn
    unfold Config.outLen at hn
    cases hm : cfg.mode <;> simp [hm] at hn
  have hM0 : 0 ≤ M := by
    obtain ⟨a, ha⟩ := List.exists_mem_of_ne_nil _ hne
    exact (abs_nonneg _).trans (hM a ha)
  have hb := Config.op_bound hv hf hM0 (x := seq (fed ops)) (by
    intro i
    by_cases hi : i < (fed ops).length
    · rw [seq_lt hi]
      exact hM _ (List.getElem_mem hi)
    · rw [seq_ge (by omega)]
      simpa using hM0) n
  rw [← e] at hb
  rw [seq_lt hn] at hb
  refine hb.trans (mul_le_mul_of_nonneg_right ?_ hM0)
  have := (dcGain_numbers cfg hv).1
  have h2 : ((cfg.gain : ℚ) : K) ≤ (((gainMilli cfg.mode cfg.ratio cfg.precision : ℚ) / 1000 : ℚ) : K) := by exact_mod_cast this
  refine h2.trans (le_of_eq ?_)
  push_cast
  rfl

/-- **C41** FIR: when the input is the constant `c` from sample `N` on, the output is within `dcNano * 10^-9 * |c|` of
`c` as soon as the filters are filled. -/
theorem C41_dc_gain_fir (cfg : Config) (hv : cfg.Valid) (hf : cfg.filter = .fir)
    (ops : List (Op K)) (hc : ∀ op ∈ ops, cfg.OpOk op) (r : Resampler K) (os : List (Option (Buf K)))
    (h : cfg.session ops = .ok (r, os)) (c : K) (N : ℕ) (hN : ∀ i, N ≤ i → i < (fed ops).length → seq (fed ops) i = c) :
    ∀ n < (cfg.produced ops os).length, (match cfg.mode with | .up => cfg.ratio * (N + 63) | .down => N / cfg.ratio + 65) ≤ n →
      |seq (cfg.produced ops os) n - c| ≤ (dcNano cfg.mode cfg.ratio cfg.precision : K) / 10 ^ 9 * |c| := by
  intro n hn hset
  have e := Config.session_op_of hv hc h (x := fun i => if i < (fed ops).length then seq (fed ops) i else c)
    (fun i hi => if_pos hi) n hn
  rw [e]
  have hb := Config.op_nearConst hv hf (x := fun i => if i < (fed ops).length then seq (fed ops) i else c) (c := c) (N := N) (by
    intro i hi
    split
    · exact hN i hi (by assumption)
    · rfl) n ((Config.settle_le hv hf N).trans hset)
  refine hb.trans (mul_le_mul_of_nonneg_right ?_ (abs_nonneg _))
  have := (dcGain_numbers cfg hv).2
  have h2 : ((cfg.dcErr : ℚ) : K) ≤ (((dcNano cfg.mode cfg.ratio cfg.precision : ℚ) / 10 ^ 9 : ℚ) : K) := by exact_mod_cast this
  refine h2.trans (le_of_eq ?_)
  push_cast
  rfl

end bounds

/-- C21 and C41 for a real session: 24 bits, ratio 8, 100 samples `1, 2, ..., 100`; and an input that is constant. -/
example : (∀ q, (cfg .up 8 24 true .fir).session [Op.process (call 100 800)] = .ok q →
      ∀ y ∈ (cfg .up 8 24 true .fir).produced [Op.process (call 100 800)] q.2, |y| ≤ 7121 / 1000 * 100) ∧
    (∃ q, (cfg .up 8 24 true .fir).session [Op.process (call 100 800)] = .ok q) := by
  have hc : ∀ op ∈ [Op.process (call 100 800)], (cfg .up 8 24 true .fir).OpOk op := by
    intro op hop
    simp only [List.mem_cons, List.not_mem_nil, or_false] at hop
    subst hop
    exact ⟨by decide, by decide, by decide, by decide, by decide, by decide, by decide⟩
  refine ⟨fun q hq => ?_, ?_⟩
  · have := accurate_rat
    exact C21_gain_bound (K := Rat) (cfg .up 8 24 true .fir) ⟨by decide, by decide, by decide⟩ rfl _ hc q.1 q.2 hq 100 (by
      decide +kernel)
  · obtain ⟨r, os, h, -⟩ := C04_output_frame (cfg .up 8 24 true .fir) ⟨by decide, by decide, by decide⟩ _ hc
    exact ⟨_, h⟩

/-- A call with the constant 3 as input. -/
def flatCall (n m : ℕ) : Call Rat := { st := someStack, input := { addr := 4, len := n, get := fun _ => 3 }, n := n, output := outBuf m }

example : ∃ q, (cfg .down 2 16 false .fir).session [Op.process (flatCall 200 100)] = .ok q ∧
    |seq ((cfg .down 2 16 false .fir).produced [Op.process (flatCall 200 100)] q.2) 99 - 3| ≤ 12113 / 10 ^ 9 * 3 := by
  have hc : ∀ op ∈ [Op.process (flatCall 200 100)], (cfg .down 2 16 false .fir).OpOk op := by
    intro op hop
    simp only [List.mem_cons, List.not_mem_nil, or_false] at hop
    subst hop
    exact ⟨by decide, by decide, by decide, by decide, by decide, by decide, by decide⟩
  obtain ⟨r, os, h, -⟩ := C04_output_frame (cfg .down 2 16 false .fir) ⟨by decide, by decide, by decide⟩ _ hc
  have := accurate_rat
  have hv : (cfg .down 2 16 false .fir).Valid := ⟨by decide, by decide, by decide⟩
  have hl : _ = 100 := (Config.session_op hv hc h).1.trans (by decide +kernel)
  refine ⟨_, h, ?_⟩
  have := C41_dc_gain_fir (K := Rat) (cfg .down 2 16 false .fir) hv rfl _ hc r os h 3 0 (by
    intro i _ hi
    have hf : ∀ i ∈ List.range 200, seq (fed [Op.process (flatCall 200 100)]) i = 3 := by decide +kernel
    exact hf i (List.mem_range.2 (hi.trans_eq (by decide +kernel)))) 99 (by rw [hl]; decide) (by decide)
  simpa [dcNano, cfg] using this

/-! ## C13 -/

section affine

variable {K : Type} [Field K] [CharZero K] [Sample K]

/-- DC gain of a FIR downsampler: per stage, the sum of all taps (the middle one is `0.5f`). -/
def Config.downGain (cfg : Config) : K := (cfg.tables.map fun t => (t.map fun d => (Sample.ofDouble (d.toRat * 1) : K)).sum +
  Sample.half).prod

/-- **C13** FIR downsampling: an affine signal comes out delayed by exactly `delay()` output samples and multiplied by the
DC gain, from output sample `N / ratio + 65` on. -/
theorem C13_affine_down (cfg : Config) (hv : cfg.Valid) (hf : cfg.filter = .fir) (hm : cfg.mode = .down)
    (ops : List (Op K)) (hc : ∀ op ∈ ops, cfg.OpOk op) (r : Resampler K) (os : List (Option (Buf K)))
    (h : cfg.session ops = .ok (r, os)) (a b : K) (N : ℕ)
    (hN : ∀ i, N ≤ i → i < (fed ops).length → seq (fed ops) i = a + b * i) :
    ∃ d : ℚ, r.delay = .ok d ∧
      ∀ m < (cfg.produced ops os).length, N / cfg.ratio + 65 ≤ m →
        seq (cfg.produced ops os) m = cfg.downGain * (a + b * ((cfg.ratio : K) * ((m : K) - (d : K)))) := by
  refine ⟨cfg.totalDelay, Config.Reachable.delay hv ⟨ops, os, hc, h⟩, fun m hlt hset => ?_⟩
  have hs := Config.settle_le (K := K) hv hf N
  simp only [hm] at hs
  have e := Config.session_op_of hv hc h (x := fun i => if i < (fed ops).length then seq (fed ops) i else a + b * i)
    (fun i hi => if_pos hi) m hlt
  rw [e]
  have key := cascadeOp_affine (Config.stages_sym hv hf hm)
    (x := fun i => if i < (fed ops).length then seq (fed ops) i else a + b * i) (c := a) (b := b) (d := 0) (N := N) (by
    intro i hi
    rw [sub_zero]
    split
    · exact hN i hi (by assumption)
    · rfl) m (hs.trans hset)
  have hg : ((cfg.stages (F := K)).map Stage.downGain).prod = cfg.downGain := by
    unfold Config.downGain
    rw [Config.stages_eq_tables hv hf, List.map_map]
    congr 2
    funext t
    simp only [Function.comp, firStage, hm, Stage.downGain]
    congr 1
    have := sum_seq (t.map fun d => (Sample.ofDouble (d.toRat * 1) : K)) id
    simpa using this
  have hd : downDelay (cfg.stages (F := K)) 0 = ((cfg.totalDelay : ℚ) : K) := by
    obtain ⟨s2, s4, s8, h2, h4, h8, h⟩ := Config.stages_cases (F := K) hv
    have lens : ∀ k ∈ [2, 4, 8], (((firTable k cfg.precision).getD []).length : K) / 2 - 1 / 2 =
        ((((((firTable k cfg.precision).getD []).length / 2 : ℕ) : ℚ) - 1 / 2 : ℚ) : K) := by
      intro k hk
      obtain ⟨t, ht⟩ := Option.isSome_iff_exists.1 (tables_exist hk hv.precision).1
      rw [ht, Option.getD_some]
      obtain ⟨q, hq⟩ : 2 ∣ t.length := Nat.dvd_of_mod_eq_zero (firTable_length ht).2.2
      rw [hq, Nat.mul_div_cancel_left _ (by norm_num)]
      push_cast
      ring
    have n2 := (Config.stage_ntaps hv hf (by simp) h2).1
    have n4 := (Config.stage_ntaps hv hf (by simp) h4).1
    have n8 := (Config.stage_ntaps hv hf (by simp) h8).1
    have l2 := lens 2 (by simp)
    have l4 := lens 4 (by simp)
    have l8 := lens 8 (by simp)
    unfold Config.totalDelay Config.stageDelay
    rcases h with ⟨hr, h⟩ | ⟨hr, h⟩ | ⟨hr, hm', h⟩ | ⟨hr, -, h⟩ | ⟨hr, hm', h⟩ | ⟨hr, -, h⟩
    · rw [h, hr]; simp [downDelay, hm]
    · rw [h, hr]
      simp only [downDelay, hm, hf, n2]
      norm_num at l2 ⊢
      rw [← l2]
      ring
    · simp [hm] at hm'
    · rw [h, hr]
      simp only [downDelay, hm, hf, n2, n4]
      norm_num at l2 l4 ⊢
      rw [← l2, ← l4]
      ring
    · simp [hm] at hm'
    · rw [h, hr]
      simp only [downDelay, hm, hf, n2, n4, n8]
      norm_num at l2 l4 l8 ⊢
      rw [← l2, ← l4, ← l8]
      ring
  have hr : (2 : K) ^ (cfg.stages (F := K)).length = (cfg.ratio : K) := by
    have := Config.stages_length (K := K) hv
    exact_mod_cast this
  unfold Config.op
  rw [key, hg, hd, hr]
  ring

end affine

/-- C13 for a real session: the input is the ramp `1, 2, 3, ...`, ratio 4. -/
example : ∃ q, (cfg .down 4 24 true .fir).session [Op.process (call 400 100)] = .ok q ∧
    ∃ d : ℚ, q.1.delay = .ok d ∧ seq ((cfg .down 4 24 true .fir).produced [Op.process (call 400 100)] q.2) 99 =
      (cfg .down 4 24 true .fir).downGain * (1 + 1 * (4 * (99 - d))) := by
  have hc : ∀ op ∈ [Op.process (call 400 100)], (cfg .down 4 24 true .fir).OpOk op := by
    intro op hop
    simp only [List.mem_cons, List.not_mem_nil, or_false] at hop
    subst hop
    exact ⟨by decide +kernel, by decide +kernel, by decide +kernel, by decide +kernel, by decide +kernel, by decide +kernel, by decide +kernel⟩
  obtain ⟨r, os, h, -⟩ := C04_output_frame (cfg .down 4 24 true .fir) ⟨by decide, by decide, by decide⟩ _ hc
  have hv : (cfg .down 4 24 true .fir).Valid := ⟨by decide, by decide, by decide⟩
  have hl : _ = 100 := (Config.session_op hv hc h).1.trans (by decide +kernel)
  obtain ⟨d, hd, hy⟩ := C13_affine_down (K := Rat) (cfg .down 4 24 true .fir) hv rfl rfl _ hc r os h 1 1 0 (by
    intro i _ hi
    have hf : ∀ i ∈ List.range 400, seq (fed [Op.process (call 400 100)]) i = 1 + 1 * (i : Rat) := by decide +kernel
    exact hf i (List.mem_range.2 (hi.trans_eq (by decide +kernel))))
  refine ⟨_, h, d, hd, ?_⟩
  have := hy 99 (by rw [hl]; decide) (by decide)
  simpa [show (cfg .down 4 24 true .fir).ratio = 4 from rfl] using this

end Panda
