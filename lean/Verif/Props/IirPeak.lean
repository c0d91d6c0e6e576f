import Verif.Props.Gain
import Verif.Props.Rounding
import Verif.Proofs.IirRoundStage

/-!
# Peak gain and rounding errors of the IIR resamplers (C67, C68, C69)
-/

set_option linter.unusedSectionVars false

namespace Panda

open Examples

/-- Peak gains of the IIR resamplers in thousandths, by mode, ratio and precision. -/
def peakMilli : Mode → ℕ → ℕ → ℕ
  | .up, 2, 8 => 2669
  | .up, 2, 12 => 3082
  | .up, 2, 16 => 3351
  | .up, 2, 20 => 3693
  | .up, 2, 24 => 3729
  | .up, 4, 8 => 5679
  | .up, 4, 12 => 7393
  | .up, 4, 16 => 8040
  | .up, 4, 20 => 9496
  | .up, 4, 24 => 9908
  | .up, 8, 8 => 9565
  | .up, 8, 12 => 15324
  | .up, 8, 16 => 16664
  | .up, 8, 20 => 22286
  | .up, 8, 24 => 23251
  | .down, 2, 8 => 2279
  | .down, 2, 12 => 2773
  | .down, 2, 16 => 2967
  | .down, 2, 20 => 3361
  | .down, 2, 24 => 3485
  | .down, 4, 8 => 3851
  | .down, 4, 12 => 5449
  | .down, 4, 16 => 5829
  | .down, 4, 20 => 7358
  | .down, 4, 24 => 8216
  | .down, 8, 8 => 5168
  | .down, 8, 12 => 8971
  | .down, 8, 16 => 9597
  | .down, 8, 20 => 14076
  | .down, 8, 24 => 15717
  | _, _, _ => 1000

/-- Bounds for the rounding errors of IIR resamplers in `10^-9` of the largest input sample, by mode, ratio and precision. -/
def iirRndNano : Mode → ℕ → ℕ → ℕ
  | .up, 2, 8 => 4537
  | .up, 2, 12 => 10806
  | .up, 2, 16 => 15029
  | .up, 2, 20 => 24809
  | .up, 2, 24 => 30378
  | .up, 4, 8 => 12596
  | .up, 4, 12 => 32442
  | .up, 4, 16 => 43141
  | .up, 4, 20 => 75728
  | .up, 4, 24 => 98327
  | .up, 8, 8 => 23618
  | .up, 8, 12 => 74462
  | .up, 8, 16 => 97272
  | .up, 8, 20 => 195598
  | .up, 8, 24 => 249410
  | .down, 2, 8 => 2870
  | .down, 2, 12 => 6915
  | .down, 2, 16 => 9739
  | .down, 2, 20 => 16608
  | .down, 2, 24 => 20600
  | .down, 4, 8 => 6729
  | .down, 4, 12 => 17582
  | .down, 4, 16 => 23409
  | .down, 4, 20 => 43757
  | .down, 4, 24 => 59542
  | .down, 8, 8 => 10462
  | .down, 8, 12 => 33038
  | .down, 8, 16 => 42918
  | .down, 8, 20 => 93283
  | .down, 8, 24 => 124596
  | _, _, _ => 0

private theorem numbers : ∀ m ∈ [Mode.up, Mode.down], ∀ r ∈ [1, 2, 4, 8], ∀ p ∈ [8, 12, 16, 20, 24],
    ((((cfg m r p true .iir).rates.map fun k => iirGain m (iirG k p)).prod : ℚ) ≤ (peakMilli m r p : ℚ) / 1000 ∧
    ((cfg m r p true .iir).rates.foldl (iirStep m p) (1, 0)).1 ≤ (peakMilli m r p : ℚ) / 1000 ∧
    ((cfg m r p true .iir).rates.foldl (iirStep m p) (1, 0)).2 ≤ (iirRndNano m r p : ℚ) / 10 ^ 9) ∧
    iirFits m p (cfg m r p true .iir).rates (1, 0) = true := by decide +kernel

private theorem prec {cfg : Config} (hv : cfg.Valid) (hf : cfg.filter = .iir) : cfg.precision ∈ [8, 12, 16, 20, 24] := by
  have h1 := hv.precision
  have h2 := hv.iir hf
  simp at h1 ⊢
  omega

section exact

variable {K : Type} [Field K] [LinearOrder K] [IsStrictOrderedRing K] [Sample K] [Accurate K]

/-- Peak gain, for a signal. -/
theorem Config.op_peak (cfg : Config) (hv : cfg.Valid) (hf : cfg.filter = .iir) {x : ℕ → K} {M : K} (hM0 : 0 ≤ M) (hx : ∀ n, |x n| ≤ M) (n : ℕ) :
    |cfg.op x n| ≤ (peakMilli cfg.mode cfg.ratio cfg.precision : K) / 1000 * M := by
  have hp := prec hv hf
  have hb := iir_cascade_peak (m := cfg.mode) (sse := cfg.iirSse) hp cfg.rates (fun k hk => (Config.mem_rates hk).1) hM0 hx n
  rw [Config.op, Config.stages_eq_iirTabs hv hf]
  refine hb.trans (mul_le_mul_of_nonneg_right ?_ hM0)
  have := (numbers cfg.mode (by cases cfg.mode <;> simp) cfg.ratio hv.ratio cfg.precision hp).1.1
  have h2 : (((cfg.rates.map fun k => iirGain cfg.mode (iirG k cfg.precision)).prod : ℚ) : K) ≤
      (((peakMilli cfg.mode cfg.ratio cfg.precision : ℚ) / 1000 : ℚ) : K) := by exact_mod_cast this
  refine h2.trans (le_of_eq ?_)
  push_cast
  rfl

/-- **C67** Exact arithmetic: no output sample of an IIR resampler exceeds the largest input sample by more than the factor
tabulated in `peakMilli`. -/
theorem C67_peak_gain (cfg : Config) (hv : cfg.Valid) (hf : cfg.filter = .iir)
    (ops : List (Op K)) (hc : ∀ op ∈ ops, cfg.OpOk op) (r : Resampler K) (os : List (Option (Buf K)))
    (h : cfg.session ops = .ok (r, os)) (M : K) (hM : ∀ x ∈ fed ops, |x| ≤ M) :
    ∀ y ∈ cfg.produced ops os, |y| ≤ (peakMilli cfg.mode cfg.ratio cfg.precision : K) / 1000 * M := by
  intro y hy
  obtain ⟨n, hn, rfl⟩ := List.mem_iff_getElem.1 hy
  obtain ⟨hl, ho⟩ := Config.session_op hv hc h
  have e := ho n hn
  have hne : fed ops ≠ [] := by
    intro h0
    rw [hl, h0] at hn
    unfold Config.outLen at hn
    cases hm : cfg.mode <;> simp [hm] at hn
  have hM0 : 0 ≤ M := by
    obtain ⟨a, ha⟩ := List.exists_mem_of_ne_nil _ hne
    exact (abs_nonneg _).trans (hM a ha)
  have hb := cfg.op_peak hv hf hM0 (x := seq (fed ops)) (by
      intro i
      by_cases hi : i < (fed ops).length
      · rw [seq_lt hi]
        exact hM _ (List.getElem_mem hi)
      · rw [seq_ge (by omega)]
        simpa using hM0) n
  rwa [← e, seq_lt hn] at hb

end exact

/-- C67 for a real session: 24 bits, ratio 8, 100 samples `1, 2, ..., 100`, with SSE. -/
example : ∃ q, (cfg .up 8 24 true .iir).session [Op.process (call 100 800)] = .ok q ∧
    ∀ y ∈ (cfg .up 8 24 true .iir).produced [Op.process (call 100 800)] q.2, |y| ≤ 23251 / 1000 * 100 := by
  have hc : ∀ op ∈ [Op.process (call 100 800)], (cfg .up 8 24 true .iir).OpOk op := by
    intro op hop
    simp only [List.mem_cons, List.not_mem_nil, or_false] at hop
    subst hop
    exact ⟨by decide, by decide, by decide, by decide, by decide, by decide, by decide⟩
  have hv : (cfg .up 8 24 true .iir).Valid := ⟨by decide, by decide, by decide⟩
  obtain ⟨r, os, h, -⟩ := C04_output_frame _ hv _ hc
  have := accurate_rat
  exact ⟨_, h, C67_peak_gain (K := Rat) _ hv rfl _ hc r os h 100 (by decide +kernel)⟩

/-! ## binary32 -/

private theorem coefs32 : ∀ k ∈ [2, 4, 8], ∀ p ∈ [8, 12, 16, 20, 24], ∀ d ∈ iirDecs k p,
    |rnd32 d.toRat - d.toRat| ≤ u32r * d.toRat ∧ binary32.fits (rnd32 d.toRat) = true := by decide +kernel

/-- Rounding errors and peak values, for any arithmetic that satisfies `IirArith`. -/
theorem Config.iir_round (cfg : Config) (hv : cfg.Valid) (hf : cfg.filter = .iir)
    (hsse : cfg.iirSse = true → ∀ k ∈ [2, 4, 8], k ≤ cfg.ratio → ∀ t, iirTable k cfg.precision = some t → t.1.length % 2 = 0)
    {T : Type} [Zero T] [One T] [Add T] [Sub T] [Mul T] [Sample T] {V : T → ℚ → Prop} {η Ω : ℚ} (hS : IirArith binary32 V η Ω)
    {M : ℚ} (hM0 : 0 ≤ M) (hη : η ≤ τ32 * M) (hΩ : 2 ^ 25 * M ≤ Ω) {is zs : List T} (hrel : CascadeRel cfg.stages is zs)
    {xs : List ℚ} (hxv : Vals V is xs) (hx : ∀ n, |seq xs n| ≤ M) :
    ∃ zq : List ℚ, Vals V zs zq ∧ ∀ n < zq.length, |seq zq n| ≤ (peakMilli cfg.mode cfg.ratio cfg.precision : ℚ) / 1000 * M ∧
      |seq zq n - cfg.op (seq xs) n| ≤ (iirRndNano cfg.mode cfg.ratio cfg.precision : ℚ) / 10 ^ 9 * M := by
  have hp := prec hv hf
  obtain ⟨⟨-, n1, n2⟩, n3⟩ := numbers cfg.mode (by cases cfg.mode <;> simp) cfg.ratio hv.ratio cfg.precision hp
  have er : cfg.rates = (Examples.cfg cfg.mode cfg.ratio cfg.precision true .iir).rates := rfl
  rw [← er] at n1 n2 n3
  rw [Config.stages_eq_iirTabs hv hf] at hrel
  obtain ⟨zq, hz, z1, z2⟩ := iir_cascade_round hS hp hM0 hη hΩ
    cfg.rates (fun k hk => (Config.mem_rates hk).1)
    (fun k hk d hd => coefs32 k (Config.mem_rates hk).1 cfg.precision hp d hd)
    (by
      intro hs k hk
      obtain ⟨h1, h2⟩ := Config.mem_rates hk
      obtain ⟨t, ht⟩ := Option.isSome_iff_exists.1 ((tables_exist h1 hv.precision).2 (hv.iir hf))
      have := hsse hs k h1 h2 t ht
      unfold iirDecs
      rw [ht]
      exact this)
    (1, 0) n3 hxv hrel (by simpa using hx) (r := seq xs) (by simp)
  refine ⟨zq, hz, fun n hn => ⟨(z1 n).trans (mul_le_mul_of_nonneg_right n1 hM0), ?_⟩⟩
  rw [Config.op, Config.stages_eq_iirTabs hv hf]
  exact (z2 n hn).trans (mul_le_mul_of_nonneg_right n2 hM0)

/-- Finite samples and their values. -/
theorem vals_of_fin {S : Format} {vs : List (Fl S)} {M : ℚ} (hM : 0 ≤ M) (hx : ∀ v ∈ vs, ∃ q, v = Fl.fin q ∧ |q| ≤ M) :
    ∃ xs : List ℚ, Vals (fun (v : Fl S) q => v = Fl.fin q) vs xs ∧ (∀ n, |seq xs n| ≤ M) ∧ seq xs = fun i => (seq vs i).val := by
  obtain ⟨xs, hxs⟩ := exists_fin_list vs fun n hn => by
    obtain ⟨q, h1, -⟩ := hx vs[n] (List.getElem_mem hn)
    exact ⟨q, by rw [← h1]; simp [seq, List.getD_eq_getElem?_getD, hn]⟩
  refine ⟨xs, vals_fin.2 hxs, fun n => ?_, funext fun n => ?_⟩
  · rcases Nat.lt_or_ge n xs.length with h1 | h1
    · obtain ⟨q, h2, h3⟩ := hx (Fl.fin (seq xs n)) (by
        rw [hxs]
        refine List.mem_map.2 ⟨_, ?_, rfl⟩
        rw [seq_lt h1]
        exact List.getElem_mem h1)
      rw [Option.some.inj h2]
      exact h3
    · rw [seq_ge h1, abs_zero]
      exact hM
  · rw [hxs, seq_fin]
    simp [Fl.val, Fl.fin]

private theorem main32 (cfg : Config) (hv : cfg.Valid) (hf : cfg.filter = .iir)
    (hsse : cfg.iirSse = true → ∀ k ∈ [2, 4, 8], k ≤ cfg.ratio → ∀ t, iirTable k cfg.precision = some t → t.1.length % 2 = 0)
    (ops : List (Op F32)) (hc : ∀ op ∈ ops, cfg.OpOk op) (r : Resampler F32) (os : List (Option (Buf F32)))
    (h : cfg.session ops = .ok (r, os)) (M : ℚ) (hM0 : 2⁻¹ ^ 100 ≤ M) (hM : M ≤ 2 ^ 100) (hx : ∀ v ∈ fed ops, ∃ q, v = Fl.fin q ∧ |q| ≤ M) :
    ∀ n < (cfg.produced ops os).length, ∃ y, seq (cfg.produced ops os) n = Fl.fin y ∧
      |y| ≤ (peakMilli cfg.mode cfg.ratio cfg.precision : ℚ) / 1000 * M ∧
      |y - cfg.op (fun i => (seq (fed ops) i).val) n| ≤ (iirRndNano cfg.mode cfg.ratio cfg.precision : ℚ) / 10 ^ 9 * M := by
  intro n hn
  have hM0' : 0 ≤ M := le_trans (by positivity) hM0
  obtain ⟨xs, x1, x2, x3⟩ := vals_of_fin hM0' hx
  obtain ⟨zq, hz, z1⟩ := cfg.iir_round hv hf hsse (Fl.iirArith (binary32_acc (Ω := 2 ^ 127) (by norm_num))) hM0'
    (by
      refine le_trans ?_ (mul_le_mul_of_nonneg_left hM0 (by positivity))
      rw [show τ32 * 2⁻¹ ^ 100 = 2⁻¹ ^ 150 by rw [← pow_add]])
    (by
      refine le_trans (mul_le_mul_of_nonneg_left hM (by positivity)) ?_
      norm_num) (Config.session_rel' hv hc h) x1 x2
  rw [← x3]
  exact ⟨_, hz.2 n, z1 n (hz.1 ▸ hn)⟩

/-- **C68** binary32: however long the session is, every output sample of an IIR resampler is within `iirRndNano * 10^-9 * M`
of what exact arithmetic with the exact coefficients gives, if the input samples are at most `M` (`2^-100 ≤ M ≤ 2^100`);
rounding errors do not build up. Missing: SSE with a stage that has an odd number of coefficients. There the code adds a section
with coefficient 1, which does not damp rounding errors, and the claim is false (`C68_false_sse_drift`, ratio 2 with 8, 12 and 24 bits). -/
theorem C68_rounding_partial (cfg : Config) (hv : cfg.Valid) (hf : cfg.filter = .iir)
    (hsse : cfg.iirSse = true → ∀ k ∈ [2, 4, 8], k ≤ cfg.ratio → ∀ t, iirTable k cfg.precision = some t → t.1.length % 2 = 0)
    (ops : List (Op F32)) (hc : ∀ op ∈ ops, cfg.OpOk op) (r : Resampler F32) (os : List (Option (Buf F32)))
    (h : cfg.session ops = .ok (r, os)) (M : ℚ) (hM0 : 2⁻¹ ^ 100 ≤ M) (hM : M ≤ 2 ^ 100) (hx : ∀ v ∈ fed ops, ∃ q, v = Fl.fin q ∧ |q| ≤ M) :
    ∀ n < (cfg.produced ops os).length, ∃ y, seq (cfg.produced ops os) n = Fl.fin y ∧
      |y - cfg.op (fun i => (seq (fed ops) i).val) n| ≤ (iirRndNano cfg.mode cfg.ratio cfg.precision : ℚ) / 10 ^ 9 * M := by
  intro n hn
  obtain ⟨y, h1, -, h2⟩ := main32 cfg hv hf hsse ops hc r os h M hM0 hM hx n hn
  exact ⟨y, h1, h2⟩

/-- **C69** binary32: no overflow in IIR resamplers; the outputs are bounded by the same factor as in exact arithmetic (C67).
Missing: the bound for SSE with a stage that has an odd number of coefficients (`C69_linear_partial` has a weaker bound, this one is
false downsampling by 2 with 8, 12 or 24 bits: `C69_false_sse_down`; that the outputs are finite is `C69_finite`). -/
theorem C69_no_overflow_partial (cfg : Config) (hv : cfg.Valid) (hf : cfg.filter = .iir)
    (hsse : cfg.iirSse = true → ∀ k ∈ [2, 4, 8], k ≤ cfg.ratio → ∀ t, iirTable k cfg.precision = some t → t.1.length % 2 = 0)
    (ops : List (Op F32)) (hc : ∀ op ∈ ops, cfg.OpOk op) (r : Resampler F32) (os : List (Option (Buf F32)))
    (h : cfg.session ops = .ok (r, os)) (M : ℚ) (hM0 : 2⁻¹ ^ 100 ≤ M) (hM : M ≤ 2 ^ 100) (hx : ∀ v ∈ fed ops, ∃ q, v = Fl.fin q ∧ |q| ≤ M) :
    ∀ v ∈ cfg.produced ops os, ∃ y, v = Fl.fin y ∧ |y| ≤ (peakMilli cfg.mode cfg.ratio cfg.precision : ℚ) / 1000 * M := by
  intro v hvm
  obtain ⟨n, hn, rfl⟩ := List.mem_iff_getElem.1 hvm
  obtain ⟨y, h1, h2, -⟩ := main32 cfg hv hf hsse ops hc r os h M hM0 hM hx n hn
  exact ⟨y, by rw [← h1]; simp [seq, List.getD_eq_getElem?_getD, hn], h2⟩

/-- `rampCall32 100 800` with two more samples in the input buffer, as SSE downsampling needs (`Config.CallOk.behind`). -/
def slackCall32 : Call F32 :=
  { rampCall32 100 800 with input := { addr := 4, len := 102, get := fun i => Fl.fin (i + 1) } }

/-- C68 and C69 for real sessions: samples `1, 2, ..., 100`; 24 bits, ratio 8, without SSE, and 20 bits, ratio 4, with SSE. -/
example : (∃ q, (cfg .up 8 24 false .iir).session [Op.process (rampCall32 100 800)] = .ok q ∧
    ∀ n < ((cfg .up 8 24 false .iir).produced [Op.process (rampCall32 100 800)] q.2).length, ∃ y,
      seq ((cfg .up 8 24 false .iir).produced [Op.process (rampCall32 100 800)] q.2) n = Fl.fin y ∧
      |y - (cfg .up 8 24 false .iir).op (fun i => (seq (fed [Op.process (rampCall32 100 800)]) i).val) n| ≤ 25 / 1000) ∧
    (∃ q, (cfg .down 4 20 true .iir).session [Op.process slackCall32] = .ok q ∧
      ∀ v ∈ (cfg .down 4 20 true .iir).produced [Op.process slackCall32] q.2, ∃ y, v = Fl.fin y ∧ |y| ≤ 736) := by
  have hx : ∀ v ∈ fed [Op.process (rampCall32 100 800)], ∃ q, v = Fl.fin q ∧ |q| ≤ 100 := by
    intro v hv
    obtain ⟨i, hi, rfl⟩ := List.mem_map.1 (show v ∈ (List.range 100).map (fun i : ℕ => (Fl.fin ((i : ℚ) + 1) : F32)) from hv)
    refine ⟨_, rfl, ?_⟩
    rw [abs_of_nonneg (by positivity)]
    have : i + 1 ≤ 100 := List.mem_range.1 hi
    exact_mod_cast this
  have hx2 : ∀ v ∈ fed [Op.process slackCall32], ∃ q, v = Fl.fin q ∧ |q| ≤ 100 := hx
  have hc1 : ∀ op ∈ [Op.process (rampCall32 100 800)], (cfg .up 8 24 false .iir).OpOk op := by
    intro op hop
    simp only [List.mem_cons, List.not_mem_nil, or_false] at hop
    subst hop
    exact ⟨by decide, by decide, by decide, by decide, by decide, by decide, by decide⟩
  have hc2 : ∀ op ∈ [Op.process slackCall32], (cfg .down 4 20 true .iir).OpOk op := by
    intro op hop
    simp only [List.mem_cons, List.not_mem_nil, or_false] at hop
    subst hop
    exact ⟨by decide, by decide, by decide, by decide, by decide, by decide, by decide⟩
  have hv1 : (cfg .up 8 24 false .iir).Valid := ⟨by decide, by decide, by decide⟩
  have hv2 : (cfg .down 4 20 true .iir).Valid := ⟨by decide, by decide, by decide⟩
  obtain ⟨r1, os1, h1, -⟩ := C04_output_frame _ hv1 _ hc1
  obtain ⟨r2, os2, h2, -⟩ := C04_output_frame _ hv2 _ hc2
  refine ⟨⟨_, h1, fun n hn => ?_⟩, ⟨_, h2, fun v hvm => ?_⟩⟩
  · obtain ⟨y, h3, h4⟩ := C68_rounding_partial _ hv1 rfl (by intro h; exact absurd h (by decide)) _ hc1 r1 os1 h1 100 (by norm_num) (by norm_num) hx n hn
    refine ⟨y, h3, h4.trans ?_⟩
    norm_num [iirRndNano, cfg]
  · obtain ⟨y, h3, h4⟩ := C69_no_overflow_partial _ hv2 rfl (fun _ k hk hr t ht => by
      have : ∀ k ∈ [2, 4, 8], k ≤ 4 → ∀ t ∈ iirTable k 20, t.1.length % 2 = 0 := by decide +kernel
      exact this k hk hr t ht) _ hc2 r2 os2 h2 100 (by norm_num) (by norm_num) hx2 v hvm
    refine ⟨y, h3, h4.trans ?_⟩
    norm_num [peakMilli, cfg]

end Panda
