import Verif.Props.SseDrift
import Verif.Proofs.IirDrift

/-!
# Rounding errors of SSE filters with an odd number of coefficients grow at most linearly (C68, C69)
-/

namespace Panda

open Examples

/-- Growth of the rounding errors of an IIR resampler with SSE in `10^-9` of the largest input sample per sample, by mode, ratio and
precision; 0 if all stages have an even number of coefficients. -/
def iirDriftNano : Mode → ℕ → ℕ → ℕ
  | .up, 2, 8 => 1014
  | .up, 2, 12 => 1323
  | .up, 2, 24 => 1739
  | .up, 4, 8 => 2157
  | .up, 4, 12 => 6840
  | .up, 4, 16 => 2751
  | .up, 4, 24 => 10749
  | .up, 8, 8 => 7893
  | .up, 8, 12 => 14178
  | .up, 8, 16 => 5703
  | .up, 8, 20 => 7535
  | .up, 8, 24 => 42030
  | .down, 2, 8 => 507
  | .down, 2, 12 => 662
  | .down, 2, 24 => 870
  | .down, 4, 8 => 857
  | .down, 4, 12 => 2722
  | .down, 4, 16 => 1218
  | .down, 4, 24 => 4477
  | .down, 8, 8 => 2423
  | .down, 8, 12 => 4482
  | .down, 8, 16 => 2005
  | .down, 8, 20 => 2920
  | .down, 8, 24 => 13685
  | _, _, _ => 0

private abbrev cascade (m : Mode) (r p : ℕ) (sse : Bool) (ρ : ℚ) : ℚ × ℚ := (cfg m r p true .iir).rates.foldl (linStep m sse p ρ) (1, 0)

private theorem numbers : ∀ m ∈ [Mode.up, Mode.down], ∀ r ∈ [1, 2, 4, 8], ∀ p ∈ [8, 12, 16, 20, 24], ∀ sse : Bool,
    ((cascade m r p sse 0).1 ≤ (peakMilli m r p : ℚ) / 1000 ∧
      (cascade m r p sse (9 / 16)).1 - (cascade m r p sse 0).1 ≤ 2 ^ 20 * ((iirDriftNano m r p : ℚ) / 10 ^ 9)) ∧
    ((cascade m r p sse 0).2 ≤ (iirRndNano m r p : ℚ) / 10 ^ 9 ∧
      (cascade m r p sse (9 / 16)).2 - (cascade m r p sse 0).2 ≤ 2 ^ 20 * ((iirDriftNano m r p : ℚ) / 10 ^ 9)) ∧
    linFits m sse p (9 / 16) (cfg m r p true .iir).rates (1, 0) = true := by decide +kernel

private theorem coefsAll : ∀ k ∈ [2, 4, 8], ∀ p ∈ [8, 12, 16, 20, 24], ∀ d ∈ iirDecs k p,
    |rnd32 d.toRat - d.toRat| ≤ u32r * d.toRat ∧ binary32.fits (rnd32 d.toRat) = true := by decide +kernel

/-- Linear growth, for any arithmetic that satisfies `IirArith`. -/
theorem Config.iir_drift (cfg : Config) (hv : cfg.Valid) (hf : cfg.filter = .iir)
    {T : Type} [Zero T] [One T] [Add T] [Sub T] [Mul T] [Sample T] {V : T → ℚ → Prop} {η Ω : ℚ} (hS : IirArith binary32 V η Ω)
    {M : ℚ} (hM0 : 0 ≤ M) (hη : η ≤ τ32 * M) (hΩ : 2 ^ 25 * M ≤ Ω) {is zs : List T} (hrel : CascadeRel cfg.stages is zs)
    (N : ℕ) (hN : N ≤ 2 ^ 20) (hl1 : is.length ≤ N) (hl2 : zs.length ≤ N)
    {xs : List ℚ} (hxv : Vals V is xs) (hx : ∀ n, |seq xs n| ≤ M) :
    ∃ zq : List ℚ, Vals V zs zq ∧ ∀ n < zq.length,
      |seq zq n| ≤ ((peakMilli cfg.mode cfg.ratio cfg.precision : ℚ) / 1000 + N * ((iirDriftNano cfg.mode cfg.ratio cfg.precision : ℚ) / 10 ^ 9)) * M ∧
      |seq zq n - cfg.op (seq xs) n| ≤
        ((iirRndNano cfg.mode cfg.ratio cfg.precision : ℚ) / 10 ^ 9 + N * ((iirDriftNano cfg.mode cfg.ratio cfg.precision : ℚ) / 10 ^ 9)) * M := by
  have hp : cfg.precision ∈ [8, 12, 16, 20, 24] := by
    have h1 := hv.precision
    have h2 := hv.iir hf
    simp at h1 ⊢
    omega
  obtain ⟨⟨n1, n2⟩, ⟨n3, n4⟩, n5⟩ := numbers cfg.mode (by cases cfg.mode <;> simp) cfg.ratio hv.ratio cfg.precision hp cfg.iirSse
  have er : (Examples.cfg cfg.mode cfg.ratio cfg.precision true .iir).rates = cfg.rates := rfl
  unfold cascade at n1 n2 n3 n4
  rw [er] at n1 n2 n3 n4 n5
  have hN' : (N : ℚ) ≤ 2 ^ 20 := by exact_mod_cast hN
  have hu : driftU = 9 / 2 ^ 24 := by norm_num [u32r]
  have hlx : xs.length ≤ N := hxv.1 ▸ hl1
  rw [Config.stages_eq_iirTabs hv hf] at hrel
  obtain ⟨zq, hz, z1, z2⟩ := iir_cascade_drift hS hp hM0 hη hΩ
    cfg.rates (fun k hk => (Config.mem_rates hk).1)
    (fun k hk d hd => coefsAll k (Config.mem_rates hk).1 cfg.precision hp d hd)
    (N := N) (ρ := 9 / 16) (by rw [hu]; linarith) (by norm_num) (1, 0) (1, 0) le_rfl le_rfl le_rfl n5 hxv hrel hlx hl2
    (by simpa using hx) (r := seq xs) (by simp)
  -- between no drift and the drift of `2^20` samples
  obtain ⟨c1, c2⟩ := linStep_fold (m := cfg.mode) (sse := cfg.iirSse) hp (θ := (N : ℚ) / 2 ^ 20) (ρ := 9 / 16) (by positivity)
    (by rw [div_le_one (by positivity)]; exact hN') (by norm_num) cfg.rates (fun k hk => (Config.mem_rates hk).1)
    (s := (1, 0)) (s0 := (1, 0)) (s1 := (1, 0)) (Chord.const (by norm_num)) (Chord.const le_rfl)
  have eρ : (N : ℚ) / 2 ^ 20 * (9 / 16) = driftU * N := by rw [hu]; ring
  rw [eρ] at c1 c2
  have key : ∀ a b c D : ℚ, c - b ≤ 2 ^ 20 * D → a ≤ (1 - (N : ℚ) / 2 ^ 20) * b + N / 2 ^ 20 * c → a ≤ b + N * D := by
    intro a b c D h1 h2
    have h3 := mul_le_mul_of_nonneg_left h1 (show 0 ≤ (N : ℚ) / 2 ^ 20 by positivity)
    have e : (N : ℚ) / 2 ^ 20 * (2 ^ 20 * D) = N * D := by ring
    rw [e] at h3
    linarith
  refine ⟨zq, hz, fun n hn => ⟨?_, ?_⟩⟩
  · refine (z1 n).trans (mul_le_mul_of_nonneg_right ?_ hM0)
    linarith [key _ _ _ _ n2 c1.le]
  · rw [Config.op, Config.stages_eq_iirTabs hv hf]
    refine (z2 n hn).trans (mul_le_mul_of_nonneg_right ?_ hM0)
    linarith [key _ _ _ _ n4 c2.le]

private theorem main32 (cfg : Config) (hv : cfg.Valid) (hf : cfg.filter = .iir)
    (ops : List (Op F32)) (hc : ∀ op ∈ ops, cfg.OpOk op) (r : Resampler F32) (os : List (Option (Buf F32)))
    (h : cfg.session ops = .ok (r, os)) (N : ℕ) (hN : N ≤ 2 ^ 20) (hl1 : (fed ops).length ≤ N) (hl2 : (cfg.produced ops os).length ≤ N)
    (M : ℚ) (hM0 : 2⁻¹ ^ 100 ≤ M) (hM : M ≤ 2 ^ 100) (hx : ∀ v ∈ fed ops, ∃ q, v = Fl.fin q ∧ |q| ≤ M) :
    ∀ n < (cfg.produced ops os).length, ∃ y, seq (cfg.produced ops os) n = Fl.fin y ∧
      |y| ≤ ((peakMilli cfg.mode cfg.ratio cfg.precision : ℚ) / 1000 + N * ((iirDriftNano cfg.mode cfg.ratio cfg.precision : ℚ) / 10 ^ 9)) * M ∧
      |y - cfg.op (fun i => (seq (fed ops) i).val) n| ≤
        ((iirRndNano cfg.mode cfg.ratio cfg.precision : ℚ) / 10 ^ 9 + N * ((iirDriftNano cfg.mode cfg.ratio cfg.precision : ℚ) / 10 ^ 9)) * M := by
  intro n hn
  have hM0' : 0 ≤ M := le_trans (by positivity) hM0
  obtain ⟨xs, x1, x2, x3⟩ := vals_of_fin hM0' hx
  obtain ⟨zq, hz, z1⟩ := cfg.iir_drift hv hf (Fl.iirArith (binary32_acc (Ω := 2 ^ 127) (by norm_num))) hM0'
    (by
      refine le_trans ?_ (mul_le_mul_of_nonneg_left hM0 (by positivity))
      rw [show τ32 * 2⁻¹ ^ 100 = 2⁻¹ ^ 150 by rw [← pow_add]])
    (by
      refine le_trans (mul_le_mul_of_nonneg_left hM (by positivity)) ?_
      norm_num) (Config.session_rel' hv hc h) N hN hl1 hl2 x1 x2
  rw [← x3]
  exact ⟨_, hz.2 n, z1 n (hz.1 ▸ hn)⟩

/-- **C68**, for every IIR configuration, also with SSE and odd numbers of coefficients: in a session with at most `N ≤ 2^20` input samples and
at most `N` output samples, the rounding errors grow at most linearly with `N`. That they do not grow at all is true for the
configurations of `C68_rounding_partial` and false in general (`C68_false_sse_drift`). -/
theorem C68_linear_partial (cfg : Config) (hv : cfg.Valid) (hf : cfg.filter = .iir)
    (ops : List (Op F32)) (hc : ∀ op ∈ ops, cfg.OpOk op) (r : Resampler F32) (os : List (Option (Buf F32)))
    (h : cfg.session ops = .ok (r, os)) (N : ℕ) (hN : N ≤ 2 ^ 20) (hl1 : (fed ops).length ≤ N) (hl2 : (cfg.produced ops os).length ≤ N)
    (M : ℚ) (hM0 : 2⁻¹ ^ 100 ≤ M) (hM : M ≤ 2 ^ 100) (hx : ∀ v ∈ fed ops, ∃ q, v = Fl.fin q ∧ |q| ≤ M) :
    ∀ n < (cfg.produced ops os).length, ∃ y, seq (cfg.produced ops os) n = Fl.fin y ∧
      |y - cfg.op (fun i => (seq (fed ops) i).val) n| ≤
        ((iirRndNano cfg.mode cfg.ratio cfg.precision : ℚ) / 10 ^ 9 + N * ((iirDriftNano cfg.mode cfg.ratio cfg.precision : ℚ) / 10 ^ 9)) * M := by
  intro n hn
  obtain ⟨y, h1, -, h2⟩ := main32 cfg hv hf ops hc r os h N hN hl1 hl2 M hM0 hM hx n hn
  exact ⟨y, h1, h2⟩

/-- **C69**, for every IIR configuration: the output samples of such a session exceed the bound of exact arithmetic (C67) by at most
`N * iirDriftNano * 10^-9 * M`. -/
theorem C69_linear_partial (cfg : Config) (hv : cfg.Valid) (hf : cfg.filter = .iir)
    (ops : List (Op F32)) (hc : ∀ op ∈ ops, cfg.OpOk op) (r : Resampler F32) (os : List (Option (Buf F32)))
    (h : cfg.session ops = .ok (r, os)) (N : ℕ) (hN : N ≤ 2 ^ 20) (hl1 : (fed ops).length ≤ N) (hl2 : (cfg.produced ops os).length ≤ N)
    (M : ℚ) (hM0 : 2⁻¹ ^ 100 ≤ M) (hM : M ≤ 2 ^ 100) (hx : ∀ v ∈ fed ops, ∃ q, v = Fl.fin q ∧ |q| ≤ M) :
    ∀ v ∈ cfg.produced ops os, ∃ y, v = Fl.fin y ∧
      |y| ≤ ((peakMilli cfg.mode cfg.ratio cfg.precision : ℚ) / 1000 + N * ((iirDriftNano cfg.mode cfg.ratio cfg.precision : ℚ) / 10 ^ 9)) * M := by
  intro v hvm
  obtain ⟨n, hn, rfl⟩ := List.mem_iff_getElem.1 hvm
  obtain ⟨y, h1, h2, -⟩ := main32 cfg hv hf ops hc r os h N hN hl1 hl2 M hM0 hM hx n hn
  exact ⟨y, by rw [← h1]; simp [seq, List.getD_eq_getElem?_getD, hn], h2⟩

/-- C68 and C69 for a real session: 24 bits, ratio 8, with SSE (all three stages have odd numbers of coefficients), samples `1, 2, ..., 100`.
The 800 output samples are within 3.5 of exact arithmetic and at most 2329. -/
example : ∃ q, (cfg .up 8 24 true .iir).session [Op.process (rampCall32 100 800)] = .ok q ∧
    (∀ n < ((cfg .up 8 24 true .iir).produced [Op.process (rampCall32 100 800)] q.2).length, ∃ y,
      seq ((cfg .up 8 24 true .iir).produced [Op.process (rampCall32 100 800)] q.2) n = Fl.fin y ∧
      |y - (cfg .up 8 24 true .iir).op (fun i => (seq (fed [Op.process (rampCall32 100 800)]) i).val) n| ≤ 35 / 10) ∧
    ∀ v ∈ (cfg .up 8 24 true .iir).produced [Op.process (rampCall32 100 800)] q.2, ∃ y, v = Fl.fin y ∧ |y| ≤ 2329 := by
  have hx : ∀ v ∈ fed [Op.process (rampCall32 100 800)], ∃ q, v = Fl.fin q ∧ |q| ≤ 100 := by
    intro v hv
    obtain ⟨i, hi, rfl⟩ := List.mem_map.1 (show v ∈ (List.range 100).map (fun i : ℕ => (Fl.fin ((i : ℚ) + 1) : F32)) from hv)
    refine ⟨_, rfl, ?_⟩
    rw [abs_of_nonneg (by positivity)]
    have : i + 1 ≤ 100 := List.mem_range.1 hi
    exact_mod_cast this
  have hc : ∀ op ∈ [Op.process (rampCall32 100 800)], (cfg .up 8 24 true .iir).OpOk op := by
    intro op hop
    simp only [List.mem_cons, List.not_mem_nil, or_false] at hop
    subst hop
    exact ⟨by decide, by decide, by decide, by decide, by decide, by decide, by decide⟩
  have hv : (cfg .up 8 24 true .iir).Valid := ⟨by decide, by decide, by decide⟩
  obtain ⟨r, os, h, -⟩ := C04_output_frame _ hv _ hc
  have hl1 : (fed [Op.process (rampCall32 100 800)]).length ≤ 800 := by
    show ((List.range 100).map _).length ≤ 800
    simp
  have hl2 : ((cfg .up 8 24 true .iir).produced [Op.process (rampCall32 100 800)] os).length ≤ 800 := by
    have hrel := Config.session_rel' hv hc h
    obtain ⟨a, r1, b, r2, c, r3, r4⟩ := hrel
    have e1 := r1.1
    have e2 := r2.1
    have e3 := r3.1
    have e4 : (fed [Op.process (rampCall32 100 800)]).length = 100 := by
      show ((List.range 100).map _).length = 100
      simp
    have e5 : (cfg .up 8 24 true .iir).produced [Op.process (rampCall32 100 800)] os = c := r4
    rw [e5]
    omega
  refine ⟨_, h, fun n hn => ?_, fun v hvm => ?_⟩
  · obtain ⟨y, h3, h4⟩ := C68_linear_partial _ hv rfl _ hc r os h 800 (by norm_num) hl1 hl2 100 (by norm_num) (by norm_num) hx n hn
    refine ⟨y, h3, h4.trans ?_⟩
    norm_num [iirRndNano, iirDriftNano, cfg]
  · obtain ⟨y, h3, h4⟩ := C69_linear_partial _ hv rfl _ hc r os h 800 (by norm_num) hl1 hl2 100 (by norm_num) (by norm_num) hx v hvm
    refine ⟨y, h3, h4.trans ?_⟩
    norm_num [peakMilli, iirDriftNano, cfg]

end Panda
