import Verif.Proofs.IirFreq32
import Verif.Props.SseLinear
import Verif.Props.ContractIir

/-!
# C81: frequency response of IIR resamplers in binary32

The input samples are binary32 numbers; from sample `N` on they are within `ε` of a sum of sinusoids (`ε` is the quantisation of the
input). The output samples, computed in binary32, are near the sinusoids that C50, C56 and C57 give for exact arithmetic.
-/

namespace Panda

open Examples

private theorem seq_val_le {xs : List F32} {M : ℚ} (hx : ∀ v ∈ xs, ∃ q, v = Fl.fin q ∧ |q| ≤ M) (i : ℕ) (hi : i < xs.length) :
    |(seq xs i).val| ≤ M := by
  obtain ⟨q, h1, h2⟩ := hx xs[i] (List.getElem_mem hi)
  have e : seq xs i = Fl.fin q := by
    rw [← h1]
    simp [seq, List.getD_eq_getElem?_getD, hi]
  rw [e]
  exact h2

private theorem seq_eval_le {ch : Term binary32 → Fuse} {xs : List (Term binary32)} {M : ℚ}
    (hx : ∀ v ∈ xs, ∃ i q, v = .leaf i (Fl.fin q) ∧ |q| ≤ M) (i : ℕ) (hi : i < xs.length) :
    |((seq xs i).eval ch).val| ≤ M := by
  obtain ⟨j, q, h1, h2⟩ := hx xs[i] (List.getElem_mem hi)
  have e : seq xs i = .leaf j (Fl.fin q) := by
    rw [← h1]
    simp [seq, List.getD_eq_getElem?_getD, hi]
  rw [e]
  exact h2

/-- **C81** Downsampling, without SSE or with even numbers of coefficients. The input is near sinusoids `P` and sinusoids `S` in the stop
band. What remains of the latter is the attenuation of the filter; the start decays; the input error `ε` and the rounding errors add constants,
however long the session is. -/
theorem C81_down (cfg : Config) (hv : cfg.Valid) (hf : cfg.filter = .iir) (hm : cfg.mode = .down)
    (hsse : cfg.iirSse = true → ∀ k ∈ [2, 4, 8], k ≤ cfg.ratio → ∀ t, iirTable k cfg.precision = some t → t.1.length % 2 = 0)
    (ops : List (Op F32)) (hc : ∀ op ∈ ops, cfg.OpOk op) (r : Resampler F32) (os : List (Option (Buf F32)))
    (h : cfg.session ops = .ok (r, os)) (M : ℚ) (hM0 : 2⁻¹ ^ 100 ≤ M) (hM : M ≤ 2 ^ 100) (hx : ∀ v ∈ fed ops, ∃ q, v = Fl.fin q ∧ |q| ≤ M)
    (P S : List (ℝ × ℝ × ℝ))
    (hS : ∀ a ∈ S, ∃ j : ℤ, ¬ (cfg.ratio : ℤ) ∣ j ∧ |cfg.ratio * a.2.1 - 2 * Real.pi * j| ≤ 40 * Real.pi / 49)
    (ε : ℝ) (hε : 0 ≤ ε) (N0 : ℕ) (hin : ∀ i, N0 ≤ i → i < (fed ops).length → |((seq (fed ops) i).val : ℝ) - (tones P i + tones S i)| ≤ ε) (K : ℕ) :
    ∀ n < (cfg.produced ops os).length, N0 / cfg.ratio + 1 + 7 * K ≤ n → ∃ y, seq (cfg.produced ops os) n = Fl.fin y ∧
      |(y : ℝ) - tones (P.map cfg.downTone) n| ≤ atten (stopDb false cfg.precision) * amps S +
        2 * 10 ^ 6 * (19 / 20) ^ K * (2 * (amps P + amps S) + M) +
        (peakMilli cfg.mode cfg.ratio cfg.precision : ℝ) / 1000 * ε + (iirRndNano cfg.mode cfg.ratio cfg.precision : ℝ) / 10 ^ 9 * M := by
  intro n hn hset
  have hM0' : 0 ≤ M := le_trans (by positivity) hM0
  obtain ⟨y, h1, h2⟩ := C68_rounding_partial cfg hv hf hsse ops hc r os h M hM0 hM hx n hn
  rw [Config.produced_length hv (Config.session_rel' hv hc h)] at hn
  have h3 := Config.computed_down hv hf hm hM0' (seq_val_le hx) P S hS hε hin K hn hset h2
  push_cast at h3
  exact ⟨y, h1, h3⟩

/-- **C81** Upsampling, without SSE or with even numbers of coefficients, for frequencies in the pass band. -/
theorem C81_up (cfg : Config) (hv : cfg.Valid) (hf : cfg.filter = .iir) (hm : cfg.mode = .up)
    (hsse : cfg.iirSse = true → ∀ k ∈ [2, 4, 8], k ≤ cfg.ratio → ∀ t, iirTable k cfg.precision = some t → t.1.length % 2 = 0)
    (ops : List (Op F32)) (hc : ∀ op ∈ ops, cfg.OpOk op) (r : Resampler F32) (os : List (Option (Buf F32)))
    (h : cfg.session ops = .ok (r, os)) (M : ℚ) (hM0 : 2⁻¹ ^ 100 ≤ M) (hM : M ≤ 2 ^ 100) (hx : ∀ v ∈ fed ops, ∃ q, v = Fl.fin q ∧ |q| ≤ M)
    (L : List (ℝ × ℝ × ℝ)) (hL : ∀ a ∈ L, |a.2.1| ≤ 40 * Real.pi / 49)
    (ε : ℝ) (hε : 0 ≤ ε) (N0 : ℕ) (hin : ∀ i, N0 ≤ i → i < (fed ops).length → |((seq (fed ops) i).val : ℝ) - tones L i| ≤ ε) (K : ℕ) :
    ∀ n < (cfg.produced ops os).length, cfg.ratio * (N0 + 7 * K) ≤ n → ∃ y, seq (cfg.produced ops os) n = Fl.fin y ∧
      |(y : ℝ) - tones (L.map cfg.upTone) n| ≤ imageFactor cfg.ratio * atten (stopDb false cfg.precision) * amps L +
        2 * 10 ^ 6 * (19 / 20) ^ K * (2 * amps L + M) +
        (peakMilli cfg.mode cfg.ratio cfg.precision : ℝ) / 1000 * ε + (iirRndNano cfg.mode cfg.ratio cfg.precision : ℝ) / 10 ^ 9 * M := by
  intro n hn hset
  have hM0' : 0 ≤ M := le_trans (by positivity) hM0
  obtain ⟨y, h1, h2⟩ := C68_rounding_partial cfg hv hf hsse ops hc r os h M hM0 hM hx n hn
  rw [Config.produced_length hv (Config.session_rel' hv hc h)] at hn
  have h3 := Config.computed_up hv hf hm hM0' (seq_val_le hx) L hL hε hin K hn hset h2
  push_cast at h3
  exact ⟨y, h1, h3⟩

/-- **C81** Downsampling, every configuration, for sessions with at most `N ≤ 2^20` input and output samples. -/
theorem C81_down_linear (cfg : Config) (hv : cfg.Valid) (hf : cfg.filter = .iir) (hm : cfg.mode = .down)
    (ops : List (Op F32)) (hc : ∀ op ∈ ops, cfg.OpOk op) (r : Resampler F32) (os : List (Option (Buf F32)))
    (h : cfg.session ops = .ok (r, os)) (N : ℕ) (hN : N ≤ 2 ^ 20) (hl1 : (fed ops).length ≤ N) (hl2 : (cfg.produced ops os).length ≤ N)
    (M : ℚ) (hM0 : 2⁻¹ ^ 100 ≤ M) (hM : M ≤ 2 ^ 100) (hx : ∀ v ∈ fed ops, ∃ q, v = Fl.fin q ∧ |q| ≤ M)
    (P S : List (ℝ × ℝ × ℝ))
    (hS : ∀ a ∈ S, ∃ j : ℤ, ¬ (cfg.ratio : ℤ) ∣ j ∧ |cfg.ratio * a.2.1 - 2 * Real.pi * j| ≤ 40 * Real.pi / 49)
    (ε : ℝ) (hε : 0 ≤ ε) (N0 : ℕ) (hin : ∀ i, N0 ≤ i → i < (fed ops).length → |((seq (fed ops) i).val : ℝ) - (tones P i + tones S i)| ≤ ε) (K : ℕ) :
    ∀ n < (cfg.produced ops os).length, N0 / cfg.ratio + 1 + 7 * K ≤ n → ∃ y, seq (cfg.produced ops os) n = Fl.fin y ∧
      |(y : ℝ) - tones (P.map cfg.downTone) n| ≤ atten (stopDb false cfg.precision) * amps S +
        2 * 10 ^ 6 * (19 / 20) ^ K * (2 * (amps P + amps S) + M) +
        (peakMilli cfg.mode cfg.ratio cfg.precision : ℝ) / 1000 * ε + ((iirRndNano cfg.mode cfg.ratio cfg.precision : ℝ) / 10 ^ 9 + N * ((iirDriftNano cfg.mode cfg.ratio cfg.precision : ℝ) / 10 ^ 9)) * M := by
  intro n hn hset
  have hM0' : 0 ≤ M := le_trans (by positivity) hM0
  obtain ⟨y, h1, h2⟩ := C68_linear_partial cfg hv hf ops hc r os h N hN hl1 hl2 M hM0 hM hx n hn
  rw [Config.produced_length hv (Config.session_rel' hv hc h)] at hn
  have h3 := Config.computed_down hv hf hm hM0' (seq_val_le hx) P S hS hε hin K hn hset h2
  push_cast at h3
  exact ⟨y, h1, h3⟩

/-- **C81** Upsampling, every configuration, for sessions with at most `N ≤ 2^20` input and output samples. -/
theorem C81_up_linear (cfg : Config) (hv : cfg.Valid) (hf : cfg.filter = .iir) (hm : cfg.mode = .up)
    (ops : List (Op F32)) (hc : ∀ op ∈ ops, cfg.OpOk op) (r : Resampler F32) (os : List (Option (Buf F32)))
    (h : cfg.session ops = .ok (r, os)) (N : ℕ) (hN : N ≤ 2 ^ 20) (hl1 : (fed ops).length ≤ N) (hl2 : (cfg.produced ops os).length ≤ N)
    (M : ℚ) (hM0 : 2⁻¹ ^ 100 ≤ M) (hM : M ≤ 2 ^ 100) (hx : ∀ v ∈ fed ops, ∃ q, v = Fl.fin q ∧ |q| ≤ M)
    (L : List (ℝ × ℝ × ℝ)) (hL : ∀ a ∈ L, |a.2.1| ≤ 40 * Real.pi / 49)
    (ε : ℝ) (hε : 0 ≤ ε) (N0 : ℕ) (hin : ∀ i, N0 ≤ i → i < (fed ops).length → |((seq (fed ops) i).val : ℝ) - tones L i| ≤ ε) (K : ℕ) :
    ∀ n < (cfg.produced ops os).length, cfg.ratio * (N0 + 7 * K) ≤ n → ∃ y, seq (cfg.produced ops os) n = Fl.fin y ∧
      |(y : ℝ) - tones (L.map cfg.upTone) n| ≤ imageFactor cfg.ratio * atten (stopDb false cfg.precision) * amps L +
        2 * 10 ^ 6 * (19 / 20) ^ K * (2 * amps L + M) +
        (peakMilli cfg.mode cfg.ratio cfg.precision : ℝ) / 1000 * ε + ((iirRndNano cfg.mode cfg.ratio cfg.precision : ℝ) / 10 ^ 9 + N * ((iirDriftNano cfg.mode cfg.ratio cfg.precision : ℝ) / 10 ^ 9)) * M := by
  intro n hn hset
  have hM0' : 0 ≤ M := le_trans (by positivity) hM0
  obtain ⟨y, h1, h2⟩ := C68_linear_partial cfg hv hf ops hc r os h N hN hl1 hl2 M hM0 hM hx n hn
  rw [Config.produced_length hv (Config.session_rel' hv hc h)] at hn
  have h3 := Config.computed_up hv hf hm hM0' (seq_val_le hx) L hL hε hin K hn hset h2
  push_cast at h3
  exact ⟨y, h1, h3⟩

/-- **C81** Downsampling by a program with contracted multiplications and additions (C80). -/
theorem C81_down_contracted (cfg : Config) (hv : cfg.Valid) (hf : cfg.filter = .iir) (hm : cfg.mode = .down)
    (hsse : cfg.iirSse = true → ∀ k ∈ [2, 4, 8], k ≤ cfg.ratio → ∀ t, iirTable k cfg.precision = some t → t.1.length % 2 = 0)
    (ch : Term binary32 → Fuse)
    (ops : List (Op (Term binary32))) (hc : ∀ op ∈ ops, cfg.OpOk op) (r : Resampler (Term binary32)) (os : List (Option (Buf (Term binary32))))
    (h : cfg.session ops = .ok (r, os)) (M : ℚ) (hM0 : 2⁻¹ ^ 99 ≤ M) (hM : M ≤ 2 ^ 100) (hx : ∀ v ∈ fed ops, ∃ i q, v = .leaf i (Fl.fin q) ∧ |q| ≤ M)
    (P S : List (ℝ × ℝ × ℝ))
    (hS : ∀ a ∈ S, ∃ j : ℤ, ¬ (cfg.ratio : ℤ) ∣ j ∧ |cfg.ratio * a.2.1 - 2 * Real.pi * j| ≤ 40 * Real.pi / 49)
    (ε : ℝ) (hε : 0 ≤ ε) (N0 : ℕ) (hin : ∀ i, N0 ≤ i → i < (fed ops).length → |(((seq (fed ops) i).eval ch).val : ℝ) - (tones P i + tones S i)| ≤ ε) (K : ℕ) :
    ∀ n < (cfg.produced ops os).length, N0 / cfg.ratio + 1 + 7 * K ≤ n → ∃ y, (seq (cfg.produced ops os) n).eval ch = Fl.fin y ∧
      |(y : ℝ) - tones (P.map cfg.downTone) n| ≤ atten (stopDb false cfg.precision) * amps S +
        2 * 10 ^ 6 * (19 / 20) ^ K * (2 * (amps P + amps S) + M) +
        (peakMilli cfg.mode cfg.ratio cfg.precision : ℝ) / 1000 * ε + (iirRndNano cfg.mode cfg.ratio cfg.precision : ℝ) / 10 ^ 9 * M := by
  intro n hn hset
  have hM0' : 0 ≤ M := le_trans (by positivity) hM0
  obtain ⟨y, h1, -, h2⟩ := C80_rounding cfg hv hf hsse ch ops hc r os h M hM0 hM hx n hn
  rw [Config.produced_length hv (Config.session_rel' hv hc h)] at hn
  have h3 := Config.computed_down hv hf hm hM0' (seq_eval_le hx) P S hS hε hin K hn hset h2
  push_cast at h3
  exact ⟨y, h1, h3⟩

/-- **C81** Upsampling by a program with contracted multiplications and additions (C80). -/
theorem C81_up_contracted (cfg : Config) (hv : cfg.Valid) (hf : cfg.filter = .iir) (hm : cfg.mode = .up)
    (hsse : cfg.iirSse = true → ∀ k ∈ [2, 4, 8], k ≤ cfg.ratio → ∀ t, iirTable k cfg.precision = some t → t.1.length % 2 = 0)
    (ch : Term binary32 → Fuse)
    (ops : List (Op (Term binary32))) (hc : ∀ op ∈ ops, cfg.OpOk op) (r : Resampler (Term binary32)) (os : List (Option (Buf (Term binary32))))
    (h : cfg.session ops = .ok (r, os)) (M : ℚ) (hM0 : 2⁻¹ ^ 99 ≤ M) (hM : M ≤ 2 ^ 100) (hx : ∀ v ∈ fed ops, ∃ i q, v = .leaf i (Fl.fin q) ∧ |q| ≤ M)
    (L : List (ℝ × ℝ × ℝ)) (hL : ∀ a ∈ L, |a.2.1| ≤ 40 * Real.pi / 49)
    (ε : ℝ) (hε : 0 ≤ ε) (N0 : ℕ) (hin : ∀ i, N0 ≤ i → i < (fed ops).length → |(((seq (fed ops) i).eval ch).val : ℝ) - tones L i| ≤ ε) (K : ℕ) :
    ∀ n < (cfg.produced ops os).length, cfg.ratio * (N0 + 7 * K) ≤ n → ∃ y, (seq (cfg.produced ops os) n).eval ch = Fl.fin y ∧
      |(y : ℝ) - tones (L.map cfg.upTone) n| ≤ imageFactor cfg.ratio * atten (stopDb false cfg.precision) * amps L +
        2 * 10 ^ 6 * (19 / 20) ^ K * (2 * amps L + M) +
        (peakMilli cfg.mode cfg.ratio cfg.precision : ℝ) / 1000 * ε + (iirRndNano cfg.mode cfg.ratio cfg.precision : ℝ) / 10 ^ 9 * M := by
  intro n hn hset
  have hM0' : 0 ≤ M := le_trans (by positivity) hM0
  obtain ⟨y, h1, -, h2⟩ := C80_rounding cfg hv hf hsse ch ops hc r os h M hM0 hM hx n hn
  rw [Config.produced_length hv (Config.session_rel' hv hc h)] at hn
  have h3 := Config.computed_up hv hf hm hM0' (seq_eval_le hx) L hL hε hin K hn hset h2
  push_cast at h3
  exact ⟨y, h1, h3⟩

/-! ## Concrete cases -/

/-- Samples `2 + 2^-20, 0, 2 + 2^-20, 0, ...`: a constant and a sinusoid of half the sample rate, up to `2^-20`. -/
def altSample (i : ℕ) : ℚ := if i % 2 = 0 then 2 + 2⁻¹ ^ 20 else 0

/-- A call with these samples (and two more in the input buffer, as SSE downsampling needs). -/
def altCall (T : Type) [Zero T] (g : ℕ → ℚ → T) (n m : ℕ) : Call T :=
  { st := { block16 := 5, tmpAddr := 4, tmp2Addr := 8, junk := fun _ => 0 },
    input := { addr := 4, len := n + 2, get := fun i => g i (altSample i) }, n := n,
    output := { addr := 100000, len := m, get := fun _ => 0 } }

private theorem alt_abs (i : ℕ) : |altSample i| ≤ 3 := by
  unfold altSample
  split <;> norm_num

private theorem alt_near (i : ℕ) : |((altSample i : ℚ) : ℝ) - (tones [(1, 0, 0)] i + tones [(1, Real.pi, 0)] i)| ≤ 1 / 2 ^ 20 := by
  rw [tones_cons, tones_nil, tones_cons, tones_nil]
  have e : Real.cos (Real.pi * i + 0) = (-1) ^ i := by rw [add_zero, mul_comm, Real.cos_nat_mul_pi]
  rw [e]
  unfold altSample
  rcases Nat.even_or_odd i with h | h
  · rw [if_pos (Nat.even_iff.1 h), h.neg_one_pow]
    norm_num [abs_le]
  · rw [if_neg (by have := Nat.odd_iff.1 h; omega), h.neg_one_pow]
    norm_num

private theorem decay_small : (2 : ℝ) * 10 ^ 6 * (19 / 20) ^ 700 ≤ 1 / 10 ^ 8 := by
  have h1 : ((19 : ℝ) / 20) ^ 700 = ((19 / 20) ^ 50) ^ 14 := by rw [← pow_mul]
  have h2 : ((19 : ℝ) / 20) ^ 50 ≤ 77 / 1000 := by norm_num
  have h3 := pow_le_pow_left₀ (by positivity) h2 14
  rw [← h1] at h3
  generalize ((19 : ℝ) / 20) ^ 700 = z at h3 ⊢
  norm_num at h3
  linarith

private theorem atten120 : atten 120 = 1 / 10 ^ 6 := by
  unfold atten
  rw [show (-120 / 20 : ℝ) = ((-6 : ℤ) : ℝ) by norm_num, Real.rpow_intCast]
  norm_num

private theorem stopDb20 : ((stopDb false 20 : ℕ) : ℝ) = 120 := by
  rw [show stopDb false 20 = 120 from rfl]
  norm_num

private theorem stop_pi : ∀ a ∈ [((1 : ℝ), Real.pi, (0 : ℝ))],
    ∃ j : ℤ, ¬ ((2 : ℕ) : ℤ) ∣ j ∧ |((2 : ℕ) : ℝ) * a.2.1 - 2 * Real.pi * j| ≤ 40 * Real.pi / 49 := by
  intro a ha
  simp only [List.mem_cons, List.not_mem_nil, or_false] at ha
  subst ha
  refine ⟨1, by decide, ?_⟩
  norm_num
  positivity

private theorem fed_alt {T : Type} [Zero T] (g : ℕ → ℚ → T) (n m : ℕ) :
    fed [Op.process (altCall T g n m)] = (List.range n).map fun i => g i (altSample i) := by
  simp [fed, fedStep, altCall, Call.samples]

private theorem alt_le {T : Type} [Zero T] (g : ℕ → ℚ → T) (n m : ℕ) :
    ∀ v ∈ fed [Op.process (altCall T g n m)], ∃ i q, v = g i q ∧ |q| ≤ 3 := by
  rw [fed_alt]
  intro v hv
  obtain ⟨i, -, rfl⟩ := List.mem_map.1 hv
  exact ⟨i, _, rfl, alt_abs i⟩

private theorem alt_seq {T : Type} [Zero T] (g : ℕ → ℚ → T) (n m i : ℕ) (hi : i < (fed [Op.process (altCall T g n m)]).length) :
    seq (fed [Op.process (altCall T g n m)]) i = g i (altSample i) := by
  rw [fed_alt] at hi ⊢
  simp only [List.length_map, List.length_range] at hi
  simp [seq, hi]

/-- C81: 20 bits, downsampling by 2: of the sinusoid of half the sample rate nearly nothing is left, without and with contraction. -/
example : (∃ q, (cfg .down 2 20 false .iir).session [Op.process (altCall F32 (fun _ => Fl.fin) 10200 5100)] = .ok q ∧
    ∃ y, seq ((cfg .down 2 20 false .iir).produced [Op.process (altCall F32 (fun _ => Fl.fin) 10200 5100)] q.2) 5099 = Fl.fin y ∧
      |(y : ℝ) - tones [(cfg .down 2 20 false .iir).downTone (1, 0, 0)] 5099| ≤ 1 / 10 ^ 4) ∧
    ∃ q, (cfg .down 2 20 false .iir).session [Op.process (altCall (Term binary32) (fun i v => .leaf i (Fl.fin v)) 10200 5100)] = .ok q ∧
    ∃ y, (seq ((cfg .down 2 20 false .iir).produced
        [Op.process (altCall (Term binary32) (fun i v => .leaf i (Fl.fin v)) 10200 5100)] q.2) 5099).eval fuseLeft = Fl.fin y ∧
      |(y : ℝ) - tones [(cfg .down 2 20 false .iir).downTone (1, 0, 0)] 5099| ≤ 1 / 10 ^ 4 := by
  have hv : (cfg .down 2 20 false .iir).Valid := ⟨by decide, by decide, by decide⟩
  have hd := decay_small
  have hs : (cfg .down 2 20 false .iir).iirSse = true → ∀ k ∈ [2, 4, 8], k ≤ (cfg .down 2 20 false .iir).ratio → ∀ t,
      iirTable k (cfg .down 2 20 false .iir).precision = some t → t.1.length % 2 = 0 := by
    intro h
    exact absurd h (by decide)
  have num : ∀ t : ℝ, t ≤ atten (stopDb false (cfg .down 2 20 false .iir).precision) * amps [((1 : ℝ), Real.pi, (0 : ℝ))] +
        2 * 10 ^ 6 * (19 / 20) ^ 700 * (2 * (amps [((1 : ℝ), (0 : ℝ), (0 : ℝ))] + amps [((1 : ℝ), Real.pi, (0 : ℝ))]) + ((3 : ℚ) : ℝ)) +
        (peakMilli (cfg .down 2 20 false .iir).mode (cfg .down 2 20 false .iir).ratio (cfg .down 2 20 false .iir).precision : ℝ) / 1000 *
          (1 / 2 ^ 20) +
        (iirRndNano (cfg .down 2 20 false .iir).mode (cfg .down 2 20 false .iir).ratio (cfg .down 2 20 false .iir).precision : ℝ) / 10 ^ 9 *
          ((3 : ℚ) : ℝ) → t ≤ 1 / 10 ^ 4 := by
    intro t ht
    rw [show (cfg .down 2 20 false .iir).precision = 20 from rfl, stopDb20, atten120] at ht
    simp only [amps, List.map_cons, List.map_nil, List.sum_cons, List.sum_nil, abs_one, cfg, peakMilli, iirRndNano] at ht
    push_cast at ht
    generalize (2 : ℝ) * 10 ^ 6 * (19 / 20) ^ 700 = z at hd ht
    linarith
  constructor
  · have hc : ∀ op ∈ [Op.process (altCall F32 (fun _ => Fl.fin) 10200 5100)], (cfg .down 2 20 false .iir).OpOk op := by
      intro op hop
      simp only [List.mem_cons, List.not_mem_nil, or_false] at hop
      subst hop
      exact ⟨by decide, by decide, by decide, by decide, by decide, by decide, by decide⟩
    obtain ⟨r, os, h, -⟩ := C04_output_frame _ hv _ hc
    have hlen := Config.produced_length hv (Config.session_rel' hv hc h)
    rw [fed_alt, List.length_map, List.length_range] at hlen
    obtain ⟨y, h1, h2⟩ := C81_down _ hv rfl rfl hs _ hc r os h 3 (by norm_num) (by norm_num)
      (fun v hv => by obtain ⟨_, q, h1, h2⟩ := alt_le _ _ _ v hv; exact ⟨q, h1, h2⟩) [(1, 0, 0)] [(1, Real.pi, 0)] stop_pi (1 / 2 ^ 20) (by positivity) 0
      (fun i _ hi => by rw [alt_seq _ _ _ i hi]; exact alt_near i) 700 5099 (by rw [hlen]; decide) (by decide)
    exact ⟨_, h, y, h1, num _ h2⟩
  · have hc : ∀ op ∈ [Op.process (altCall (Term binary32) (fun i v => .leaf i (Fl.fin v)) 10200 5100)], (cfg .down 2 20 false .iir).OpOk op := by
      intro op hop
      simp only [List.mem_cons, List.not_mem_nil, or_false] at hop
      subst hop
      exact ⟨by decide, by decide, by decide, by decide, by decide, by decide, by decide⟩
    obtain ⟨r, os, h, -⟩ := C04_output_frame _ hv _ hc
    have hlen := Config.produced_length hv (Config.session_rel' hv hc h)
    rw [fed_alt, List.length_map, List.length_range] at hlen
    obtain ⟨y, h1, h2⟩ := C81_down_contracted _ hv rfl rfl hs fuseLeft _ hc r os h 3 (by norm_num) (by norm_num)
      (alt_le _ _ _) [(1, 0, 0)] [(1, Real.pi, 0)] stop_pi (1 / 2 ^ 20) (by positivity) 0
      (fun i _ hi => by rw [alt_seq _ _ _ i hi]; exact alt_near i) 700 5099 (by rw [hlen]; decide) (by decide)
    exact ⟨_, h, y, h1, num _ h2⟩

/-- C81: 24 bits, SSE (an odd number of coefficients), downsampling by 2. -/
example : ∃ q, (cfg .down 2 24 true .iir).session [Op.process (altCall F32 (fun _ => Fl.fin) 10200 5100)] = .ok q ∧
    ∃ y, seq ((cfg .down 2 24 true .iir).produced [Op.process (altCall F32 (fun _ => Fl.fin) 10200 5100)] q.2) 5099 = Fl.fin y ∧
      |(y : ℝ) - tones [(cfg .down 2 24 true .iir).downTone (1, 0, 0)] 5099| ≤ 3 / 10 ^ 2 := by
  have hv : (cfg .down 2 24 true .iir).Valid := ⟨by decide, by decide, by decide⟩
  have hd := decay_small
  have hc : ∀ op ∈ [Op.process (altCall F32 (fun _ => Fl.fin) 10200 5100)], (cfg .down 2 24 true .iir).OpOk op := by
    intro op hop
    simp only [List.mem_cons, List.not_mem_nil, or_false] at hop
    subst hop
    exact ⟨by decide, by decide, by decide, by decide, by decide, by decide, by decide⟩
  obtain ⟨r, os, h, -⟩ := C04_output_frame _ hv _ hc
  have hlen := Config.produced_length hv (Config.session_rel' hv hc h)
  rw [fed_alt, List.length_map, List.length_range] at hlen
  have hlen' : (Config.produced (cfg .down 2 24 true .iir) [Op.process (altCall F32 (fun _ => Fl.fin) 10200 5100)] os).length = 5100 := hlen
  obtain ⟨y, h1, h2⟩ := C81_down_linear _ hv rfl rfl _ hc r os h 10200 (by norm_num)
    (by rw [fed_alt, List.length_map, List.length_range]) (by rw [hlen']; norm_num) 3 (by norm_num) (by norm_num)
    (fun v hv => by obtain ⟨_, q, h1, h2⟩ := alt_le _ _ _ v hv; exact ⟨q, h1, h2⟩) [(1, 0, 0)] [(1, Real.pi, 0)] stop_pi (1 / 2 ^ 20) (by positivity) 0
    (fun i _ hi => by rw [alt_seq _ _ _ i hi]; exact alt_near i) 700 5099 (by rw [hlen']; norm_num) (by decide)
  refine ⟨_, h, y, h1, h2.trans ?_⟩
  have ha : atten (stopDb false (cfg .down 2 24 true .iir).precision) ≤ 1 / 10 ^ 6 := by
    rw [show ((stopDb false (cfg .down 2 24 true .iir).precision : ℕ) : ℝ) = 144 by
      rw [show stopDb false (cfg .down 2 24 true .iir).precision = 144 from rfl]; norm_num]
    rw [← atten120]
    unfold atten
    exact Real.rpow_le_rpow_of_exponent_le (by norm_num) (by norm_num)
  generalize atten (stopDb false (cfg .down 2 24 true .iir).precision) = w at ha ⊢
  simp only [amps, List.map_cons, List.map_nil, List.sum_cons, List.sum_nil, abs_one, cfg, peakMilli, iirRndNano, iirDriftNano]
  push_cast
  generalize (2 : ℝ) * 10 ^ 6 * (19 / 20) ^ 700 = z at hd ⊢
  linarith

/-- Samples `1`. -/
def oneCall (T : Type) [Zero T] (g : ℕ → ℚ → T) (n m : ℕ) : Call T :=
  { altCall T g n m with input := { addr := 4, len := n, get := fun i => g i 1 } }

private theorem fed_one {T : Type} [Zero T] (g : ℕ → ℚ → T) (n m : ℕ) :
    fed [Op.process (oneCall T g n m)] = (List.range n).map fun i => g i 1 := by
  simp [fed, fedStep, oneCall, altCall, Call.samples]

private theorem one_le {T : Type} [Zero T] (g : ℕ → ℚ → T) (n m : ℕ) :
    ∀ v ∈ fed [Op.process (oneCall T g n m)], ∃ i q, v = g i q ∧ |q| ≤ 1 := by
  rw [fed_one]
  intro v hv
  obtain ⟨i, -, rfl⟩ := List.mem_map.1 hv
  exact ⟨i, _, rfl, by norm_num⟩

private theorem one_seq {T : Type} [Zero T] (g : ℕ → ℚ → T) (n m i : ℕ) (hi : i < (fed [Op.process (oneCall T g n m)]).length) :
    seq (fed [Op.process (oneCall T g n m)]) i = g i 1 := by
  rw [fed_one] at hi ⊢
  simp only [List.length_map, List.length_range] at hi
  simp [seq, hi]

private theorem one_near (i : ℕ) : |(((1 : ℚ) : ℚ) : ℝ) - tones [(1, 0, 0)] i| ≤ 0 := by
  rw [tones_cons, tones_nil]
  norm_num

private theorem pass_zero : ∀ a ∈ [((1 : ℝ), (0 : ℝ), (0 : ℝ))], |a.2.1| ≤ 40 * Real.pi / 49 := by
  intro a ha
  simp only [List.mem_cons, List.not_mem_nil, or_false] at ha
  subst ha
  simp only [abs_zero]
  positivity

/-- C81: a constant is upsampled by 2. 20 bits, SSE (an even number of coefficients), without and with contraction; 24 bits, SSE (an odd number). -/
example : (∃ q, (cfg .up 2 20 true .iir).session [Op.process (oneCall F32 (fun _ => Fl.fin) 5000 10000)] = .ok q ∧
    ∃ y, seq ((cfg .up 2 20 true .iir).produced [Op.process (oneCall F32 (fun _ => Fl.fin) 5000 10000)] q.2) 9999 = Fl.fin y ∧
      |(y : ℝ) - tones [(cfg .up 2 20 true .iir).upTone (1, 0, 0)] 9999| ≤ 1 / 10 ^ 4) ∧
    (∃ q, (cfg .up 2 20 true .iir).session [Op.process (oneCall (Term binary32) (fun i v => .leaf i (Fl.fin v)) 5000 10000)] = .ok q ∧
    ∃ y, (seq ((cfg .up 2 20 true .iir).produced
        [Op.process (oneCall (Term binary32) (fun i v => .leaf i (Fl.fin v)) 5000 10000)] q.2) 9999).eval fuseLeft = Fl.fin y ∧
      |(y : ℝ) - tones [(cfg .up 2 20 true .iir).upTone (1, 0, 0)] 9999| ≤ 1 / 10 ^ 4) ∧
    ∃ q, (cfg .up 2 24 true .iir).session [Op.process (oneCall F32 (fun _ => Fl.fin) 5000 10000)] = .ok q ∧
    ∃ y, seq ((cfg .up 2 24 true .iir).produced [Op.process (oneCall F32 (fun _ => Fl.fin) 5000 10000)] q.2) 9999 = Fl.fin y ∧
      |(y : ℝ) - tones [(cfg .up 2 24 true .iir).upTone (1, 0, 0)] 9999| ≤ 2 / 10 ^ 2 := by
  have hv : (cfg .up 2 20 true .iir).Valid := ⟨by decide, by decide, by decide⟩
  have hv2 : (cfg .up 2 24 true .iir).Valid := ⟨by decide, by decide, by decide⟩
  have hd := decay_small
  have hs : (cfg .up 2 20 true .iir).iirSse = true → ∀ k ∈ [2, 4, 8], k ≤ (cfg .up 2 20 true .iir).ratio → ∀ t,
      iirTable k (cfg .up 2 20 true .iir).precision = some t → t.1.length % 2 = 0 := by
    intro _ k hk hr t ht
    have : ∀ k ∈ [2, 4, 8], k ≤ 2 → ∀ t ∈ iirTable k 20, t.1.length % 2 = 0 := by decide +kernel
    exact this k hk hr t ht
  have num : ∀ t : ℝ, t ≤ imageFactor (cfg .up 2 20 true .iir).ratio * atten (stopDb false (cfg .up 2 20 true .iir).precision) *
          amps [((1 : ℝ), (0 : ℝ), (0 : ℝ))] +
        2 * 10 ^ 6 * (19 / 20) ^ 700 * (2 * amps [((1 : ℝ), (0 : ℝ), (0 : ℝ))] + ((1 : ℚ) : ℝ)) +
        (peakMilli (cfg .up 2 20 true .iir).mode (cfg .up 2 20 true .iir).ratio (cfg .up 2 20 true .iir).precision : ℝ) / 1000 * 0 +
        (iirRndNano (cfg .up 2 20 true .iir).mode (cfg .up 2 20 true .iir).ratio (cfg .up 2 20 true .iir).precision : ℝ) / 10 ^ 9 *
          ((1 : ℚ) : ℝ) → t ≤ 1 / 10 ^ 4 := by
    intro t ht
    rw [show (cfg .up 2 20 true .iir).precision = 20 from rfl, stopDb20, atten120, show (cfg .up 2 20 true .iir).ratio = 2 from rfl,
      show imageFactor 2 = 1 by norm_num [imageFactor]] at ht
    simp only [amps, List.map_cons, List.map_nil, List.sum_cons, List.sum_nil, abs_one, cfg, peakMilli, iirRndNano] at ht
    push_cast at ht
    generalize (2 : ℝ) * 10 ^ 6 * (19 / 20) ^ 700 = z at hd ht
    linarith
  refine ⟨?_, ?_, ?_⟩
  · have hc : ∀ op ∈ [Op.process (oneCall F32 (fun _ => Fl.fin) 5000 10000)], (cfg .up 2 20 true .iir).OpOk op := by
      intro op hop
      simp only [List.mem_cons, List.not_mem_nil, or_false] at hop
      subst hop
      exact ⟨by decide, by decide, by decide, by decide, by decide, by decide, by decide⟩
    obtain ⟨r, os, h, -⟩ := C04_output_frame _ hv _ hc
    have hlen := Config.produced_length hv (Config.session_rel' hv hc h)
    rw [fed_one, List.length_map, List.length_range] at hlen
    obtain ⟨y, h1, h2⟩ := C81_up _ hv rfl rfl hs _ hc r os h 1 (by norm_num) (by norm_num)
      (fun v hv => by obtain ⟨_, q, h1, h2⟩ := one_le _ _ _ v hv; exact ⟨q, h1, h2⟩) [(1, 0, 0)] pass_zero 0 le_rfl 0
      (fun i _ hi => by rw [one_seq _ _ _ i hi]; exact one_near i) 700 9999 (by rw [hlen]; decide) (by decide)
    exact ⟨_, h, y, h1, num _ h2⟩
  · have hc : ∀ op ∈ [Op.process (oneCall (Term binary32) (fun i v => .leaf i (Fl.fin v)) 5000 10000)], (cfg .up 2 20 true .iir).OpOk op := by
      intro op hop
      simp only [List.mem_cons, List.not_mem_nil, or_false] at hop
      subst hop
      exact ⟨by decide, by decide, by decide, by decide, by decide, by decide, by decide⟩
    obtain ⟨r, os, h, -⟩ := C04_output_frame _ hv _ hc
    have hlen := Config.produced_length hv (Config.session_rel' hv hc h)
    rw [fed_one, List.length_map, List.length_range] at hlen
    obtain ⟨y, h1, h2⟩ := C81_up_contracted _ hv rfl rfl hs fuseLeft _ hc r os h 1 (by norm_num) (by norm_num)
      (one_le _ _ _) [(1, 0, 0)] pass_zero 0 le_rfl 0
      (fun i _ hi => by rw [one_seq _ _ _ i hi]; exact one_near i) 700 9999 (by rw [hlen]; decide) (by decide)
    exact ⟨_, h, y, h1, num _ h2⟩
  · have hc : ∀ op ∈ [Op.process (oneCall F32 (fun _ => Fl.fin) 5000 10000)], (cfg .up 2 24 true .iir).OpOk op := by
      intro op hop
      simp only [List.mem_cons, List.not_mem_nil, or_false] at hop
      subst hop
      exact ⟨by decide, by decide, by decide, by decide, by decide, by decide, by decide⟩
    obtain ⟨r, os, h, -⟩ := C04_output_frame _ hv2 _ hc
    have hlen := Config.produced_length hv2 (Config.session_rel' hv2 hc h)
    rw [fed_one, List.length_map, List.length_range] at hlen
    obtain ⟨y, h1, h2⟩ := C81_up_linear _ hv2 rfl rfl _ hc r os h 10000 (by norm_num) (by rw [fed_one, List.length_map, List.length_range]; norm_num) hlen.le 1 (by norm_num) (by norm_num)
      (fun v hv => by obtain ⟨_, q, h1, h2⟩ := one_le _ _ _ v hv; exact ⟨q, h1, h2⟩) [(1, 0, 0)] pass_zero 0 le_rfl 0
      (fun i _ hi => by rw [one_seq _ _ _ i hi]; exact one_near i) 700 9999 (by rw [hlen]; decide) (by decide)
    refine ⟨_, h, y, h1, h2.trans ?_⟩
    have ha : atten (stopDb false (cfg .up 2 24 true .iir).precision) ≤ 1 / 10 ^ 6 := by
      rw [show ((stopDb false (cfg .up 2 24 true .iir).precision : ℕ) : ℝ) = 144 by
        rw [show stopDb false (cfg .up 2 24 true .iir).precision = 144 from rfl]; norm_num]
      rw [← atten120]
      unfold atten
      exact Real.rpow_le_rpow_of_exponent_le (by norm_num) (by norm_num)
    rw [show (cfg .up 2 24 true .iir).ratio = 2 from rfl, show imageFactor 2 = 1 by norm_num [imageFactor]]
    generalize atten (stopDb false (cfg .up 2 24 true .iir).precision) = w at ha ⊢
    simp only [amps, List.map_cons, List.map_nil, List.sum_cons, List.sum_nil, abs_one, cfg, peakMilli, iirRndNano, iirDriftNano]
    push_cast
    generalize (2 : ℝ) * 10 ^ 6 * (19 / 20) ^ 700 = z at hd ⊢
    linarith

end Panda
