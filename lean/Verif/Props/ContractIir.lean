import Verif.Props.Contract
import Verif.Props.SseLinear
import Verif.Proofs.ContractIir

/-!
# IIR resamplers with contracted multiplications and additions (C80)
-/

set_option linter.unusedSectionVars false

namespace Panda

open Examples

/-- Samples read from memory and their values. -/
private theorem vals_of_leaf {ch : Term binary32 → Fuse} {vs : List (Term binary32)} {M : ℚ} (hM : 0 ≤ M)
    (hx : ∀ v ∈ vs, ∃ i q, v = .leaf i (Fl.fin q) ∧ |q| ≤ M) :
    ∃ xs : List ℚ, Vals (Term.Val ch (2⁻¹ ^ 150)) vs xs ∧ (∀ n, |seq xs n| ≤ M) ∧ seq xs = fun i => ((seq vs i).eval ch).val := by
  obtain ⟨xs, hxs⟩ := exists_vals (V := Term.Val ch (2⁻¹ ^ 150)) (Term.Val.leaf (by positivity) 0 0) vs fun n hn => by
    obtain ⟨i, q, h1, -⟩ := hx vs[n] (List.getElem_mem hn)
    refine ⟨q, ?_⟩
    rw [show seq vs n = vs[n] by simp [seq, List.getD_eq_getElem?_getD, hn], h1]
    exact Term.Val.leaf (by positivity) i q
  refine ⟨xs, hxs, fun n => ?_, funext fun n => ?_⟩
  · rcases Nat.lt_or_ge n vs.length with h1 | h1
    · obtain ⟨i, q, h2, h3⟩ := hx vs[n] (List.getElem_mem h1)
      have h4 := (hxs.2 n).1
      rw [show seq vs n = vs[n] by simp [seq, List.getD_eq_getElem?_getD, h1], h2] at h4
      have h5 : q = seq xs n := Option.some.inj h4
      rwa [← h5]
    · rw [seq_ge (hxs.1 ▸ h1), abs_zero]
      exact hM
  · rw [(hxs.2 n).1]
    rfl

private theorem arith (ch : Term binary32 → Fuse) : IirArith binary32 (Term.Val ch (2⁻¹ ^ 150)) (2 * 2⁻¹ ^ 150) (2 ^ 127) :=
  Term.iirArith (binary32_acc (Ω := 2 ^ 127) (by norm_num)) rnd32_half ch

private theorem arith_η {M : ℚ} (hM0 : 2⁻¹ ^ 99 ≤ M) : 2 * 2⁻¹ ^ 150 ≤ τ32 * M := by
  refine le_trans ?_ (mul_le_mul_of_nonneg_left hM0 (by positivity))
  norm_num [τ32]

private theorem arith_Ω {M : ℚ} (hM : M ≤ 2 ^ 100) : 2 ^ 25 * M ≤ 2 ^ 127 := by
  refine le_trans (mul_le_mul_of_nonneg_left hM (by positivity)) ?_
  norm_num

/-- **C80** IIR, without SSE or with even numbers of coefficients: whichever multiplications and additions the compiler contracts, the bounds of
C68 and C69 hold, however long the session is. The input samples are read from memory (`Term.leaf`) and at most `M`. -/
theorem C80_rounding (cfg : Config) (hv : cfg.Valid) (hf : cfg.filter = .iir)
    (hsse : cfg.iirSse = true → ∀ k ∈ [2, 4, 8], k ≤ cfg.ratio → ∀ t, iirTable k cfg.precision = some t → t.1.length % 2 = 0)
    (ch : Term binary32 → Fuse)
    (ops : List (Op (Term binary32))) (hc : ∀ op ∈ ops, cfg.OpOk op) (r : Resampler (Term binary32)) (os : List (Option (Buf (Term binary32))))
    (h : cfg.session ops = .ok (r, os)) (M : ℚ) (hM0 : 2⁻¹ ^ 99 ≤ M) (hM : M ≤ 2 ^ 100)
    (hx : ∀ v ∈ fed ops, ∃ i q, v = .leaf i (Fl.fin q) ∧ |q| ≤ M) :
    ∀ n < (cfg.produced ops os).length, ∃ y, (seq (cfg.produced ops os) n).eval ch = Fl.fin y ∧
      |y| ≤ (peakMilli cfg.mode cfg.ratio cfg.precision : ℚ) / 1000 * M ∧
      |y - cfg.op (fun i => ((seq (fed ops) i).eval ch).val) n| ≤ (iirRndNano cfg.mode cfg.ratio cfg.precision : ℚ) / 10 ^ 9 * M := by
  intro n hn
  have hM0' : 0 ≤ M := le_trans (by positivity) hM0
  obtain ⟨xs, x1, x2, x3⟩ := vals_of_leaf (ch := ch) hM0' hx
  obtain ⟨zq, hz, z1⟩ := cfg.iir_round hv hf hsse (arith ch) hM0' (arith_η hM0) (arith_Ω hM) (Config.session_rel' hv hc h) x1 x2
  rw [← x3]
  exact ⟨_, (hz.2 n).1, z1 n (hz.1 ▸ hn)⟩

/-- **C80** IIR, every configuration, also SSE with an odd number of coefficients: in a session with at most `N ≤ 2^20` input samples and
output samples the rounding errors grow at most linearly, whichever multiplications and additions the compiler contracts. -/
theorem C80_linear (cfg : Config) (hv : cfg.Valid) (hf : cfg.filter = .iir) (ch : Term binary32 → Fuse)
    (ops : List (Op (Term binary32))) (hc : ∀ op ∈ ops, cfg.OpOk op) (r : Resampler (Term binary32)) (os : List (Option (Buf (Term binary32))))
    (h : cfg.session ops = .ok (r, os)) (N : ℕ) (hN : N ≤ 2 ^ 20) (hl1 : (fed ops).length ≤ N) (hl2 : (cfg.produced ops os).length ≤ N)
    (M : ℚ) (hM0 : 2⁻¹ ^ 99 ≤ M) (hM : M ≤ 2 ^ 100) (hx : ∀ v ∈ fed ops, ∃ i q, v = .leaf i (Fl.fin q) ∧ |q| ≤ M) :
    ∀ n < (cfg.produced ops os).length, ∃ y, (seq (cfg.produced ops os) n).eval ch = Fl.fin y ∧
      |y| ≤ ((peakMilli cfg.mode cfg.ratio cfg.precision : ℚ) / 1000 + N * ((iirDriftNano cfg.mode cfg.ratio cfg.precision : ℚ) / 10 ^ 9)) * M ∧
      |y - cfg.op (fun i => ((seq (fed ops) i).eval ch).val) n| ≤
        ((iirRndNano cfg.mode cfg.ratio cfg.precision : ℚ) / 10 ^ 9 + N * ((iirDriftNano cfg.mode cfg.ratio cfg.precision : ℚ) / 10 ^ 9)) * M := by
  intro n hn
  have hM0' : 0 ≤ M := le_trans (by positivity) hM0
  obtain ⟨xs, x1, x2, x3⟩ := vals_of_leaf (ch := ch) hM0' hx
  obtain ⟨zq, hz, z1⟩ := cfg.iir_drift hv hf (arith ch) hM0' (arith_η hM0) (arith_Ω hM) (Config.session_rel' hv hc h) N hN hl1 hl2 x1 x2
  rw [← x3]
  exact ⟨_, (hz.2 n).1, z1 n (hz.1 ▸ hn)⟩

/-- **C80** Two programs, compiled with different contractions, without SSE or with even numbers of coefficients, that are fed samples of
the same values, never differ by more than twice the bound. -/
theorem C80_two_programs (cfg cfg' : Config) (hmode : cfg'.mode = cfg.mode) (hratio : cfg'.ratio = cfg.ratio)
    (hprec : cfg'.precision = cfg.precision) (hf : cfg.filter = .iir) (hf' : cfg'.filter = .iir) (hv : cfg.Valid) (hv' : cfg'.Valid)
    (hsse : cfg.iirSse = true ∨ cfg'.iirSse = true →
      ∀ k ∈ [2, 4, 8], k ≤ cfg.ratio → ∀ t, iirTable k cfg.precision = some t → t.1.length % 2 = 0)
    (ch ch' : Term binary32 → Fuse)
    (ops ops' : List (Op (Term binary32))) (hc : ∀ op ∈ ops, cfg.OpOk op) (hc' : ∀ op ∈ ops', cfg'.OpOk op)
    (r r' : Resampler (Term binary32)) (os os' : List (Option (Buf (Term binary32))))
    (h : cfg.session ops = .ok (r, os)) (h' : cfg'.session ops' = .ok (r', os'))
    (he : (fed ops').map (Term.eval ch') = (fed ops).map (Term.eval ch))
    (M : ℚ) (hM0 : 2⁻¹ ^ 99 ≤ M) (hM : M ≤ 2 ^ 100) (hx : ∀ v ∈ fed ops, ∃ i q, v = .leaf i (Fl.fin q) ∧ |q| ≤ M)
    (hx' : ∀ v ∈ fed ops', ∃ i q, v = .leaf i (Fl.fin q) ∧ |q| ≤ M) :
    (cfg'.produced ops' os').length = (cfg.produced ops os).length ∧
    ∀ n < (cfg.produced ops os).length, ∃ y y', (seq (cfg.produced ops os) n).eval ch = Fl.fin y ∧
      (seq (cfg'.produced ops' os') n).eval ch' = Fl.fin y' ∧
      |y - y'| ≤ 2 * ((iirRndNano cfg.mode cfg.ratio cfg.precision : ℚ) / 10 ^ 9 * M) := by
  have hfl : (fed ops').length = (fed ops).length := by simpa using congrArg List.length he
  have hl : (cfg'.produced ops' os').length = (cfg.produced ops os).length := by
    rw [Config.produced_length hv (Config.session_rel' hv hc h), Config.produced_length hv' (Config.session_rel' hv' hc' h'), hfl]
    unfold Config.outLen
    rw [hmode, hratio]
  refine ⟨hl, fun n hn => ?_⟩
  obtain ⟨y, h1, -, h2⟩ := C80_rounding cfg hv hf (fun hs => hsse (.inl hs)) ch ops hc r os h M hM0 hM hx n hn
  obtain ⟨z, h3, -, h4⟩ := C80_rounding cfg' hv' hf' (fun hs => by rw [hratio, hprec]; exact hsse (.inr hs)) ch' ops' hc' r' os' h' M hM0 hM
    hx' n (by rwa [hl])
  have e : (fun i => ((seq (fed ops') i).eval ch').val) = fun i => ((seq (fed ops) i).eval ch).val := by
    funext i
    rw [eval_seq', eval_seq', he]
  rw [e, hmode, hratio, hprec, Config.op_congr hmode hratio hprec (by rw [hf, hf'])] at h4
  refine ⟨y, z, h1, h3, ?_⟩
  have := abs_sub_le y (cfg.op (fun i => ((seq (fed ops) i).eval ch).val) n) z
  rw [abs_sub_comm (cfg.op _ _)] at this
  linarith

/-! ## Concrete cases -/

/-- A compiler that contracts wherever the left operand is a product. -/
def fuseLeft : Term binary32 → Fuse
  | .add (.mul _ _) _ => .left
  | .sub (.mul _ _) _ => .left
  | _ => .none

/-- Contraction makes a difference: two samples of an allpass section with coefficient 4/5, input `1/3, 1` (rounded). -/
example :
    let a : ℕ → Term binary32 := fun i => .leaf i (Fl.fin (rnd32 ((2 * i + 1) / 3)))
    let y := (a 0 - 0) * Sample.ofDouble (4 / 5) + 0
    ((a 1 - y) * Sample.ofDouble (4 / 5) + a 0).eval fuseLeft ≠ ((a 1 - y) * Sample.ofDouble (4 / 5) + a 0).eval (fun _ => .none) := by
  decide +kernel

private theorem termCall_leaf : ∀ v ∈ fed [Op.process (termCall 100 800)], ∃ i q, v = .leaf i (Fl.fin q) ∧ |q| ≤ 40 := by
  intro v hv
  have hb : ∀ i < 100, |rnd32 (((i : ℕ) + 1) / 3)| ≤ 40 := by decide +kernel
  obtain ⟨i, hi, rfl⟩ := List.mem_map.1 (show v ∈ (List.range 100).map
    (fun i : ℕ => (Term.leaf i (Fl.fin (rnd32 (((i : ℕ) + 1) / 3))) : Term binary32)) from hv)
  exact ⟨i, _, rfl, hb i (List.mem_range.1 hi)⟩

/-- C80 for real sessions: 20 bits, ratio 4, with and without SSE, contracted and not; 24 bits, ratio 8, SSE (all stages have odd numbers of
coefficients), contracted. -/
example : (∃ q q', (cfg .up 4 20 true .iir).session [Op.process (termCall 100 800)] = .ok q ∧
    (cfg .up 4 20 false .iir).session [Op.process (termCall 100 800)] = .ok q' ∧
    ∀ n < 400, ∃ y y', (seq ((cfg .up 4 20 true .iir).produced [Op.process (termCall 100 800)] q.2) n).eval fuseLeft = Fl.fin y ∧
      (seq ((cfg .up 4 20 false .iir).produced [Op.process (termCall 100 800)] q'.2) n).eval (fun _ => .none) = Fl.fin y' ∧
      |y - y'| ≤ 7 / 1000) ∧
    ∃ q, (cfg .up 8 24 true .iir).session [Op.process (termCall 100 800)] = .ok q ∧
      ∀ n < 800, ∃ y, (seq ((cfg .up 8 24 true .iir).produced [Op.process (termCall 100 800)] q.2) n).eval fuseLeft = Fl.fin y ∧ |y| ≤ 932 ∧
        |y - (cfg .up 8 24 true .iir).op (fun i => ((seq (fed [Op.process (termCall 100 800)]) i).eval fuseLeft).val) n| ≤ 14 / 10 := by
  have hc : ∀ s, ∀ op ∈ [Op.process (termCall 100 800)], (cfg .up 4 20 s .iir).OpOk op := by
    intro s op hop
    simp only [List.mem_cons, List.not_mem_nil, or_false] at hop
    subst hop
    cases s <;> exact ⟨by decide, by decide, by decide, by decide, by decide, by decide, by decide⟩
  have hv : ∀ s, (cfg .up 4 20 s .iir).Valid := fun s => by cases s <;> exact ⟨by decide, by decide, by decide⟩
  have hc8 : ∀ op ∈ [Op.process (termCall 100 800)], (cfg .up 8 24 true .iir).OpOk op := by
    intro op hop
    simp only [List.mem_cons, List.not_mem_nil, or_false] at hop
    subst hop
    exact ⟨by decide, by decide, by decide, by decide, by decide, by decide, by decide⟩
  have hv8 : (cfg .up 8 24 true .iir).Valid := ⟨by decide, by decide, by decide⟩
  constructor
  · obtain ⟨r, os, h, -⟩ := C04_output_frame (cfg .up 4 20 true .iir) (hv true) _ (hc true)
    obtain ⟨r', os', h', -⟩ := C04_output_frame (cfg .up 4 20 false .iir) (hv false) _ (hc false)
    refine ⟨_, _, h, h', fun n hn => ?_⟩
    have hlen : ((cfg .up 4 20 true .iir).produced [Op.process (termCall 100 800)] os).length = 400 := by
      rw [Config.produced_length (hv true) (Config.session_rel' (hv true) (hc true) h)]
      rfl
    obtain ⟨y, y', h1, h2, h3⟩ := (C80_two_programs (cfg .up 4 20 true .iir) (cfg .up 4 20 false .iir) rfl rfl rfl rfl rfl (hv true) (hv false)
      (fun _ k hk hr t ht => by
        have : ∀ k ∈ [2, 4, 8], k ≤ 4 → ∀ t ∈ iirTable k 20, t.1.length % 2 = 0 := by decide +kernel
        exact this k hk hr t ht)
      fuseLeft (fun _ => .none) _ _ (hc true) (hc false) r r' os os' h h' rfl 40 (by norm_num) (by norm_num) termCall_leaf
      termCall_leaf).2 n (by rw [hlen]; exact hn)
    refine ⟨y, y', h1, h2, h3.trans ?_⟩
    norm_num [iirRndNano, cfg]
  · obtain ⟨r, os, h, -⟩ := C04_output_frame _ hv8 _ hc8
    have hl1 : (fed [Op.process (termCall 100 800)]).length ≤ 800 := by
      show ((List.range 100).map _).length ≤ 800
      simp
    have hlen : ((cfg .up 8 24 true .iir).produced [Op.process (termCall 100 800)] os).length = 800 := by
      rw [Config.produced_length hv8 (Config.session_rel' hv8 hc8 h)]
      rfl
    refine ⟨_, h, fun n hn => ?_⟩
    obtain ⟨y, h1, h2, h3⟩ := C80_linear _ hv8 rfl fuseLeft _ hc8 r os h 800 (by norm_num) hl1 hlen.le 40 (by norm_num) (by norm_num)
      termCall_leaf n (by rw [hlen]; exact hn)
    refine ⟨y, h1, h2.trans ?_, h3.trans ?_⟩
    · norm_num [peakMilli, iirDriftNano, cfg]
    · norm_num [iirRndNano, iirDriftNano, cfg]

end Panda
