import Verif.Props.Saturate
import Verif.Props.Lossless
import Verif.Proofs.AllPassTrip

/-!
# Oversampling with IIR filters: exact statements for all signals (C105)

Exact arithmetic in an ordered field; constants accurate to `2^-24`.
-/

set_option linter.unusedSectionVars false

namespace Panda

open Examples Finset

variable {K : Type} [Field K] [LinearOrder K] [IsStrictOrderedRing K] [Sample K] [Accurate K]

/-- The coefficients of the filter for a factor of 2, at the lowest rate. -/
def tripCoefs (K : Type) [Sample K] (precision : ℕ) : List K :=
  ((iirTable 2 precision).getD ([], ⟨0, 0⟩)).1.map fun d => Sample.ofDouble d.toRat

private theorem stage2 {cfg : Config} (hv : cfg.Valid) (hf : cfg.filter = .iir) (h2 : cfg.ratio = 2) :
    cfg.stages (F := K) = match cfg.mode with
      | .up => [.iirUp cfg.iirSse (tripCoefs K cfg.precision)]
      | .down => [.iirDown cfg.iirSse (tripCoefs K cfg.precision)] := by
  obtain ⟨t, ht⟩ := Option.isSome_iff_exists.1 ((tables_exist (k := 2) (by simp) hv.precision).2 (hv.iir hf))
  rw [Config.stages_two h2]
  unfold Config.stage tripCoefs
  rw [ht, hf]
  cases cfg.mode <;> rfl

private theorem coefs_ok {cu : Config} (hu : cu.Valid) (hf : cu.filter = .iir) (hm : cu.mode = .up) (h2 : cu.ratio = 2) :
    ∀ a ∈ tripCoefs K cu.precision, |a| < 1 ∧ a ≠ 0 := by
  intro a ha
  have h1 := Config.stages_stable (K := K) hu hf
  have h3 := Config.stages_inv (K := K) hu hf hm
  rw [stage2 hu hf h2, hm] at h1 h3
  have h1 := (h1 _ (List.mem_singleton_self _)).2
  have h3 := h3 _ (List.mem_singleton_self _)
  obtain ⟨i, hi, rfl⟩ := List.getElem_of_mem ha
  have h1 := h1 i
  have h3 := h3 i hi
  rw [seq_lt hi] at h1 h3
  exact ⟨(sq_lt_one_iff_abs_lt_one _).1 h1, h3⟩

/-- Up by 2 and down by 2 with the same precision. -/
structure Trip (cu cd : Config) : Prop where
  up : cu.Valid
  down : cd.Valid
  iirUp : cu.filter = .iir
  iirDown : cd.filter = .iir
  modeUp : cu.mode = .up
  modeDown : cd.mode = .down
  ratioUp : cu.ratio = 2
  ratioDown : cd.ratio = 2
  precision : cd.precision = cu.precision

/-- **C105** Upsampling by 2 and downsampling by 2 with IIR filters of the same precision is exactly an allpass filter: a chain
of first order sections at the lower rate, one for each coefficient. Images and aliasing cancel, for all signals. (One of the
resamplers may use SSE.) -/
theorem C105_all_pass (cu cd : Config) (ht : Trip cu cd)
    (ops : List (Op K)) (hc : ∀ op ∈ ops, cu.OpOk op) (r : Resampler K) (os : List (Option (Buf K)))
    (h : cu.session ops = .ok (r, os))
    (ops' : List (Op K)) (hc' : ∀ op ∈ ops', cd.OpOk op) (r' : Resampler K) (os' : List (Option (Buf K)))
    (h' : cd.session ops' = .ok (r', os')) (hfed : fed ops' = cu.produced ops os) :
    (cd.produced ops' os').length = (fed ops).length ∧
    ∀ m < (fed ops).length, seq (cd.produced ops' os') m = allpassChain (tripCoefs K cu.precision) (seq (fed ops)) m := by
  obtain ⟨hl, ho⟩ := Config.session_op ht.up hc h
  obtain ⟨hl', -⟩ := Config.session_op ht.down hc' h'
  have e : (cd.produced ops' os').length = (fed ops).length := by
    rw [hl', hfed, hl]
    simp only [Config.outLen, ht.modeUp, ht.modeDown, ht.ratioUp, ht.ratioDown]
    omega
  refine ⟨e, fun m hm => ?_⟩
  rw [Config.session_op_of ht.down hc' h' (x := cu.op (seq (fed ops))) (fun i hi => by
    rw [hfed] at hi ⊢
    exact (ho i hi).symm) m (by omega)]
  unfold Config.op
  rw [stage2 ht.down ht.iirDown ht.ratioDown, stage2 ht.up ht.iirUp ht.ratioUp, ht.modeUp, ht.modeDown, ht.precision]
  simp only [cascadeOp, Stage.op, Accurate.half]
  rw [iirTrip_eq]

/-- **C105** The round trip by 2 determines its input: two round trips with the same result began with the same samples. -/
theorem C105_injective (cu cd : Config) (ht : Trip cu cd)
    (a a' : List (Op K)) (ha : ∀ op ∈ a, cu.OpOk op) (ha' : ∀ op ∈ a', cu.OpOk op)
    (r r' : Resampler K) (os os' : List (Option (Buf K))) (h : cu.session a = .ok (r, os)) (h' : cu.session a' = .ok (r', os'))
    (b b' : List (Op K)) (hb : ∀ op ∈ b, cd.OpOk op) (hb' : ∀ op ∈ b', cd.OpOk op)
    (s s' : Resampler K) (qs qs' : List (Option (Buf K))) (k : cd.session b = .ok (s, qs)) (k' : cd.session b' = .ok (s', qs'))
    (hfed : fed b = cu.produced a os) (hfed' : fed b' = cu.produced a' os')
    (he : cd.produced b qs = cd.produced b' qs') : fed a = fed a' := by
  obtain ⟨l, e⟩ := C105_all_pass cu cd ht a ha r os h b hb s qs k hfed
  obtain ⟨l', e'⟩ := C105_all_pass cu cd ht a' ha' r' os' h' b' hb' s' qs' k' hfed'
  rw [he] at l e
  have hll : (fed a).length = (fed a').length := l.symm.trans l'
  have := allpassChain_inj (fun c hc => (coefs_ok ht.up ht.iirUp ht.modeUp ht.ratioUp c hc).2) (x := seq (fed a)) (y := seq (fed a'))
    (N := (fed a).length) fun n hn => (e n hn).symm.trans (e' n (hll ▸ hn))
  refine List.ext_getElem hll fun i hi hi' => ?_
  have h1 := this i hi
  rwa [seq_lt hi, seq_lt hi'] at h1

/-- **C105** The round trip by 2 keeps distances, and thus the energy: two signals of the same length, each followed by enough
silence, differ as much after the round trip as before. -/
theorem C105_isometry [Archimedean K] (cu cd : Config) (ht : Trip cu cd) (x x' : List K) (hx : x.length = x'.length) (ε : K) (hε : 0 < ε) :
    ∃ N, ∀ Z ≥ N, ∀ a a' : List (Op K), (∀ op ∈ a, cu.OpOk op) → (∀ op ∈ a', cu.OpOk op) →
      ∀ (r r' : Resampler K) (os os' : List (Option (Buf K))), cu.session a = .ok (r, os) → cu.session a' = .ok (r', os') →
      ∀ b b' : List (Op K), (∀ op ∈ b, cd.OpOk op) → (∀ op ∈ b', cd.OpOk op) →
      ∀ (s s' : Resampler K) (qs qs' : List (Option (Buf K))), cd.session b = .ok (s, qs) → cd.session b' = .ok (s', qs') →
      fed b = cu.produced a os → fed b' = cu.produced a' os' →
      fed a = x ++ List.replicate Z 0 → fed a' = x' ++ List.replicate Z 0 →
      |∑ n ∈ range (cd.produced b qs).length, (seq (cd.produced b qs) n - seq (cd.produced b' qs') n) ^ 2 -
        ∑ i ∈ range x.length, (seq x i - seq x' i) ^ 2| ≤ ε := by
  set y : ℕ → K := fun i => 1 * seq x i + -1 * seq x' i with hy
  have h0 : ∀ i ≥ x.length, y i = 0 := by
    intro i hi
    simp only [hy]
    rw [seq_ge hi, seq_ge (hx ▸ hi)]
    ring
  have hz : TendsTo y 0 := fun ε hε => ⟨x.length, fun n hn => by rw [h0 n hn]; simpa using hε.le⟩
  obtain ⟨N, hN⟩ := allpassChain_loss (fun c hc => (coefs_ok (K := K) ht.up ht.iirUp ht.modeUp ht.ratioUp c hc).1) hz ε hε
  refine ⟨N, fun Z hZ a a' ha ha' r r' os os' h h' b b' hb hb' s s' qs qs' k k' hfed hfed' hf hf' => ?_⟩
  obtain ⟨l, e⟩ := C105_all_pass cu cd ht a ha r os h b hb s qs k hfed
  obtain ⟨l', e'⟩ := C105_all_pass cu cd ht a' ha' r' os' h' b' hb' s' qs' k' hfed'
  have hsx : seq (fed a) = seq x := by funext i; rw [hf, seq_silence]
  have hsx' : seq (fed a') = seq x' := by funext i; rw [hf', seq_silence]
  have hL : (fed a).length = x.length + Z := by rw [hf]; simp
  have hL' : (fed a').length = x.length + Z := by rw [hf', hx]; simp
  have e1 : ∑ n ∈ range (cd.produced b qs).length, (seq (cd.produced b qs) n - seq (cd.produced b' qs') n) ^ 2 =
      energy (allpassChain (tripCoefs K cu.precision) y) (x.length + Z) := by
    unfold energy
    rw [l, hL]
    refine sum_congr rfl fun n hn => ?_
    have hn := mem_range.1 hn
    rw [e n (hL ▸ hn), e' n (hL' ▸ hn), hsx, hsx']
    have := congrFun (allpassChain_lin (tripCoefs K cu.precision) 1 (-1) (seq x) (seq x')) n
    rw [hy, this]
    ring
  have e2 : energy y (x.length + Z) = ∑ i ∈ range x.length, (seq x i - seq x' i) ^ 2 := by
    unfold energy
    rw [sum_range_add, sum_eq_zero (s := range Z) (fun i _ => by rw [h0 _ (by omega)]; ring), add_zero]
    refine sum_congr rfl fun i _ => ?_
    simp only [hy]
    ring
  have h1 := hN (x.length + Z) (by omega)
  beta_reduce at h1
  rw [sub_zero, e2] at h1
  rw [e1, abs_sub_comm]
  exact h1

namespace Tool

/-- **C105** Oversampling with IIR filters, all ratios and precisions: upsampling, a function with `|g x| ≤ L |x|`, downsampling. At any time the energy of
the output is at most `L ^ 2` times the energy of the input (`g x = x`: the round trip never adds energy). -/
theorem C105_saturation (cu cd : Config) (hs : SatOk cu cd) (hfu : cu.filter = .iir) (hfd : cd.filter = .iir) (g : K → K) (L : K)
    (hg : ∀ x, |g x| ≤ L * |x|) (cs : List (SatCall K)) (hc : ∀ c ∈ cs, c.Ok cu cd)
    (os : List (Buf K)) (h : satSession cu cd g cs = .ok os) :
    ((satOut cs os).map fun y => y ^ 2).sum ≤ L ^ 2 * ((satIn cs).map fun x => x ^ 2).sum := by
  obtain ⟨hl, ho⟩ := C98_exact cu cd hs g cs hc os h
  have he : ((satOut cs os).map fun y => y ^ 2).sum = energy (cd.op (fun j => g (cu.op (seq (satIn cs)) j))) (satIn cs).length := by
    rw [← sum_seq, ← hl]
    exact sum_congr rfl fun n hn => by rw [ho n (mem_range.1 hn)]
  have hstu := Config.stages_stable (K := K) hs.ups hfu
  have hstd := Config.stages_stable (K := K) hs.downs hfd
  rw [hs.up] at hstu
  rw [hs.down] at hstd
  have hru := Config.stages_length (K := K) hs.ups
  have hrd := Config.stages_length (K := K) hs.downs
  have hstd : ∀ s ∈ cd.stages (F := K), s.Stable false := hstd
  have hu := cascade_energy_up hstu (seq (satIn cs)) (satIn cs).length
  have hd := cascade_energy_down Accurate.half hstd (fun j => g (cu.op (seq (satIn cs)) j)) (satIn cs).length
  have hru' : (2 : K) ^ (cu.stages (F := K)).length = (cu.ratio : K) := by exact_mod_cast hru
  have hrd' : (2 : K) ^ (cd.stages (F := K)).length = (cu.ratio : K) := by
    rw [← hs.ratio]
    exact_mod_cast hrd
  rw [hru', hru] at hu
  rw [hrd', hrd, hs.ratio] at hd
  have hr : (0 : K) < cu.ratio := by rw [← hru']; positivity
  have hgE : energy (fun j => g (cu.op (seq (satIn cs)) j)) (cu.ratio * (satIn cs).length) ≤
      L ^ 2 * energy (cu.op (seq (satIn cs))) (cu.ratio * (satIn cs).length) := by
    unfold energy
    rw [mul_sum]
    refine sum_le_sum fun n _ => ?_
    have := hg (cu.op (seq (satIn cs)) n)
    have h2 := mul_self_le_mul_self (abs_nonneg _) this
    rw [abs_mul_abs_self, mul_mul_mul_comm, abs_mul_abs_self] at h2
    nlinarith
  have hin : ((satIn cs).map fun x => x ^ 2).sum = energy (seq (satIn cs)) (satIn cs).length := (sum_seq _ fun x => x ^ 2).symm
  rw [he, hin]
  refine le_of_mul_le_mul_left (a := (cu.ratio : K)) (hd.trans (hgE.trans ?_)) hr
  calc _ ≤ L ^ 2 * (cu.ratio * energy (seq (satIn cs)) (satIn cs).length) := mul_le_mul_of_nonneg_left hu (sq_nonneg _)
    _ = _ := by ring

end Tool

/-- The precondition of C105 for two resamplers that exist, one with SSE and one without. -/
example : Trip (cfg .up 2 16 true .iir) (cfg .down 2 16 false .iir) :=
  ⟨⟨by decide, by decide, by decide⟩, ⟨by decide, by decide, by decide⟩, rfl, rfl, rfl, rfl, rfl, rfl, rfl⟩

/-- Round trips exist for every signal, with 3 sections for 8 bits; here with rational constants. -/
example (x : List Rat) (h0 : 0 < x.length) (hx : x.length < 2 ^ 20) : ∃ (a b : List (Op Rat)) (q q' : Resampler Rat × List (Option (Buf Rat))),
    (cfg .up 2 8 true .iir).session a = .ok q ∧ (cfg .down 2 8 false .iir).session b = .ok q' ∧ fed a = x ∧
    fed b = (cfg .up 2 8 true .iir).produced a q.2 ∧ (tripCoefs Rat 8).length = 3 ∧
    ∀ m < x.length, seq ((cfg .down 2 8 false .iir).produced b q'.2) m = allpassChain (tripCoefs Rat 8) (seq x) m := by
  have hu : (cfg .up 2 8 true .iir).Valid := ⟨by decide, by decide, by decide⟩
  have hd : (cfg .down 2 8 false .iir).Valid := ⟨by decide, by decide, by decide⟩
  have := accurate_rat
  have samples : ∀ (l : List Rat) (o : Buf Rat),
      fed [Op.process { st := someStack, input := { addr := 4, len := l.length, get := seq l }, n := l.length, output := o }] = l := by
    intro l o
    have e : fed [Op.process { st := someStack, input := { addr := 4, len := l.length, get := seq l }, n := l.length, output := o }] =
        (List.range l.length).map (seq l) := rfl
    rw [e, range_map_seq]
  let a : List (Op Rat) := [Op.process { st := someStack, input := { addr := 4, len := x.length, get := seq x }, n := x.length, output := outBuf (2 * x.length) }]
  have ha : ∀ op ∈ a, (cfg .up 2 8 true .iir).OpOk op := by
    intro op hop
    simp only [a, List.mem_cons, List.not_mem_nil, or_false] at hop
    subst hop
    exact ⟨by show x.length < _; omega, le_rfl, by show x.length * 2 ≤ 2 * x.length; omega, by simp [cfg], by simp [cfg],
      fun _ _ => Or.inl ⟨by decide, by decide⟩, by simp [cfg]⟩
  obtain ⟨r, os, h, -⟩ := C04_output_frame _ hu _ ha
  obtain ⟨l, -⟩ := Config.session_op hu ha h
  rw [samples x _] at l
  generalize hy : (cfg .up 2 8 true .iir).produced a os = y at l
  have l : y.length = x.length * 2 := l
  let b : List (Op Rat) := [Op.process { st := someStack, input := { addr := 4, len := y.length, get := seq y }, n := y.length, output := outBuf (2 * y.length) }]
  have hb : ∀ op ∈ b, (cfg .down 2 8 false .iir).OpOk op := by
    intro op hop
    simp only [b, List.mem_cons, List.not_mem_nil, or_false] at hop
    subst hop
    exact ⟨by show y.length < _; omega, le_rfl, by show y.length / 2 ≤ 2 * y.length; omega, by show _ → y.length % 2 = 0; omega,
      by simp [cfg], fun _ _ => Or.inr (by show 0 < y.length; omega), fun _ _ h => absurd h (by decide)⟩
  obtain ⟨r', os', h', -⟩ := C04_output_frame _ hd _ hb
  have ht : Trip (cfg .up 2 8 true .iir) (cfg .down 2 8 false .iir) := ⟨hu, hd, rfl, rfl, rfl, rfl, rfl, rfl, rfl⟩
  have hfb : fed b = y := samples y _
  obtain ⟨-, e⟩ := C105_all_pass (K := Rat) _ _ ht a ha r os h b hb r' os' h' (hfb.trans hy.symm)
  rw [show fed a = x from samples x _] at e
  exact ⟨a, b, _, _, h, h', samples x _, hfb.trans hy.symm, by decide +kernel, e⟩

end Panda
