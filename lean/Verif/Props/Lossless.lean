import Verif.Props.Energy
import Verif.Proofs.Lossless

/-!
# Upsampling loses nothing (C104)

IIR: exact arithmetic in an ordered field; constants accurate to `2^-24`. FIR: every arithmetic.
-/

set_option linter.unusedSectionVars false

namespace Panda

open Examples Finset

section Exact

variable {K : Type} [Field K] [LinearOrder K] [IsStrictOrderedRing K] [Sample K] [Accurate K]

/-- `a` followed by silence. -/
theorem seq_silence (a : List K) (Z i : ℕ) : seq (a ++ List.replicate Z 0) i = seq a i := by
  simp only [seq, List.getD_eq_getElem?_getD]
  by_cases hi : i < a.length
  · rw [List.getElem?_append_left hi]
  · rw [List.getElem?_append_right (by omega), List.getElem?_replicate, List.getElem?_eq_none (by omega : a.length ≤ i)]
    split <;> rfl

/-- **C104** IIR upsampling keeps distances: of two signals of the same length, each followed by enough silence, the
results differ by `ratio` times the energy by which the signals differ, up to an arbitrarily small `ε`. -/
theorem C104_isometry [Archimedean K] (cfg : Config) (hv : cfg.Valid) (hf : cfg.filter = .iir) (hm : cfg.mode = .up)
    (a b : List K) (hab : a.length = b.length) (ε : K) (hε : 0 < ε) :
    ∃ N, ∀ Z ≥ N, ∀ ops ops' : List (Op K), (∀ op ∈ ops, cfg.OpOk op) → (∀ op ∈ ops', cfg.OpOk op) →
      ∀ (r r' : Resampler K) (os os' : List (Option (Buf K))),
      cfg.session ops = .ok (r, os) → cfg.session ops' = .ok (r', os') →
      fed ops = a ++ List.replicate Z 0 → fed ops' = b ++ List.replicate Z 0 →
      |∑ n ∈ range (cfg.produced ops os).length, (seq (cfg.produced ops os) n - seq (cfg.produced ops' os') n) ^ 2 -
        (cfg.ratio : K) * ∑ i ∈ range a.length, (seq a i - seq b i) ^ 2| ≤ ε := by
  have hst : ∀ s ∈ cfg.stages (F := K), s.Stable true := by
    have := Config.stages_stable (K := K) hv hf
    rwa [hm] at this
  have hlen := Config.stages_length (K := K) hv
  have hr : (2 : K) ^ (cfg.stages (F := K)).length = (cfg.ratio : K) := by exact_mod_cast hlen
  set x : ℕ → K := fun i => 1 * seq a i + -1 * seq b i with hx
  have h0 : ∀ i ≥ a.length, x i = 0 := by
    intro i hi
    simp only [hx]
    rw [seq_ge hi, seq_ge (hab ▸ hi)]
    ring
  have ht : TendsTo x 0 := fun ε hε => ⟨a.length, fun n hn => by rw [h0 n hn]; simpa using hε.le⟩
  obtain ⟨N, hN⟩ := cascade_loss Accurate.half hst ht ε hε
  refine ⟨N, fun Z hZ ops ops' hc hc' r r' os os' h h' hfed hfed' => ?_⟩
  obtain ⟨hl, ho⟩ := Config.session_op hv hc h
  obtain ⟨hl', ho'⟩ := Config.session_op hv hc' h'
  have hsa : seq (fed ops) = seq a := by funext i; rw [hfed, seq_silence]
  have hsb : seq (fed ops') = seq b := by funext i; rw [hfed', seq_silence]
  have hL : (cfg.produced ops os).length = 2 ^ (cfg.stages (F := K)).length * (a.length + Z) := by
    rw [hl, hlen, hfed]
    simp only [Config.outLen, hm, List.length_append, List.length_replicate]
    ring
  have hL' : (cfg.produced ops' os').length = (cfg.produced ops os).length := by
    rw [hl, hl', hfed, hfed']
    simp [hab]
  have e1 : ∑ n ∈ range (cfg.produced ops os).length, (seq (cfg.produced ops os) n - seq (cfg.produced ops' os') n) ^ 2 =
      energy (cascadeOp (cfg.stages (F := K)) x) (2 ^ (cfg.stages (F := K)).length * (a.length + Z)) := by
    unfold energy
    rw [← hL]
    refine sum_congr rfl fun n hn => ?_
    have hn := mem_range.1 hn
    rw [ho n hn, ho' n (hL' ▸ hn), hsa, hsb]
    have := congrFun (Config.op_lin cfg 1 (-1) (seq a) (seq b)) n
    rw [show cascadeOp (cfg.stages (F := K)) x n = cfg.op x n from rfl, hx, this]
    ring
  have e2 : energy x (a.length + Z) = ∑ i ∈ range a.length, (seq a i - seq b i) ^ 2 := by
    unfold energy
    rw [sum_range_add, sum_eq_zero (s := range Z) (fun i _ => by rw [h0 _ (by omega)]; ring), add_zero]
    refine sum_congr rfl fun i _ => ?_
    simp only [hx]
    ring
  have h1 := hN (a.length + Z) (by omega)
  beta_reduce at h1
  rw [sub_zero, hr, e2] at h1
  rw [e1, abs_sub_comm]
  exact h1

/-- **C104** The energy of what an IIR upsampler produces tends to `ratio` times the energy of what it was given (C23: it is
never more). -/
theorem C104_energy [Archimedean K] (cfg : Config) (hv : cfg.Valid) (hf : cfg.filter = .iir) (hm : cfg.mode = .up)
    (a : List K) (ε : K) (hε : 0 < ε) :
    ∃ N, ∀ Z ≥ N, ∀ ops : List (Op K), (∀ op ∈ ops, cfg.OpOk op) → ∀ (r : Resampler K) (os : List (Option (Buf K))),
      cfg.session ops = .ok (r, os) → fed ops = a ++ List.replicate Z 0 →
      (cfg.ratio : K) * (a.map fun x => x ^ 2).sum - ε ≤ ((cfg.produced ops os).map fun y => y ^ 2).sum := by
  have hst : ∀ s ∈ cfg.stages (F := K), s.Stable true := by
    have := Config.stages_stable (K := K) hv hf
    rwa [hm] at this
  have hlen := Config.stages_length (K := K) hv
  have hr : (2 : K) ^ (cfg.stages (F := K)).length = (cfg.ratio : K) := by exact_mod_cast hlen
  have ht : TendsTo (seq a) 0 := fun ε hε => ⟨a.length, fun n hn => by rw [seq_ge hn]; simpa using hε.le⟩
  obtain ⟨N, hN⟩ := cascade_loss Accurate.half hst ht ε hε
  refine ⟨N, fun Z hZ ops hc r os h hfed => ?_⟩
  obtain ⟨hl, ho⟩ := Config.session_op hv hc h
  have hsa : seq (fed ops) = seq a := by funext i; rw [hfed, seq_silence]
  have hL : (cfg.produced ops os).length = 2 ^ (cfg.stages (F := K)).length * (a.length + Z) := by
    rw [hl, hlen, hfed]
    simp only [Config.outLen, hm, List.length_append, List.length_replicate]
    ring
  have e1 : ((cfg.produced ops os).map fun y => y ^ 2).sum =
      energy (cascadeOp (cfg.stages (F := K)) (seq a)) (2 ^ (cfg.stages (F := K)).length * (a.length + Z)) := by
    rw [← sum_seq, ← hL]
    refine sum_congr rfl fun n hn => ?_
    rw [ho n (mem_range.1 hn), hsa]
    rfl
  have e2 : energy (seq a) (a.length + Z) = (a.map fun x => x ^ 2).sum := by
    unfold energy
    rw [sum_range_add, sum_eq_zero (s := range Z) (fun i _ => by rw [seq_ge (by omega)]; ring), add_zero, ← sum_seq]
  have h1 := (abs_le.1 (hN (a.length + Z) (by omega))).2
  beta_reduce at h1
  rw [sub_zero, hr, e2] at h1
  rw [e1]
  linarith

/-- **C104** The output of an IIR upsampler determines its input: two sessions that have produced the same were given the
same. -/
theorem C104_injective (cfg : Config) (hv : cfg.Valid) (hf : cfg.filter = .iir) (hm : cfg.mode = .up)
    (ops ops' : List (Op K)) (hc : ∀ op ∈ ops, cfg.OpOk op) (hc' : ∀ op ∈ ops', cfg.OpOk op)
    (r r' : Resampler K) (os os' : List (Option (Buf K)))
    (h : cfg.session ops = .ok (r, os)) (h' : cfg.session ops' = .ok (r', os'))
    (he : cfg.produced ops os = cfg.produced ops' os') : fed ops = fed ops' := by
  obtain ⟨hl, ho⟩ := Config.session_op hv hc h
  obtain ⟨hl', ho'⟩ := Config.session_op hv hc' h'
  have hlen := Config.stages_length (K := K) hv
  have hpos : 0 < cfg.ratio := by rw [← hlen]; positivity
  have hll : (fed ops).length = (fed ops').length := by
    rw [he, hl'] at hl
    simp only [Config.outLen, hm] at hl
    exact (Nat.eq_of_mul_eq_mul_right hpos hl).symm
  have := cascade_inj (Config.stages_inv (K := K) hv hf hm) (x := seq (fed ops)) (y := seq (fed ops')) (N := (fed ops).length) (by
    intro n hn
    have hn : n < (cfg.produced ops os).length := by
      rw [hl]
      simp only [Config.outLen, hm]
      rwa [hlen, mul_comm] at hn
    have h1 := ho n hn
    have h2 := ho' n (he ▸ hn)
    rw [he] at h1
    exact h1.symm.trans h2)
  refine List.ext_getElem hll fun i hi hi' => ?_
  have h1 := this i hi
  rwa [seq_lt hi, seq_lt hi'] at h1

end Exact

section Any

variable {F : Type} [Zero F] [One F] [Add F] [Sub F] [Mul F] [Sample F]

/-- **C104** The output of a FIR upsampler determines its input, but for the samples that are still on their way
(`delay()`), whatever the rounding. -/
theorem C104_fir (cfg : Config) (hv : cfg.Valid) (hf : cfg.filter = .fir) (hm : cfg.mode = .up)
    (ops ops' : List (Op F)) (hc : ∀ op ∈ ops, cfg.OpOk op) (hc' : ∀ op ∈ ops', cfg.OpOk op)
    (r r' : Resampler F) (os os' : List (Option (Buf F)))
    (h : cfg.session ops = .ok (r, os)) (h' : cfg.session ops' = .ok (r', os'))
    (he : cfg.produced ops os = cfg.produced ops' os') :
    ∃ d : Nat, r.delay = .ok (d : Rat) ∧
      ∀ k, d + cfg.ratio * k < (cfg.produced ops os).length → seq (fed ops) k = seq (fed ops') k := by
  obtain ⟨d, hd, hs⟩ := C12_samples_at_delay cfg hv hf hm ops hc r os h
  obtain ⟨d', hd', hs'⟩ := C12_samples_at_delay cfg hv hf hm ops' hc' r' os' h'
  have hr : r.delay = .ok cfg.totalDelay := Config.Reachable.delay hv ⟨ops, os, hc, h⟩
  have hr' : r'.delay = .ok cfg.totalDelay := Config.Reachable.delay hv ⟨ops', os', hc', h'⟩
  have e : d = d' := by
    rw [hr] at hd
    rw [hr', hd, Except.ok.injEq] at hd'
    exact_mod_cast hd'
  subst e
  refine ⟨d, hd, fun k hk => ?_⟩
  rw [← hs k hk, he, hs' k (he ▸ hk)]

end Any

/-- Real sessions for C104: two runs by 4 with 10 samples each, in one block and in two; what they are given differs, so what
they produce differs. -/
example : ∃ q q', (cfg .up 4 16 true .iir).session [Op.process (call 10 40)] = .ok q ∧
    (cfg .up 4 16 true .iir).session [Op.process (call 5 20), .process (call 5 20)] = .ok q' ∧
    (cfg .up 4 16 true .iir).produced [Op.process (call 10 40)] q.2 ≠
      (cfg .up 4 16 true .iir).produced [Op.process (call 5 20), .process (call 5 20)] q'.2 := by
  have hv : (cfg .up 4 16 true .iir).Valid := ⟨by decide, by decide, by decide⟩
  have ok : ∀ n m, n ∈ [5, 10] → m = 4 * n → (cfg .up 4 16 true .iir).CallOk (call n m) := by
    intro n m hn hm
    simp only [List.mem_cons, List.not_mem_nil, or_false] at hn
    rcases hn with rfl | rfl <;> subst hm <;> exact ⟨by decide, by decide, by decide, by decide, by decide, by decide, by decide⟩
  have hc : ∀ op ∈ [Op.process (call 10 40)], (cfg .up 4 16 true .iir).OpOk op := by
    intro op hop
    simp only [List.mem_cons, List.not_mem_nil, or_false] at hop
    subst hop
    exact ok 10 40 (by simp) rfl
  have hc' : ∀ op ∈ [Op.process (call 5 20), .process (call 5 20)], (cfg .up 4 16 true .iir).OpOk op := by
    intro op hop
    simp only [List.mem_cons, List.not_mem_nil, or_false, or_self] at hop
    subst hop
    exact ok 5 20 (by simp) rfl
  obtain ⟨r, os, h, -⟩ := C04_output_frame _ hv _ hc
  obtain ⟨r', os', h', -⟩ := C04_output_frame _ hv _ hc'
  refine ⟨_, _, h, h', fun he => ?_⟩
  have := accurate_rat
  have := C104_injective (K := Rat) (cfg .up 4 16 true .iir) hv rfl rfl _ _ hc hc' r r' os os' h h' he
  exact absurd this (by decide +kernel)

/-- For any two signals of the same length, and any amount of silence, there are sessions as in C104: with the distance they
have, up to one millionth. -/
example (a b : List Rat) (hab : a.length = b.length) (ha : a.length < 2 ^ 20) : ∃ N, ∀ Z ≥ N, Z < 2 ^ 20 →
    ∃ (ops ops' : List (Op Rat)) (q q' : Resampler Rat × List (Option (Buf Rat))),
    (cfg .up 2 24 true .iir).session ops = .ok q ∧ (cfg .up 2 24 true .iir).session ops' = .ok q' ∧
    fed ops = a ++ List.replicate Z 0 ∧ fed ops' = b ++ List.replicate Z 0 ∧
    |∑ n ∈ range ((cfg .up 2 24 true .iir).produced ops q.2).length,
      (seq ((cfg .up 2 24 true .iir).produced ops q.2) n - seq ((cfg .up 2 24 true .iir).produced ops' q'.2) n) ^ 2 -
      (2 : ℕ) * ∑ i ∈ range a.length, (seq a i - seq b i) ^ 2| ≤ 1 / 1000000 := by
  have hv : (cfg .up 2 24 true .iir).Valid := ⟨by decide, by decide, by decide⟩
  have := accurate_rat
  obtain ⟨N, hN⟩ := C104_isometry (K := Rat) (cfg .up 2 24 true .iir) hv rfl rfl a b hab (1 / 1000000) (by norm_num)
  refine ⟨N, fun Z hZ hlt => ?_⟩
  have run : ∀ l : List Rat, l.length < 2 ^ 21 → ∃ (ops : List (Op Rat)) (r : Resampler Rat) (os : List (Option (Buf Rat))),
      (∀ op ∈ ops, (cfg .up 2 24 true .iir).OpOk op) ∧ (cfg .up 2 24 true .iir).session ops = .ok (r, os) ∧ fed ops = l := by
    intro l hl
    let c : Call Rat := { st := someStack, input := { addr := 4, len := l.length, get := seq l }, n := l.length, output := outBuf (2 * l.length) }
    have hc : ∀ op ∈ [Op.process c], (cfg .up 2 24 true .iir).OpOk op := by
      intro op hop
      simp only [List.mem_cons, List.not_mem_nil, or_false] at hop
      subst hop
      exact ⟨by show l.length < _; omega, le_rfl, by show l.length * 2 ≤ 2 * l.length; omega, by simp [cfg], by simp [cfg],
        fun _ _ => Or.inl ⟨by decide, by decide⟩, by simp [cfg]⟩
    obtain ⟨r, os, h, -⟩ := C04_output_frame _ hv _ hc
    refine ⟨_, r, os, hc, h, ?_⟩
    have e : fed [Op.process c] = c.samples := rfl
    rw [e]
    refine List.ext_getElem (by simp [Call.samples, c]) fun i hi hi' => ?_
    simp only [Call.samples, c, List.getElem_map, List.getElem_range]
    exact seq_lt hi'
  obtain ⟨ops, r, os, hc, h, hfed⟩ := run (a ++ List.replicate Z 0) (by simp; omega)
  obtain ⟨ops', r', os', hc', h', hfed'⟩ := run (b ++ List.replicate Z 0) (by simp; omega)
  exact ⟨ops, ops', _, _, h, h', hfed, hfed', hN Z hZ ops ops' hc hc' r r' os os' h h' hfed hfed'⟩

end Panda
