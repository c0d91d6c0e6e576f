import Verif.Props.Lossless
import Verif.Proofs.Integral

/-!
# IIR resamplers keep the integral of a signal (C109)

Exact arithmetic in an ordered field; constants accurate to `2^-24`.
-/

set_option linter.unusedSectionVars false

namespace Panda

open Examples Finset

section Exact

variable {K : Type} [Field K] [LinearOrder K] [IsStrictOrderedRing K] [Sample K] [Accurate K]

/-- **C109** The sum of what an IIR upsampler has produced is `ratio` times the sum of the signal it was given, up to an
arbitrarily small `ε`, if the signal is followed by enough silence. -/
theorem C109_up [Archimedean K] (cfg : Config) (hv : cfg.Valid) (hf : cfg.filter = .iir) (hm : cfg.mode = .up)
    (a : List K) (ε : K) (hε : 0 < ε) :
    ∃ N, ∀ Z ≥ N, ∀ ops : List (Op K), (∀ op ∈ ops, cfg.OpOk op) → ∀ (r : Resampler K) (os : List (Option (Buf K))),
      cfg.session ops = .ok (r, os) → fed ops = a ++ List.replicate Z 0 →
      |(cfg.produced ops os).sum - (cfg.ratio : K) * a.sum| ≤ ε := by
  have hst : ∀ s ∈ cfg.stages (F := K), s.Stable true := by
    have := Config.stages_stable (K := K) hv hf
    rwa [hm] at this
  have hlen := Config.stages_length (K := K) hv
  have hr : (2 : K) ^ (cfg.stages (F := K)).length = (cfg.ratio : K) := by exact_mod_cast hlen
  have ht : TendsTo (seq a) 0 := fun ε hε => ⟨a.length, fun n hn => by rw [seq_ge hn]; simpa using hε.le⟩
  obtain ⟨N, hN⟩ := cascade_psum_up Accurate.half hst ht ε hε
  refine ⟨N, fun Z hZ ops hc r os h hfed => ?_⟩
  obtain ⟨hl, ho⟩ := Config.session_op hv hc h
  have hsa : seq (fed ops) = seq a := by funext i; rw [hfed, seq_silence]
  have hL : (cfg.produced ops os).length = 2 ^ (cfg.stages (F := K)).length * (a.length + Z) := by
    rw [hl, hlen, hfed]
    simp only [Config.outLen, hm, List.length_append, List.length_replicate]
    ring
  have e1 : (cfg.produced ops os).sum =
      psum (cascadeOp (cfg.stages (F := K)) (seq a)) (2 ^ (cfg.stages (F := K)).length * (a.length + Z)) := by
    rw [← psum_list _ le_rfl, ← hL]
    refine sum_congr rfl fun n hn => ?_
    rw [ho n (mem_range.1 hn), hsa]
    rfl
  have h1 := hN (a.length + Z) (by omega)
  beta_reduce at h1
  rw [sub_zero, hr, psum_list _ (by omega)] at h1
  rw [e1, abs_sub_comm]
  exact h1

/-- **C109** The sum of what an IIR downsampler has produced is the sum of the signal it was given divided by `ratio`, up to
an arbitrarily small `ε`, if the signal is followed by enough silence. -/
theorem C109_down [Archimedean K] (cfg : Config) (hv : cfg.Valid) (hf : cfg.filter = .iir) (hm : cfg.mode = .down)
    (a : List K) (ε : K) (hε : 0 < ε) :
    ∃ N, ∀ Z ≥ N, ∀ ops : List (Op K), (∀ op ∈ ops, cfg.OpOk op) → ∀ (r : Resampler K) (os : List (Option (Buf K))),
      cfg.session ops = .ok (r, os) → fed ops = a ++ List.replicate Z 0 →
      |(cfg.produced ops os).sum - a.sum / (cfg.ratio : K)| ≤ ε := by
  have hst : ∀ s ∈ cfg.stages (F := K), s.Stable false := by
    have := Config.stages_stable (K := K) hv hf
    rwa [hm] at this
  have hlen := Config.stages_length (K := K) hv
  have hr : (2 : K) ^ (cfg.stages (F := K)).length = (cfg.ratio : K) := by exact_mod_cast hlen
  have hpos : 0 < cfg.ratio := by rw [← hlen]; positivity
  have hpos' : (0 : K) < cfg.ratio := by exact_mod_cast hpos
  have ht : TendsTo (seq a) 0 := fun ε hε => ⟨a.length, fun n hn => by rw [seq_ge hn]; simpa using hε.le⟩
  obtain ⟨N, hN⟩ := cascade_psum_down Accurate.half hst ht (cfg.ratio * ε) (mul_pos hpos' hε)
  refine ⟨cfg.ratio * (N + a.length), fun Z hZ ops hc r os h hfed => ?_⟩
  obtain ⟨hl, ho⟩ := Config.session_op hv hc h
  have hsa : seq (fed ops) = seq a := by funext i; rw [hfed, seq_silence]
  have hL : N + a.length ≤ (cfg.produced ops os).length := by
    rw [hl, hfed]
    simp only [Config.outLen, hm, List.length_append, List.length_replicate]
    rw [Nat.le_div_iff_mul_le hpos, mul_comm]
    omega
  have e1 : (cfg.produced ops os).sum = psum (cascadeOp (cfg.stages (F := K)) (seq a)) (cfg.produced ops os).length := by
    rw [← psum_list _ le_rfl]
    refine sum_congr rfl fun n hn => ?_
    rw [ho n (mem_range.1 hn), hsa]
    rfl
  have h1 := hN (cfg.produced ops os).length (by omega)
  beta_reduce at h1
  have hle : (cfg.produced ops os).length ≤ cfg.ratio * (cfg.produced ops os).length := Nat.le_mul_of_pos_left _ hpos
  rw [sub_zero, hlen, hr, psum_list _ (by omega), ← e1] at h1
  have e2 : a.sum - cfg.ratio * (cfg.produced ops os).sum = cfg.ratio * (a.sum / cfg.ratio - (cfg.produced ops os).sum) := by
    field_simp
  rw [e2, abs_mul, abs_of_pos hpos'] at h1
  rw [abs_sub_comm]
  exact le_of_mul_le_mul_left h1 hpos'

end Exact

/-- For any signal there are sessions as in C109, by 4 in both directions; the sums are off by one millionth at most. -/
example (a : List Rat) (ha : a.length < 2 ^ 20) : ∃ N, ∀ Z ≥ N, Z < 2 ^ 20 → (a.length + Z) % 4 = 0 →
    ∃ (ops ops' : List (Op Rat)) (q q' : Resampler Rat × List (Option (Buf Rat))),
    (cfg .up 4 24 true .iir).session ops = .ok q ∧ (cfg .down 4 24 true .iir).session ops' = .ok q' ∧
    fed ops = a ++ List.replicate Z 0 ∧ fed ops' = a ++ List.replicate Z 0 ∧
    |((cfg .up 4 24 true .iir).produced ops q.2).sum - (4 : ℕ) * a.sum| ≤ 1 / 1000000 ∧
    |((cfg .down 4 24 true .iir).produced ops' q'.2).sum - a.sum / (4 : ℕ)| ≤ 1 / 1000000 := by
  have hv : ∀ m, (cfg m 4 24 true .iir).Valid := fun m => by cases m <;> exact ⟨by decide, by decide, by decide⟩
  have := accurate_rat
  obtain ⟨N, hN⟩ := C109_up (K := Rat) (cfg .up 4 24 true .iir) (hv _) rfl rfl a (1 / 1000000) (by norm_num)
  obtain ⟨N', hN'⟩ := C109_down (K := Rat) (cfg .down 4 24 true .iir) (hv _) rfl rfl a (1 / 1000000) (by norm_num)
  refine ⟨max N N', fun Z hZ hlt h4 => ?_⟩
  have run : ∀ (m : Mode) (l : List Rat), l.length < 2 ^ 21 → l.length % 4 = 0 →
      ∃ (ops : List (Op Rat)) (r : Resampler Rat) (os : List (Option (Buf Rat))),
      (∀ op ∈ ops, (cfg m 4 24 true .iir).OpOk op) ∧ (cfg m 4 24 true .iir).session ops = .ok (r, os) ∧ fed ops = l := by
    intro m l hl h4
    let c : Call Rat :=
      { st := someStack, input := { addr := 4, len := l.length + 2, get := seq l }, n := l.length, output := outBuf (4 * l.length) }
    have hc : ∀ op ∈ [Op.process c], (cfg m 4 24 true .iir).OpOk op := by
      intro op hop
      simp only [List.mem_cons, List.not_mem_nil, or_false] at hop
      subst hop
      refine ⟨by show l.length < _; omega, by show l.length ≤ l.length + 2; omega, ?_, fun _ => h4, ?_, fun _ _ => Or.inl ⟨rfl, rfl⟩,
        fun _ _ _ _ _ => le_rfl⟩
      · cases m
        · show l.length * 4 ≤ 4 * l.length
          omega
        · show l.length / 4 ≤ 4 * l.length
          omega
      · cases m <;> simp [cfg, c]
    obtain ⟨r, os, h, -⟩ := C04_output_frame _ (hv m) _ hc
    refine ⟨_, r, os, hc, h, ?_⟩
    show [] ++ (List.range l.length).map (seq l) = l
    rw [List.nil_append]
    exact List.ext_getElem (by simp) fun i h1 h2 => by simp [seq_lt h2]
  obtain ⟨ops, r, os, hc, h, hfed⟩ := run .up (a ++ List.replicate Z 0) (by simp; omega) (by simpa using h4)
  obtain ⟨ops', r', os', hc', h', hfed'⟩ := run .down (a ++ List.replicate Z 0) (by simp; omega) (by simpa using h4)
  exact ⟨ops, ops', _, _, h, h', hfed, hfed', hN Z (le_of_max_le_left hZ) ops hc r os h hfed,
    hN' Z (le_of_max_le_right hZ) ops' hc' r' os' h' hfed'⟩

end Panda
