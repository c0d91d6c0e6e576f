import Verif.Props.Gain
import Verif.Proofs.Energy

/-!
# Stability and DC gain of the IIR resamplers (C23, C24, C41)

Exact arithmetic in an ordered field; constants accurate to `2^-24`. For rounded arithmetic see `Verif.Props.Ringing`.
-/

set_option linter.unusedSectionVars false

namespace Panda

open Examples Finset

variable {K : Type} [Field K] [LinearOrder K] [IsStrictOrderedRing K] [Sample K] [Accurate K]

private theorem energy_list (l : List K) : energy (seq l) l.length = (l.map fun x => x ^ 2).sum := sum_seq l fun x => x ^ 2

/-- **C23** The energy of everything an IIR upsampler has produced is at most `ratio` times the energy of everything it was
given, at any time; the energy of the output of an IIR downsampler is at most the energy of the input divided by `ratio`. -/
theorem C23_energy (cfg : Config) (hv : cfg.Valid) (hf : cfg.filter = .iir)
    (ops : List (Op K)) (hc : ∀ op ∈ ops, cfg.OpOk op) (r : Resampler K) (os : List (Option (Buf K)))
    (h : cfg.session ops = .ok (r, os)) :
    match cfg.mode with
    | .up => ((cfg.produced ops os).map fun y => y ^ 2).sum ≤ (cfg.ratio : K) * ((fed ops).map fun x => x ^ 2).sum
    | .down => (cfg.ratio : K) * ((cfg.produced ops os).map fun y => y ^ 2).sum ≤ ((fed ops).map fun x => x ^ 2).sum := by
  obtain ⟨hl, ho⟩ := Config.session_op hv hc h
  have hst := Config.stages_stable (K := K) hv hf
  have hlen := Config.stages_length (K := K) hv
  have he : energy (seq (cfg.produced ops os)) (cfg.produced ops os).length =
      energy (cfg.op (seq (fed ops))) (cfg.produced ops os).length :=
    sum_congr rfl fun n hn => by rw [ho n (mem_range.1 hn)]
  rw [energy_list] at he
  have hr : (2 : K) ^ (cfg.stages (F := K)).length = (cfg.ratio : K) := by exact_mod_cast hlen
  cases hm : cfg.mode with
  | up =>
    simp only
    rw [hm] at hst
    have := cascade_energy_up hst (seq (fed ops)) (fed ops).length
    rw [hr, hlen, energy_list] at this
    rw [he, hl]
    refine le_trans (le_of_eq ?_) this
    simp only [Config.outLen, hm, Config.op]
    rw [mul_comm]
  | down =>
    simp only
    rw [hm] at hst
    have hst : ∀ s ∈ cfg.stages (F := K), s.Stable false := hst
    have := cascade_energy_down Accurate.half hst (seq (fed ops)) (cfg.produced ops os).length
    rw [hr, hlen] at this
    rw [he]
    refine this.trans ?_
    rw [← energy_list]
    have hle : cfg.ratio * (cfg.produced ops os).length ≤ (fed ops).length := by
      rw [hl]
      simp only [Config.outLen, hm]
      exact Nat.mul_div_le _ _
    unfold energy
    exact sum_le_sum_of_subset_of_nonneg (range_mono hle) fun _ _ _ => sq_nonneg _

/-- The limit of the output of an IIR resampler whose input is `a` followed by a constant. -/
private theorem settles [Archimedean K] (cfg : Config) (hv : cfg.Valid) (hf : cfg.filter = .iir) (a : List K) (c ε : K) (hε : 0 < ε) :
    ∃ N, ∀ (ops : List (Op K)), (∀ op ∈ ops, cfg.OpOk op) → ∀ (r : Resampler K) (os : List (Option (Buf K))),
      cfg.session ops = .ok (r, os) → ∀ Z, fed ops = a ++ List.replicate Z c →
      ∀ n ≥ N, n < (cfg.produced ops os).length → |seq (cfg.produced ops os) n - c| ≤ ε := by
  have hx : TendsTo (fun i => if i < a.length then seq a i else c) c := by
    intro ε hε
    refine ⟨a.length, fun n hn => ?_⟩
    beta_reduce
    rw [if_neg (by omega), sub_self, abs_zero]
    exact hε.le
  obtain ⟨N, hN⟩ := cascade_tendsTo Accurate.half (Config.stages_stable (K := K) hv hf) hx ε hε
  refine ⟨N, fun ops hc r os h Z hfed n hn hlt => ?_⟩
  rw [Config.session_op_of hv hc h (x := fun i => if i < a.length then seq a i else c) (by
    intro i hi
    rw [hfed] at hi ⊢
    simp only [seq, List.getD_eq_getElem?_getD]
    split
    · rw [List.getElem?_append_left (by assumption)]
    · rw [List.getElem?_append_right (by omega), List.getElem?_replicate, if_pos (by simp at hi; omega)]
      rfl) n hlt]
  exact hN n hn

/-- **C24** The output of an IIR resampler tends to zero when the input becomes silent: after any input `a` and any `ε`
there is a time from which on all output samples are at most `ε`, however long the silence lasts and however the samples are
distributed over calls. -/
theorem C24_decays [Archimedean K] (cfg : Config) (hv : cfg.Valid) (hf : cfg.filter = .iir) (a : List K) (ε : K) (hε : 0 < ε) :
    ∃ N, ∀ (ops : List (Op K)), (∀ op ∈ ops, cfg.OpOk op) → ∀ (r : Resampler K) (os : List (Option (Buf K))),
      cfg.session ops = .ok (r, os) → ∀ Z, fed ops = a ++ List.replicate Z 0 →
      ∀ n ≥ N, n < (cfg.produced ops os).length → |seq (cfg.produced ops os) n| ≤ ε := by
  simpa using settles cfg hv hf a 0 ε hε

/-- **C41** IIR resamplers have DC gain exactly 1: the output tends to `c` when the input stays at `c`. -/
theorem C41_dc_gain_iir [Archimedean K] (cfg : Config) (hv : cfg.Valid) (hf : cfg.filter = .iir) (a : List K) (c ε : K) (hε : 0 < ε) :
    ∃ N, ∀ (ops : List (Op K)), (∀ op ∈ ops, cfg.OpOk op) → ∀ (r : Resampler K) (os : List (Option (Buf K))),
      cfg.session ops = .ok (r, os) → ∀ Z, fed ops = a ++ List.replicate Z c →
      ∀ n ≥ N, n < (cfg.produced ops os).length → |seq (cfg.produced ops os) n - c| ≤ ε :=
  settles cfg hv hf a c ε hε

/-- C23 for a real session (ratio 8, FPU): energy of `1, ..., 50` is 42925. -/
example : ∃ q, (cfg .up 8 24 false .iir).session [Op.process (call 50 400)] = .ok q ∧
    (((cfg .up 8 24 false .iir).produced [Op.process (call 50 400)] q.2).map fun y => y ^ 2).sum ≤ 8 * 42925 := by
  have hc : ∀ op ∈ [Op.process (call 50 400)], (cfg .up 8 24 false .iir).OpOk op := by
    intro op hop
    simp only [List.mem_cons, List.not_mem_nil, or_false] at hop
    subst hop
    exact ⟨by decide, by decide, by decide, by decide, by decide, by decide, by decide⟩
  obtain ⟨r, os, h, -⟩ := C04_output_frame (cfg .up 8 24 false .iir) ⟨by decide, by decide, by decide⟩ _ hc
  have := accurate_rat
  have := C23_energy (K := Rat) (cfg .up 8 24 false .iir) ⟨by decide, by decide, by decide⟩ rfl _ hc r os h
  refine ⟨_, h, ?_⟩
  have e : ((fed [Op.process (call 50 400)]).map fun x => x ^ 2).sum = 42925 := by decide +kernel
  simpa [cfg, e] using this

/-- Sessions with input `1, 2, ..., 10` followed by `Z` zeros exist for every `Z` (C24), likewise for other constants (C41). -/
example (Z : ℕ) (hZ : Z < 2 ^ 31) (c : Rat) : ∃ (ops : List (Op Rat)) (q : Resampler Rat × List (Option (Buf Rat))),
    (∀ op ∈ ops, (cfg .up 2 24 true .iir).OpOk op) ∧ (cfg .up 2 24 true .iir).session ops = .ok q ∧
    fed ops = [1, 2, 3, 4, 5, 6, 7, 8, 9, 10] ++ List.replicate Z c := by
  let ops : List (Op Rat) := [.process (call 10 20), .process { st := someStack, input := { addr := 4, len := Z, get := fun _ => c }, n := Z, output := outBuf (2 * Z) }]
  have hc : ∀ op ∈ ops, (cfg .up 2 24 true .iir).OpOk op := by
    intro op hop
    simp only [ops, List.mem_cons, List.not_mem_nil, or_false] at hop
    rcases hop with rfl | rfl
    · exact ⟨by decide, by decide, by decide, by decide, by decide, by decide, by decide⟩
    · exact ⟨by show Z < _; omega, le_rfl, by show Z * 2 ≤ 2 * Z; omega, by simp [cfg], by simp [cfg], fun _ _ => Or.inl ⟨by decide, by decide⟩,
        by simp [cfg]⟩
  obtain ⟨r, os, h, -⟩ := C04_output_frame (cfg .up 2 24 true .iir) ⟨by decide, by decide, by decide⟩ ops hc
  refine ⟨ops, (r, os), hc, h, ?_⟩
  have e1 : fed ops = (call 10 20).samples ++ Call.samples { st := someStack, input := { addr := 4, len := Z, get := fun _ => c }, n := Z, output := outBuf (2 * Z) } := rfl
  rw [e1]
  congr 1
  · decide +kernel
  · simp [Call.samples, List.map_const']

end Panda
