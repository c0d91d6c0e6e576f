import Verif.Props.Gain
import Verif.Props.Lossless
import Verif.Proofs.IntegralFir

/-!
# The integral of the output of FIR resamplers (C110)

Exact arithmetic in an ordered field; constants accurate to `2^-24`.
-/

set_option linter.unusedSectionVars false

namespace Panda

open Examples Finset

section Exact

variable {K : Type} [Field K] [LinearOrder K] [IsStrictOrderedRing K] [Sample K] [Accurate K]

/-- **C110** The sum of what a FIR resampler has produced for a signal followed by enough silence is `ratio` times (UP) or `1/ratio` times (DOWN)
the sum of the signal, up to a relative error: that of constant signals in the other direction (C41, `dcNano`). -/
theorem C110_integral (cfg : Config) (hv : cfg.Valid) (hf : cfg.filter = .fir) (a : List K) :
    ∃ N, ∀ Z ≥ N, ∀ ops : List (Op K), (∀ op ∈ ops, cfg.OpOk op) → ∀ (r : Resampler K) (os : List (Option (Buf K))),
      cfg.session ops = .ok (r, os) → fed ops = a ++ List.replicate Z 0 →
      |(cfg.produced ops os).sum - (match cfg.mode with | .up => (cfg.ratio : K) | .down => 1 / (cfg.ratio : K)) * a.sum| ≤
        (match cfg.mode with
          | .up => (cfg.ratio : K) * (dcNano .down cfg.ratio cfg.precision / 10 ^ 9)
          | .down => 1 / (cfg.ratio : K) * (dcNano .up cfg.ratio cfg.precision / 10 ^ 9)) * (a.map fun x => |x|).sum := by
  have hst := Config.stages_eq_tables (K := K) hv hf
  have hlen := Config.stages_length (K := K) hv
  have hlt : 2 ^ cfg.tables.length = cfg.ratio := by rwa [hst, List.length_map] at hlen
  have hpos : 0 < cfg.ratio := by rw [← hlen]; positivity
  have h2 : ∀ t ∈ cfg.tables, 2 ≤ t.length := by
    intro t ht
    have hm : firStage (K := K) cfg.mode cfg.vec t ∈ cfg.stages (F := K) := by
      rw [hst]
      exact List.mem_map_of_mem ht
    have := Config.stages_taps _ hm
    cases hmm : cfg.mode <;> rw [hmm] at this
    · have := (this _ _ (Or.inl rfl)).1
      rwa [List.length_map] at this
    · have := (this _ _ (Or.inr rfl)).1
      rwa [List.length_map] at this
  obtain ⟨w, hw, hs⟩ := tables_weights (K := K) cfg.mode cfg.vec cfg.tables h2
  obtain ⟨N, hN⟩ := hs (seq a) a.length fun n hn => seq_ge hn
  have hfac : (match cfg.mode with | .up => (cfg.ratio : K) | .down => 1 / (cfg.ratio : K)) = cfg.mode.factor ^ cfg.tables.length := by
    rw [← hlt]
    cases cfg.mode
    · simp [Mode.factor]
    · simp [Mode.factor]
  have hfac' : (match cfg.mode with
      | .up => (cfg.ratio : K) * (dcNano .down cfg.ratio cfg.precision / 10 ^ 9)
      | .down => 1 / (cfg.ratio : K) * (dcNano .up cfg.ratio cfg.precision / 10 ^ 9)) =
      cfg.mode.factor ^ cfg.tables.length * ((dcNano cfg.mode.dual cfg.ratio cfg.precision : K) / 10 ^ 9) := by
    rw [← hfac]
    cases cfg.mode <;> rfl
  have hf0 : (0 : K) < cfg.mode.factor ^ cfg.tables.length := by
    have : (0 : K) < cfg.mode.factor := by cases cfg.mode <;> simp [Mode.factor]
    positivity
  have hE : ((weightErr cfg.mode cfg.tables : ℚ) : K) ≤ (dcNano cfg.mode.dual cfg.ratio cfg.precision : K) / 10 ^ 9 := by
    rw [Config.weightErr_eq hv]
    have hv' : ({ cfg with mode := cfg.mode.dual } : Config).Valid := ⟨hv.ratio, hv.precision, hv.iir⟩
    have := (dcGain_numbers _ hv').2
    have h2 := (Rat.cast_le (K := K)).2 this
    refine h2.trans (le_of_eq ?_)
    push_cast
    rfl
  refine ⟨cfg.ratio * N, fun Z hZ ops hc r os h hfed => ?_⟩
  obtain ⟨hl, ho⟩ := Config.session_op hv hc h
  have hsa : seq (fed ops) = seq a := by funext i; rw [hfed, seq_silence]
  have hL : N ≤ (cfg.produced ops os).length := by
    rw [hl, hfed]
    unfold Config.outLen
    cases cfg.mode
    · simp only [List.length_append, List.length_replicate]
      have h3 : N ≤ cfg.ratio * N := Nat.le_mul_of_pos_left _ hpos
      have h4 : a.length + Z ≤ (a.length + Z) * cfg.ratio := Nat.le_mul_of_pos_right _ hpos
      omega
    · simp only [List.length_append, List.length_replicate]
      rw [Nat.le_div_iff_mul_le hpos, mul_comm]
      omega
  have e1 : (cfg.produced ops os).sum = wsum w (seq a) a.length := by
    rw [← hN _ hL, ← psum_list _ le_rfl, ← hst]
    refine sum_congr rfl fun n hn => ?_
    rw [ho n (mem_range.1 hn), hsa]
    rfl
  have e2 : a.sum = ∑ n ∈ range a.length, seq a n := (psum_list a le_rfl).symm
  rw [hfac, hfac', e1, ← sum_seq, e2, wsum, mul_sum, ← sum_sub_distrib, mul_sum]
  refine (abs_sum_le_sum_abs _ _).trans (sum_le_sum fun n _ => ?_)
  rw [← sub_mul, abs_mul]
  refine mul_le_mul_of_nonneg_right ((hw n).trans ?_) (abs_nonneg _)
  rw [mul_comm]
  exact mul_le_mul_of_nonneg_left hE hf0.le

end Exact

/-- Sessions as in C110 for any signal, by 8 and 24 bits: the sum is right to 7 (UP) and 6 (DOWN) digits. -/
example (a : List Rat) (ha : a.length < 2 ^ 20) : ∃ N, ∀ Z ≥ N, Z < 2 ^ 20 → (a.length + Z) % 8 = 0 →
    ∃ (ops ops' : List (Op Rat)) (q q' : Resampler Rat × List (Option (Buf Rat))),
    (cfg .up 8 24 true .fir).session ops = .ok q ∧ (cfg .down 8 24 true .fir).session ops' = .ok q' ∧
    fed ops = a ++ List.replicate Z 0 ∧ fed ops' = a ++ List.replicate Z 0 ∧
    |((cfg .up 8 24 true .fir).produced ops q.2).sum - (8 : ℕ) * a.sum| ≤ (8 : ℕ) * ((425 : ℕ) / 10 ^ 9) * (a.map fun x => |x|).sum ∧
    |((cfg .down 8 24 true .fir).produced ops' q'.2).sum - 1 / (8 : ℕ) * a.sum| ≤
      1 / (8 : ℕ) * ((1029 : ℕ) / 10 ^ 9) * (a.map fun x => |x|).sum := by
  have hv : ∀ m, (cfg m 8 24 true .fir).Valid := fun m => by cases m <;> exact ⟨by decide, by decide, by decide⟩
  have := accurate_rat
  obtain ⟨N, hN⟩ := C110_integral (K := Rat) (cfg .up 8 24 true .fir) (hv _) rfl a
  obtain ⟨N', hN'⟩ := C110_integral (K := Rat) (cfg .down 8 24 true .fir) (hv _) rfl a
  refine ⟨max N N', fun Z hZ hlt h8 => ?_⟩
  have run : ∀ (m : Mode) (l : List Rat), l.length < 2 ^ 21 → l.length % 8 = 0 →
      ∃ (ops : List (Op Rat)) (r : Resampler Rat) (os : List (Option (Buf Rat))),
      (∀ op ∈ ops, (cfg m 8 24 true .fir).OpOk op) ∧ (cfg m 8 24 true .fir).session ops = .ok (r, os) ∧ fed ops = l := by
    intro m l hl h8
    let c : Call Rat :=
      { st := someStack, input := { addr := 4, len := l.length, get := seq l }, n := l.length, output := outBuf (8 * l.length) }
    have hc : ∀ op ∈ [Op.process c], (cfg m 8 24 true .fir).OpOk op := by
      intro op hop
      simp only [List.mem_cons, List.not_mem_nil, or_false] at hop
      subst hop
      refine ⟨by show l.length < _; omega, le_rfl, ?_, fun _ => h8, fun _ _ _ => by show l.length < _; omega, by simp [cfg], by simp [cfg]⟩
      cases m
      · show l.length * 8 ≤ 8 * l.length
        omega
      · show l.length / 8 ≤ 8 * l.length
        omega
    obtain ⟨r, os, h, -⟩ := C04_output_frame _ (hv m) _ hc
    refine ⟨_, r, os, hc, h, ?_⟩
    show [] ++ (List.range l.length).map (seq l) = l
    rw [List.nil_append]
    exact List.ext_getElem (by simp) fun i h1 h2 => by simp [seq_lt h2]
  obtain ⟨ops, r, os, hc, h, hfed⟩ := run .up (a ++ List.replicate Z 0) (by simp; omega) (by simpa using h8)
  obtain ⟨ops', r', os', hc', h', hfed'⟩ := run .down (a ++ List.replicate Z 0) (by simp; omega) (by simpa using h8)
  exact ⟨ops, ops', _, _, h, h', hfed, hfed', hN Z (le_of_max_le_left hZ) ops hc r os h hfed,
    hN' Z (le_of_max_le_right hZ) ops' hc' r' os' h' hfed'⟩

end Panda
