import Verif.Props.Energy
import Verif.Proofs.Onto

/-!
# Downsampling loses exactly what it has to (C107)

Exact arithmetic in an ordered field; constants accurate to `2^-24`.
-/

set_option linter.unusedSectionVars false

namespace Panda

open Examples Finset

section Exact

variable {K : Type} [Field K] [LinearOrder K] [IsStrictOrderedRing K] [Sample K] [Accurate K]

private theorem produced_eq {cfg : Config} (hv : cfg.Valid) (hm : cfg.mode = .down) {x : ℕ → K} {ys : List K}
    (hx : ∀ i < ys.length, cfg.op x i = seq ys i) {ops : List (Op K)} (hc : ∀ op ∈ ops, cfg.OpOk op) {r : Resampler K}
    {os : List (Option (Buf K))} (h : cfg.session ops = .ok (r, os))
    (hfed : fed ops = (List.range (cfg.ratio * ys.length)).map x) : cfg.produced ops os = ys := by
  have hpos : 0 < cfg.ratio := by rw [← Config.stages_length (K := K) hv]; positivity
  obtain ⟨hl, -⟩ := Config.session_op hv hc h
  have hl' : (cfg.produced ops os).length = ys.length := by
    rw [hl, hfed]
    simp only [Config.outLen, hm, List.length_map, List.length_range]
    exact Nat.mul_div_cancel_left _ hpos
  have ho := Config.session_op_of hv hc h (x := x) (by
    intro i hi
    rw [hfed] at hi ⊢
    rw [seq_lt hi]
    simp)
  exact seq_ext hl' fun i hi => (ho i hi).trans (hx i (hl' ▸ hi))

/-- **C107** Downsampling can produce every signal: for every `ys` there are samples for which it produces exactly `ys`. -/
theorem C107_onto (cfg : Config) (hv : cfg.Valid) (hm : cfg.mode = .down) (ys : List K) :
    ∃ xs : List K, xs.length = cfg.ratio * ys.length ∧
      ∀ ops : List (Op K), (∀ op ∈ ops, cfg.OpOk op) → ∀ (r : Resampler K) (os : List (Option (Buf K))),
      cfg.session ops = .ok (r, os) → fed ops = xs → cfg.produced ops os = ys := by
  obtain ⟨x, hx⟩ := cascade_onto (by rw [Accurate.half]; norm_num) (Config.stages_invDown (K := K) hv hm) (seq ys)
  exact ⟨(List.range (cfg.ratio * ys.length)).map x, by simp, fun ops hc r os h hfed =>
    produced_eq hv hm (fun i _ => congrFun hx i) hc h hfed⟩

/-- **C107** Downsampling by 2 loses exactly half: the second sample of each pair can be chosen, then there is exactly one way to choose the
first ones so that the output is `ys`. -/
theorem C107_half (cfg : Config) (hv : cfg.Valid) (hm : cfg.mode = .down) (h2 : cfg.ratio = 2) (ys zs : List K) :
    ∃ xs : List K, (xs.length = 2 * ys.length ∧ ∀ i < ys.length, seq xs (2 * i + 1) = seq zs i) ∧
      ∀ ops : List (Op K), (∀ op ∈ ops, cfg.OpOk op) → ∀ (r : Resampler K) (os : List (Option (Buf K))),
      cfg.session ops = .ok (r, os) → (fed ops).length = 2 * ys.length → (∀ i < ys.length, seq (fed ops) (2 * i + 1) = seq zs i) →
      (cfg.produced ops os = ys ↔ fed ops = xs) := by
  have hst := Config.stages_invDown (K := K) hv hm
  have hlen := Config.stages_length (K := K) hv
  have hh : (Sample.half : K) ≠ 0 := by rw [Accurate.half]; norm_num
  obtain ⟨s, hs⟩ : ∃ s, cfg.stages (F := K) = [s] := by
    rw [h2] at hlen
    refine List.length_eq_one_iff.1 ((Nat.pow_right_injective le_rfl) ?_)
    simpa using hlen
  have hs' := hst s (by simp [hs])
  have hop (x : ℕ → K) : cfg.op x = s.op x := by
    unfold Config.op
    rw [hs]
    rfl
  obtain ⟨e, he⟩ := hs'.onto hh (seq zs) (seq ys)
  set x := inter e (seq zs) with hx
  have hq (i : ℕ) (hi : i < 2 * ys.length) : seq ((List.range (2 * ys.length)).map x) i = x i := by
    rw [seq_lt (by simpa using hi)]
    simp
  refine ⟨(List.range (2 * ys.length)).map x, ⟨by simp, fun i hi => ?_⟩, fun ops hc r os h hfl hfo => ⟨fun hp => ?_, fun hfed => ?_⟩⟩
  · rw [hq _ (by omega), hx, inter_odd]
  · have hpl := (Config.session_op hv hc h).2
    rw [hp] at hpl
    have ho : ∀ i < ys.length, seq (fed ops) (2 * i + 1) = x (2 * i + 1) := fun i hi => by rw [hfo i hi, hx, inter_odd]
    have hi := hs'.inj hh ho fun i hi => by rw [he, hpl i hi, hop]
    refine seq_ext (by simpa using hfl) fun i hl => ?_
    rw [hq i (by omega)]
    rcases Nat.mod_two_eq_zero_or_one i with hm | hm
    · have := hi (i / 2) (by omega)
      rwa [show 2 * (i / 2) = i by omega] at this
    · have := ho (i / 2) (by omega)
      rwa [show 2 * (i / 2) + 1 = i by omega] at this
  · exact produced_eq hv hm (fun i _ => by rw [hop, he]) hc h (by rw [hfed, h2])

end Exact

/-- One call for any samples. -/
private theorem runs (fl : Filter) (ratio : ℕ) (hr : ratio ∈ [2, 4, 8]) (xs : List Rat) (hx : xs.length < 2 ^ 30) (h0 : xs.length % ratio = 0) :
    ∃ (ops : List (Op Rat)) (r : Resampler Rat) (os : List (Option (Buf Rat))), (cfg .down ratio 20 true fl).Valid ∧
      (∀ op ∈ ops, (cfg .down ratio 20 true fl).OpOk op) ∧ (cfg .down ratio 20 true fl).session ops = .ok (r, os) ∧ fed ops = xs := by
  have hv : (cfg .down ratio 20 true fl).Valid := by
    simp only [List.mem_cons, List.not_mem_nil, or_false] at hr
    rcases hr with rfl | rfl | rfl <;> cases fl <;> exact ⟨by decide, by decide, by decide⟩
  let c : Call Rat :=
    { st := someStack, input := { addr := 4, len := xs.length + 2, get := seq xs }, n := xs.length, output := outBuf (xs.length / ratio) }
  have hc : ∀ op ∈ [Op.process c], (cfg .down ratio 20 true fl).OpOk op := by
    intro op hop
    simp only [List.mem_cons, List.not_mem_nil, or_false] at hop
    subst hop
    exact ⟨by show xs.length < _; omega, by show xs.length ≤ xs.length + 2; omega, le_rfl, fun _ => h0, by simp [cfg],
      fun _ _ => Or.inl ⟨by cases fl <;> rfl, rfl⟩, fun _ _ _ _ _ => le_rfl⟩
  obtain ⟨r, os, h, -⟩ := C04_output_frame _ hv _ hc
  refine ⟨_, r, os, hv, hc, h, ?_⟩
  show [] ++ (List.range xs.length).map (seq xs) = xs
  rw [List.nil_append]
  exact List.ext_getElem (by simp) fun i h1 h2 => by simp [seq_lt h2]

/-- Any signal of up to a million samples is the output of a session. -/
example (ys : List Rat) (hy : ys.length < 2 ^ 20) : ∃ (ops : List (Op Rat)) (q : Resampler Rat × List (Option (Buf Rat))),
    (cfg .down 8 20 true .fir).session ops = .ok q ∧ (cfg .down 8 20 true .fir).produced ops q.2 = ys := by
  have := accurate_rat
  obtain ⟨xs, hl, hx⟩ := C107_onto (K := Rat) (cfg .down 8 20 true .fir) ⟨by decide, by decide, by decide⟩ rfl ys
  have hl : xs.length = 8 * ys.length := hl
  obtain ⟨ops, r, os, -, hc, h, hfed⟩ := runs .fir 8 (by simp) xs (by omega) (by omega)
  exact ⟨_, _, h, hx _ hc _ _ h hfed⟩

/-- The same for ratio 2, where every other sample is 0. -/
example (ys : List Rat) (hy : ys.length < 2 ^ 20) : ∃ (ops : List (Op Rat)) (q : Resampler Rat × List (Option (Buf Rat))),
    (cfg .down 2 20 true .iir).session ops = .ok q ∧ (cfg .down 2 20 true .iir).produced ops q.2 = ys ∧
    ∀ i < ys.length, seq (fed ops) (2 * i + 1) = 0 := by
  have := accurate_rat
  obtain ⟨xs, ⟨hl, he⟩, hx⟩ := C107_half (K := Rat) (cfg .down 2 20 true .iir) ⟨by decide, by decide, by decide⟩ rfl rfl ys []
  obtain ⟨ops, r, os, -, hc, h, hfed⟩ := runs .iir 2 (by simp) xs (by omega) (by omega)
  exact ⟨_, _, h, (hx _ hc _ _ h (hfed ▸ hl) (hfed ▸ he)).2 hfed, fun i hi => (hfed ▸ he) i hi⟩

end Panda
