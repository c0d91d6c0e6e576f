import Verif.Props.IirPeak
import Verif.Proofs.IirSilence

/-!
# IIR resamplers get silent in binary32 (C24)

`C24_decays` (Energy.lean) is about exact arithmetic; `C24_false_sse_rings` (Ringing.lean) shows that the property is false in binary32 for
SSE filters with an odd number of coefficients. Here: it holds for all other IIR filters.
-/

namespace Panda

open Examples

private theorem coefsSil : ∀ k ∈ [2, 4, 8], ∀ p ∈ [8, 12, 16, 20, 24], ∀ d ∈ iirDecs k p,
    (0 < d.toRat ∧ d.toRat ≤ 15 / 16) ∧ |rnd32 d.toRat - d.toRat| ≤ u32r * d.toRat ∧ binary32.fits (rnd32 d.toRat) = true := by decide +kernel

private theorem gainSil : ∀ m ∈ [Mode.up, Mode.down], ∀ r ∈ [1, 2, 4, 8], ∀ p ∈ [8, 12, 16, 20, 24],
    (((cfg m r p true .iir).rates.map fun k => iirDecs k p).map dampGain).prod ≤ 2 ^ 73 ∧ 2 ^ (cfg m r p true .iir).rates.length = r := by
  decide +kernel

/-- **C24** in binary32: for every IIR configuration there is a `K` such that, in every session with input samples up to `2^36`: if the
input is silent (at most `2^-130`) from sample `N` on, all output samples that belong to input samples from `N + K` on are at most `2^-57`
(-343 dB). `K` depends on neither the session nor `N`.
Missing: SSE with a stage that has an odd number of coefficients; there the claim is false (`C24_false_sse_rings`,
`C24_false_sse_rings_down`, `C24_false_sse_rings_up`). -/
theorem C24_silent_float_partial (cfg : Config) (hv : cfg.Valid) (hf : cfg.filter = .iir)
    (hsse : cfg.iirSse = true → ∀ k ∈ [2, 4, 8], k ≤ cfg.ratio → ∀ t, iirTable k cfg.precision = some t → t.1.length % 2 = 0) :
    ∃ K, ∀ (ops : List (Op F32)), (∀ op ∈ ops, cfg.OpOk op) → ∀ (r : Resampler F32) (os : List (Option (Buf F32))),
      cfg.session ops = .ok (r, os) → (∀ v ∈ fed ops, ∃ q, v = Fl.fin q ∧ |q| ≤ 2 ^ 36) →
      ∀ N, (∀ n ≥ N, |(seq (fed ops) n).val| ≤ 2⁻¹ ^ 130) →
      ∀ n < (cfg.produced ops os).length,
        (match cfg.mode with
          | .up => cfg.ratio * (N + K) ≤ n
          | .down => N + K ≤ cfg.ratio * n) →
        ∃ y, seq (cfg.produced ops os) n = Fl.fin y ∧ |y| ≤ 2⁻¹ ^ 57 := by
  have hp : cfg.precision ∈ [8, 12, 16, 20, 24] := by
    have h1 := hv.precision
    have h2 := hv.iir hf
    simp at h1 ⊢
    omega
  obtain ⟨g1, g2⟩ := gainSil cfg.mode (by cases cfg.mode <;> simp) cfg.ratio hv.ratio cfg.precision hp
  rw [show (Examples.cfg cfg.mode cfg.ratio cfg.precision true .iir).rates = cfg.rates from rfl] at g1 g2
  have mem : ∀ t ∈ cfg.rates.map fun k => iirDecs k cfg.precision, ∃ k ∈ cfg.rates, iirDecs k cfg.precision = t := fun t ht => List.mem_map.1 ht
  obtain ⟨K, hK⟩ := iir_cascade_silent (m := cfg.mode) (sse := cfg.iirSse) (cfg.rates.map fun k => iirDecs k cfg.precision)
    (by
      intro t ht d hd
      obtain ⟨k, hk, rfl⟩ := mem t ht
      exact (coefsSil k (Config.mem_rates hk).1 _ hp d hd).1)
    (by
      intro t ht d hd
      obtain ⟨k, hk, rfl⟩ := mem t ht
      exact (coefsSil k (Config.mem_rates hk).1 _ hp d hd).2)
    (by
      intro hs t ht
      obtain ⟨k, hk, rfl⟩ := mem t ht
      obtain ⟨h1, h2⟩ := Config.mem_rates hk
      obtain ⟨t, ht⟩ := Option.isSome_iff_exists.1 ((tables_exist h1 hv.precision).2 (hv.iir hf))
      have := hsse hs k h1 h2 t ht
      unfold iirDecs
      rw [ht]
      exact this)
    (2 ^ 36) quiet le_rfl (by norm_num [quiet]) (by
      refine le_trans (mul_le_mul_of_nonneg_right g1 (by positivity)) ?_
      norm_num)
  refine ⟨K, fun ops hc r os h hx N hN n hn hl => ?_⟩
  have hrel := Config.session_rel' hv hc h
  obtain ⟨xs, hxs⟩ := exists_fin_list (fed ops) fun n hn => by
    obtain ⟨q, h1, -⟩ := hx (fed ops)[n] (List.getElem_mem hn)
    exact ⟨q, by rw [← h1]; simp [seq, List.getD_eq_getElem?_getD, hn]⟩
  have hxM : ∀ n, |seq xs n| ≤ (2 : ℚ) ^ 36 := by
    intro n
    rcases Nat.lt_or_ge n xs.length with h1 | h1
    · obtain ⟨q, h2, h3⟩ := hx (Fl.fin (seq xs n)) (by
        rw [hxs]
        refine List.mem_map.2 ⟨_, ?_, rfl⟩
        rw [seq_lt h1]
        exact List.getElem_mem h1)
      rw [Option.some.inj h2]
      exact h3
    · rw [seq_ge h1, abs_zero]
      positivity
  rw [Config.stages_eq_iirTabs hv hf, hxs] at hrel
  obtain ⟨zq, hz, z1⟩ := hK xs _ (by rw [List.map_map]; exact hrel) hxM
  refine ⟨seq zq n, by rw [hz, seq_fin], ?_⟩
  refine (z1 N (fun j hj => ?_) n ?_).trans ?_
  · have := hN j hj
    rw [hxs, seq_fin] at this
    exact this
  · rw [List.length_map]
    revert hl
    unfold late
    cases cfg.mode <;> simp only [g2] <;> exact id
  · refine le_trans (mul_le_mul_of_nonneg_right g1 quiet_pos.le) ?_
    norm_num [quiet]

/-- A call with `Z` zeros, for upsampling by 8. -/
def silenceCall (Z : ℕ) : Call F32 :=
  { st := { block16 := 5, tmpAddr := 4, tmp2Addr := 8, junk := fun _ => 0 },
    input := { addr := 4, len := Z, get := fun _ => Fl.fin 0 }, n := Z, output := { addr := 100, len := 8 * Z, get := fun _ => 0 } }

private theorem fed_silence (Z : ℕ) : fed [Op.process (rampCall32 100 800), Op.process (silenceCall Z)] =
    (List.range 100).map (fun i : ℕ => (Fl.fin ((i : ℚ) + 1) : F32)) ++ (List.range Z).map fun _ => (Fl.fin 0 : F32) := by
  have : fed [Op.process (rampCall32 100 800), Op.process (silenceCall Z)] =
    (rampCall32 100 800).samples ++ (silenceCall Z).samples := rfl
  rw [this]
  rfl

/-- C24 for real sessions: 24 bits, ratio 8, without SSE; samples `1, 2, ..., 100`, then `Z` zeros. -/
example : ∃ K, ∀ Z < 2 ^ 20, ∃ q, (cfg .up 8 24 false .iir).session [Op.process (rampCall32 100 800), Op.process (silenceCall Z)] = .ok q ∧
    ∀ n < ((cfg .up 8 24 false .iir).produced [Op.process (rampCall32 100 800), Op.process (silenceCall Z)] q.2).length, 8 * (100 + K) ≤ n →
      ∃ y, seq ((cfg .up 8 24 false .iir).produced [Op.process (rampCall32 100 800), Op.process (silenceCall Z)] q.2) n = Fl.fin y ∧
        |y| ≤ 2⁻¹ ^ 57 := by
  have hv : (cfg .up 8 24 false .iir).Valid := ⟨by decide, by decide, by decide⟩
  obtain ⟨K, hK⟩ := C24_silent_float_partial (cfg .up 8 24 false .iir) hv rfl (by intro h; exact absurd h (by decide))
  refine ⟨K, fun Z hZ => ?_⟩
  have hc : ∀ op ∈ [Op.process (rampCall32 100 800), Op.process (silenceCall Z)], (cfg .up 8 24 false .iir).OpOk op := by
    intro op hop
    simp only [List.mem_cons, List.not_mem_nil, or_false] at hop
    rcases hop with rfl | rfl
    · exact ⟨by decide, by decide, by decide, by decide, by decide, by decide, by decide⟩
    · exact ⟨by show Z < _; omega, le_rfl, by show Z * 8 ≤ 8 * Z; omega, by simp [cfg], by simp [cfg], by simp [cfg], by simp [cfg]⟩
  obtain ⟨r, os, h, -⟩ := C04_output_frame _ hv _ hc
  refine ⟨_, h, fun n hn hl => hK _ hc r os h ?_ 100 ?_ n hn hl⟩
  · intro v hv
    rw [fed_silence] at hv
    rcases List.mem_append.1 hv with hv | hv
    · obtain ⟨i, hi, rfl⟩ := List.mem_map.1 hv
      refine ⟨_, rfl, ?_⟩
      rw [abs_of_nonneg (by positivity)]
      have : i + 1 ≤ 2 ^ 36 := by have := List.mem_range.1 hi; omega
      exact_mod_cast this
    · obtain ⟨i, hi, rfl⟩ := List.mem_map.1 hv
      exact ⟨0, rfl, by norm_num⟩
  · intro j hj
    rw [fed_silence]
    have : seq ((List.range 100).map (fun i : ℕ => (Fl.fin ((i : ℚ) + 1) : F32)) ++ (List.range Z).map fun _ => (Fl.fin 0 : F32)) j = Fl.fin 0 := by
      unfold seq
      rw [List.getD_eq_getElem?_getD, List.getElem?_append_right (by simpa using hj), List.getElem?_map]
      cases (List.range Z)[j - (List.map (fun i : ℕ => (Fl.fin ((i : ℚ) + 1) : F32)) (List.range 100)).length]? <;> rfl
    rw [this]
    norm_num [Fl.val, Fl.fin]

end Panda
