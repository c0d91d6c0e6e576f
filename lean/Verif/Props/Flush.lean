import Verif.Props.Silence
import Verif.Proofs.Flush

/-!
# IIR resamplers without subnormal numbers (C77)

With subnormal numbers the filters end in a cycle (`C70_false_subnormals_up`, `C70_false_subnormals_down`). Here: what happens if the
program switches them off.
-/

namespace Panda

open Examples

private theorem coefsDie : ∀ k ∈ [2, 4, 8], ∀ p ∈ [8, 12, 16, 20, 24], ∀ d ∈ iirDecs k p, DieOk d := by decide +kernel

private theorem gainDie : ∀ m ∈ [Mode.up, Mode.down], ∀ r ∈ [1, 2, 4, 8], ∀ p ∈ [8, 12, 16, 20, 24],
    (((cfg m r p true .iir).rates.map fun k => iirDecs k p).map dampGain).prod ≤ 2 ^ 73 ∧ 2 ^ (cfg m r p true .iir).rates.length = r := by
  decide +kernel

/-- Input samples until an IIR resampler is silent. -/
def Config.silence (cfg : Config) : ℕ := silenceTime cfg.mode (cfg.rates.map fun k => iirDecs k cfg.precision)

/-- **C77** In every format without subnormal numbers (x86 with FTZ: `flushing_ftz`, ARM with FZ: `flushing_fz`) and every IIR
configuration, for every session with input samples up to `2^36`: if the input is zero from sample `N` on, all output samples that belong to
input samples from `N + cfg.silence` on are exactly zero.
Missing: SSE with a stage that has an odd number of coefficients; there the claim is false (`C77_false_sse_rings`). -/
theorem C77_exactly_silent_partial {S : Format} (hS : Flushing S) (cfg : Config) (hv : cfg.Valid) (hf : cfg.filter = .iir)
    (hsse : cfg.iirSse = true → ∀ k ∈ [2, 4, 8], k ≤ cfg.ratio → ∀ t, iirTable k cfg.precision = some t → t.1.length % 2 = 0)
    (ops : List (Op (Fl S))) (hc : ∀ op ∈ ops, cfg.OpOk op) (r : Resampler (Fl S)) (os : List (Option (Buf (Fl S))))
    (h : cfg.session ops = .ok (r, os)) (hx : ∀ v ∈ fed ops, ∃ q, v = Fl.fin q ∧ |q| ≤ 2 ^ 36)
    (N : ℕ) (hN : ∀ n ≥ N, seq (fed ops) n = 0) (n : ℕ)
    (hn : match cfg.mode with
      | .up => cfg.ratio * (N + cfg.silence) ≤ n
      | .down => N + cfg.silence ≤ cfg.ratio * n) :
    seq (cfg.produced ops os) n = 0 := by
  have hp : cfg.precision ∈ [8, 12, 16, 20, 24] := by
    have h1 := hv.precision
    have h2 := hv.iir hf
    simp at h1 ⊢
    omega
  obtain ⟨g1, g2⟩ := gainDie cfg.mode (by cases cfg.mode <;> simp) cfg.ratio hv.ratio cfg.precision hp
  rw [show (Examples.cfg cfg.mode cfg.ratio cfg.precision true .iir).rates = cfg.rates from rfl] at g1 g2
  have hrel := Config.session_rel' hv hc h
  obtain ⟨xs, hxs⟩ := exists_fin_list (fed ops) fun n hn => by
    obtain ⟨q, h1, -⟩ := hx (fed ops)[n] (List.getElem_mem hn)
    exact ⟨q, by rw [← h1]; simp [seq, List.getD_eq_getElem?_getD, hn]⟩
  have hxM : ∀ n, |seq xs n| ≤ (2 : ℚ) ^ 36 := by
    intro n
    rcases Nat.lt_or_ge n xs.length with h1 | h1
    · obtain ⟨q, h2, h3⟩ := hx (Fl.fin (seq xs n)) (by
        rw [hxs]
        refine List.mem_map.2 ⟨_, ?_, rfl⟩
        rw [seq_lt h1]
        exact List.getElem_mem h1)
      rw [Option.some.inj h2]
      exact h3
    · rw [seq_ge h1, abs_zero]
      positivity
  rw [Config.stages_eq_iirTabs hv hf, hxs] at hrel
  have mem : ∀ t ∈ cfg.rates.map fun k => iirDecs k cfg.precision, ∃ k ∈ cfg.rates, iirDecs k cfg.precision = t := fun t ht => List.mem_map.1 ht
  obtain ⟨zq, hz, z1⟩ := iir_cascade_dies hS (cfg.rates.map fun k => iirDecs k cfg.precision)
    (by
      intro t ht d hd
      obtain ⟨k, hk, rfl⟩ := mem t ht
      exact coefsDie k (Config.mem_rates hk).1 _ hp d hd)
    (by
      intro hs t ht
      obtain ⟨k, hk, rfl⟩ := mem t ht
      obtain ⟨h1, h2⟩ := Config.mem_rates hk
      obtain ⟨t, ht⟩ := Option.isSome_iff_exists.1 ((tables_exist h1 hv.precision).2 (hv.iir hf))
      have := hsse hs k h1 h2 t ht
      unfold iirDecs
      rw [ht]
      exact this)
    (X := 2 ^ 36) (by positivity) (by
      refine le_trans (mul_le_mul_of_nonneg_right g1 (by positivity)) ?_
      norm_num)
    xs _ (by rw [List.map_map]; exact hrel) hxM
  have h0 : ∀ j ≥ N, seq xs j = 0 := by
    intro j hj
    have := hN j hj
    rw [hxs, seq_fin] at this
    exact Option.some.inj this
  rw [hz, seq_fin, z1 N h0 n]
  · rfl
  · rw [List.length_map]
    revert hn
    unfold late Config.silence
    cases cfg.mode <;> simp only [g2] <;> exact id

/-- The times in samples of the lower rate: at most 4090, which is less than 0.1 seconds at 44.1 kHz. -/
theorem C77_times (cfg : Config) (hv : cfg.Valid) (hf : cfg.filter = .iir) : match cfg.mode with
    | .up => cfg.silence ≤ 4090
    | .down => cfg.silence ≤ cfg.ratio * 4090 := by
  have hp : cfg.precision ∈ [8, 12, 16, 20, 24] := by
    have h1 := hv.precision
    have h2 := hv.iir hf
    simp at h1 ⊢
    omega
  have key : ∀ r ∈ [1, 2, 4, 8], ∀ p ∈ [8, 12, 16, 20, 24], (Examples.cfg .up r p true .iir).silence ≤ 4090 ∧
      (Examples.cfg .down r p true .iir).silence ≤ r * 4090 := by decide +kernel
  have := key cfg.ratio hv.ratio cfg.precision hp
  rcases cfg with ⟨b, al, m, r, p, u, f⟩
  cases m
  · exact this.1
  · exact this.2

/-! ## SSE with odd numbers of coefficients -/

/-- binary32 as on x86 with FTZ. -/
abbrev Ftz := Fl binary32ftz

private def coef1 : Ftz := Sample.ofDouble (iir2x8[1]'(by decide)).toRat

private def ringStep (s : Ftz × Ftz) : Ftz × Ftz :=
  ((0 - s.1) * coef1 + 0, ((0 - s.1) * coef1 + 0 - s.2) * 1 + s.1)

private def ringState (n : Nat) : Ftz × Ftz := (allpass coef1 (seq [1]) n, allpass 1 (allpass coef1 (seq [1])) n)

private theorem ringState_iter (n : Nat) : ringState (n + 1) = ringStep^[n] (ringState 1) := by
  induction n with
  | zero => rfl
  | succ n ih =>
    rw [show ringState (n + 1 + 1) = ringStep (ringState (n + 1)) from rfl, ih, Function.iterate_succ_apply']

private theorem ring_at : ringState 149 = ((0 : Ftz), Fl.fin ringLevel) := by
  rw [show 149 = 148 + 1 from rfl, ringState_iter]
  decide +kernel

private theorem ring_pos : ringStep ((0 : Ftz), Fl.fin ringLevel) = ((0 : Ftz), Fl.fin (-ringLevel)) := by decide +kernel

private theorem ring_neg : ringStep ((0 : Ftz), Fl.fin (-ringLevel)) = ((0 : Ftz), Fl.fin ringLevel) := by decide +kernel

private theorem ring_forever (k : Nat) : ringState (149 + k) = ((0 : Ftz), Fl.fin ringLevel) ∨
    ringState (149 + k) = ((0 : Ftz), Fl.fin (-ringLevel)) := by
  induction k with
  | zero => exact Or.inl ring_at
  | succ k ih =>
    have e : ringState (149 + (k + 1)) = ringStep (ringState (149 + k)) := by
      rw [show 149 + (k + 1) = (148 + k) + 2 by omega, show 149 + k = 148 + k + 1 by omega]
      rfl
    rw [e]
    rcases ih with h | h <;> rw [h]
    · exact Or.inr ring_pos
    · exact Or.inl ring_neg

private theorem impulse_seq (Z : Nat) : seq ((1 : Ftz) :: List.replicate Z 0) = seq [1] := by
  funext i
  cases i with
  | zero => rfl
  | succ i =>
    simp only [seq, List.getD_eq_getElem?_getD, List.getElem?_cons_succ, List.getElem?_replicate, List.getElem?_nil]
    split <;> rfl

/-- **C77 is false for SSE filters with an odd number of coefficients**: 8 bits, ratio 2, a single 1 followed by zeros, however many: every
second output sample from number 299 on is plus or minus `7869243 / 2^48`, although subnormal numbers are flushed to zero. -/
theorem C77_false_sse_rings (cfg : Config) (hv : cfg.Valid) (hf : cfg.filter = .iir) (hm : cfg.mode = .up) (h2 : cfg.ratio = 2)
    (h8 : cfg.precision = 8) (hsse : cfg.iirSse = true) (ops : List (Op Ftz)) (hc : ∀ op ∈ ops, cfg.OpOk op)
    (r : Resampler Ftz) (os : List (Option (Buf Ftz))) (h : cfg.session ops = .ok (r, os)) (Z : Nat)
    (hfed : fed ops = 1 :: List.replicate Z 0) (m : Nat) (hm1 : 149 ≤ m) (hle : m ≤ Z) :
    ∃ y : ℚ, seq (cfg.produced ops os) (2 * m + 1) = Fl.fin y ∧ |y| = 7869243 / 2 ^ 48 := by
  have hrel := Config.session_rel' hv hc h
  rw [Config.stages_two h2] at hrel
  have ht : iirTable 2 8 = some (iir2x8, iirTable 2 8 |>.get (by decide) |>.2) := rfl
  simp only [Config.stage, hf, hm, h8] at hrel
  rw [ht] at hrel
  obtain ⟨ys, hr, hz⟩ := hrel
  have hz : cfg.produced ops os = ys := hz
  have := (hr.2 m (by rw [hfed]; simp; omega)).2
  rw [hfed, impulse_seq] at this
  rw [hz, this]
  have hl : |ringLevel| = 7869243 / 2 ^ 48 := abs_of_pos (by norm_num [ringLevel])
  have e : iirBranch1 cfg.iirSse (iir2x8.map fun d => (Sample.ofDouble d.toRat : Ftz)).length
      (seq (iir2x8.map fun d => (Sample.ofDouble d.toRat : Ftz))) (seq [1]) m = (ringState m).2 := by
    unfold iirBranch1 ringState
    have l : (iir2x8.map fun d => (Sample.ofDouble d.toRat : Ftz)).length = 3 := rfl
    have hb : branchOut 3 (seq (iir2x8.map fun d => (Sample.ofDouble d.toRat : Ftz))) 1 (seq [1]) = allpass coef1 (seq [1]) := rfl
    rw [l, hb, if_pos ⟨hsse, rfl⟩]
  rw [e]
  obtain ⟨k, rfl⟩ := Nat.exists_eq_add_of_le hm1
  rcases ring_forever k with e | e <;> rw [e]
  · exact ⟨_, rfl, hl⟩
  · exact ⟨_, rfl, by rw [abs_neg, hl]⟩

/-! ## Sessions -/

/-- A call with a single 1 and then zeros, in any format. -/
def impulseIn (S : Format) (n ratio : ℕ) : Call (Fl S) :=
  { st := { block16 := 5, tmpAddr := 4, tmp2Addr := 8, junk := fun _ => 0 },
    input := { addr := 4, len := n, get := fun i => if i = 0 then 1 else 0 }, n := n,
    output := { addr := 100, len := ratio * n, get := fun _ => 0 } }

private theorem fed_impulse (S : Format) (Z ratio : ℕ) : fed [Op.process (impulseIn S (Z + 1) ratio)] = 1 :: List.replicate Z 0 := by
  show Call.samples _ = _
  unfold Call.samples impulseIn
  simp only [List.range_succ_eq_map, List.map_cons, List.map_map]
  refine congrArg₂ _ rfl ?_
  rw [List.eq_replicate_iff]
  simp

/-- C77 for real sessions with FTZ: an impulse and `Z` zeros. Upsampling by 8 with 24 bits without SSE gets silent; upsampling by 2 with 8
bits and SSE does not. -/
example (Z : ℕ) (hZ : Z < 2 ^ 20) :
    (∃ q, (cfg .up 8 24 false .iir).session [Op.process (impulseIn binary32ftz (Z + 1) 8)] = .ok q ∧
      ∀ n, 8 * 4091 ≤ n → seq ((cfg .up 8 24 false .iir).produced [Op.process (impulseIn binary32ftz (Z + 1) 8)] q.2) n = 0) ∧
    ∃ q, (cfg .up 2 8 true .iir).session [Op.process (impulseIn binary32ftz (Z + 1) 2)] = .ok q ∧
      ∀ m, 149 ≤ m → m ≤ Z → seq ((cfg .up 2 8 true .iir).produced [Op.process (impulseIn binary32ftz (Z + 1) 2)] q.2) (2 * m + 1) ≠ 0 := by
  have hc : ∀ b p (ratio : ℕ), ratio = 2 ∨ ratio = 8 → ∀ op ∈ [Op.process (impulseIn binary32ftz (Z + 1) ratio)], (cfg .up ratio p b .iir).OpOk op := by
    intro b p ratio hr op hop
    simp only [List.mem_cons, List.not_mem_nil, or_false] at hop
    subst hop
    refine ⟨by show Z + 1 < _; omega, le_rfl, by show (Z + 1) * ratio ≤ ratio * (Z + 1); rw [Nat.mul_comm], ?_, ?_, ?_, ?_⟩
    · simp [cfg]
    · rcases hr with rfl | rfl <;> simp [cfg]
    · exact fun _ _ => Or.inr (Nat.succ_pos Z)
    · rcases hr with rfl | rfl <;> simp [cfg]
  have hv : (cfg .up 8 24 false .iir).Valid := ⟨by decide, by decide, by decide⟩
  have hv2 : (cfg .up 2 8 true .iir).Valid := ⟨by decide, by decide, by decide⟩
  obtain ⟨r, os, h, -⟩ := C04_output_frame _ hv _ (hc false 24 8 (by simp))
  obtain ⟨r2, os2, h2, -⟩ := C04_output_frame _ hv2 _ (hc true 8 2 (by simp))
  refine ⟨⟨_, h, fun n hn => ?_⟩, ⟨_, h2, fun m hm hle => ?_⟩⟩
  · refine C77_exactly_silent_partial flushing_ftz _ hv rfl (by intro h; exact absurd h (by decide)) _ (hc _ _ _ (by simp)) r os h ?_ 1 ?_ n ?_
    · intro v hv
      rw [fed_impulse] at hv
      rcases List.mem_cons.1 hv with rfl | hv
      · exact ⟨1, rfl, by norm_num⟩
      · rw [List.eq_of_mem_replicate hv]
        exact ⟨0, rfl, by norm_num⟩
    · intro j hj
      rw [fed_impulse]
      obtain ⟨i, rfl⟩ := Nat.exists_eq_succ_of_ne_zero (show j ≠ 0 by omega)
      simp only [seq, List.getD_eq_getElem?_getD, Nat.succ_eq_add_one, List.getElem?_cons_succ, List.getElem?_replicate]
      split <;> rfl
    · have := C77_times _ hv rfl
      simp only [cfg] at this ⊢
      omega
  · obtain ⟨y, hy, hl⟩ := C77_false_sse_rings _ hv2 rfl rfl rfl rfl rfl _ (hc _ _ _ (by simp)) r2 os2 h2 Z (fed_impulse _ Z 2) m hm hle
    rw [hy]
    intro h0
    have h0 : (some y : Option ℚ) = some 0 := h0
    cases h0
    norm_num at hl

end Panda
