import Verif.Props.Gain
import Verif.Proofs.Reverse

/-!
# FIR resamplers treat both directions of time alike (C108)

Exact arithmetic over any commutative ring, any constants (the taps may be rounded).
-/

set_option linter.unusedSectionVars false

namespace Panda

open Examples Finset

section Exact

variable {K : Type} [CommRing K] [Sample K]

/-- **C108** A signal `a` and its reversal, each followed by enough silence: what the resampler makes of the second is the reversal of what it makes
of the first, and then silence. The last sample that is not silent is `T`: the length of `a` less one, converted to the rate of the output, plus twice
`delay()` (which has to be a whole number, DOWN). -/
theorem C108_reversal (cfg : Config) (hv : cfg.Valid) (hf : cfg.filter = .fir) (a : List K) (ha : a ≠ []) (Z : ℕ)
    (ops ops' : List (Op K)) (hc : ∀ op ∈ ops, cfg.OpOk op) (hc' : ∀ op ∈ ops', cfg.OpOk op)
    (r r' : Resampler K) (os os' : List (Option (Buf K)))
    (h : cfg.session ops = .ok (r, os)) (h' : cfg.session ops' = .ok (r', os'))
    (hfed : fed ops = a ++ List.replicate Z 0) (hfed' : fed ops' = a.reverse ++ List.replicate Z 0)
    (d : ℚ) (hd : r.delay = .ok d) (T : ℕ)
    (hT : (T : ℚ) = (match cfg.mode with | .up => ((a.length : ℚ) - 1) * cfg.ratio | .down => ((a.length : ℚ) - 1) / cfg.ratio) + 2 * d)
    (hlen : T < (cfg.produced ops os).length) :
    (cfg.produced ops' os').length = (cfg.produced ops os).length ∧
    ∀ n < (cfg.produced ops os).length, seq (cfg.produced ops' os') n = if n ≤ T then seq (cfg.produced ops os) (T - n) else 0 := by
  obtain ⟨hl, ho⟩ := Config.session_op hv hc h
  obtain ⟨hl', ho'⟩ := Config.session_op hv hc' h'
  have hll : (cfg.produced ops' os').length = (cfg.produced ops os).length := by
    rw [hl, hl', hfed, hfed']
    simp
  refine ⟨hll, fun n hn => ?_⟩
  have hd' : r.delay = .ok cfg.totalDelay := Config.Reachable.delay hv ⟨ops, os, hc, h⟩
  rw [hd', Except.ok.injEq] at hd
  subst hd
  have hr : Rev (T : ℤ) (cfg.op (seq (fed ops))) (cfg.op (seq (fed ops'))) := by
    rw [hfed, hfed']
    refine Rev.config hv hf (L := (a.length : ℤ) - 1) ?_ (Rev.list ha Z)
    push_cast
    exact hT
  have h1 := hr n
  rw [zext, if_pos (by omega), Int.toNat_natCast, ← ho' n (hll ▸ hn)] at h1
  rw [h1, zext]
  split
  · next h0 => rw [if_pos (by omega), show ((T : ℤ) - n).toNat = T - n by omega, ho _ (by omega)]
  · next h0 => rw [if_neg (by omega)]

end Exact

/-- One call for any samples. -/
private theorem runs (fl : Mode) (ratio : ℕ) (hr : ratio ∈ [2, 4, 8]) (xs : List Rat) (hx : xs.length < 2 ^ 20) (h0 : xs.length % ratio = 0) :
    ∃ (ops : List (Op Rat)) (r : Resampler Rat) (os : List (Option (Buf Rat))), (cfg fl ratio 16 true .fir).Valid ∧
      (∀ op ∈ ops, (cfg fl ratio 16 true .fir).OpOk op) ∧ (cfg fl ratio 16 true .fir).session ops = .ok (r, os) ∧ fed ops = xs := by
  have hv : (cfg fl ratio 16 true .fir).Valid := by
    simp only [List.mem_cons, List.not_mem_nil, or_false] at hr
    rcases hr with rfl | rfl | rfl <;> cases fl <;> exact ⟨by decide, by decide, by decide⟩
  let c : Call Rat :=
    { st := someStack, input := { addr := 4, len := xs.length, get := seq xs }, n := xs.length,
      output := outBuf ((cfg fl ratio 16 true .fir).outLen xs.length) }
  have hc : ∀ op ∈ [Op.process c], (cfg fl ratio 16 true .fir).OpOk op := by
    intro op hop
    simp only [List.mem_cons, List.not_mem_nil, or_false] at hop
    subst hop
    exact ⟨by show xs.length < _; omega, le_rfl, le_rfl, fun _ => h0, fun _ _ _ => by show xs.length < _; omega, by simp [cfg], by simp [cfg]⟩
  obtain ⟨r, os, h, -⟩ := C04_output_frame _ hv _ hc
  refine ⟨_, r, os, hv, hc, h, ?_⟩
  show [] ++ (List.range xs.length).map (seq xs) = xs
  rw [List.nil_append]
  exact List.ext_getElem (by simp) fun i h1 h2 => by simp [seq_lt h2]

/-- Any eight samples, upsampled by 4: sessions as in C108. -/
example (a : List Rat) (ha : a.length = 8) : ∃ (ops ops' : List (Op Rat)) (q q' : Resampler Rat × List (Option (Buf Rat))) (T : ℕ),
    (cfg .up 4 16 true .fir).session ops = .ok q ∧ (cfg .up 4 16 true .fir).session ops' = .ok q' ∧
    ((cfg .up 4 16 true .fir).produced ops q.2).length = 800 ∧ T < 800 ∧ ∀ n ≤ T,
      seq ((cfg .up 4 16 true .fir).produced ops' q'.2) n = seq ((cfg .up 4 16 true .fir).produced ops q.2) (T - n) := by
  obtain ⟨ops, r, os, hv, hc, h, hfed⟩ := runs .up 4 (by simp) (a ++ List.replicate 192 0)
    (by rw [List.length_append, List.length_replicate, ha]; decide) (by rw [List.length_append, List.length_replicate, ha])
  obtain ⟨ops', r', os', -, hc', h', hfed'⟩ := runs .up 4 (by simp) (a.reverse ++ List.replicate 192 0)
    (by rw [List.length_append, List.length_replicate, List.length_reverse, ha]; decide)
    (by rw [List.length_append, List.length_replicate, List.length_reverse, ha])
  have hd : r.delay = .ok (cfg .up 4 16 true .fir).totalDelay := Config.Reachable.delay hv ⟨ops, os, hc, h⟩
  have hl : ((cfg .up 4 16 true .fir).produced ops os).length = 800 := by
    rw [(Config.session_op hv hc h).1, hfed, List.length_append, List.length_replicate, ha]
    decide
  have hT : ((28 + 2 * (cfg .up 4 16 true .fir).totalDelay).num.toNat : ℚ) = 28 + 2 * (cfg .up 4 16 true .fir).totalDelay := by decide +kernel
  have hlt : (28 + 2 * (cfg .up 4 16 true .fir).totalDelay).num.toNat < 800 := by decide +kernel
  obtain ⟨-, hq⟩ := C108_reversal (cfg .up 4 16 true .fir) hv rfl a (by rintro rfl; simp at ha) 192 ops ops' hc hc' r r' os os' h h' hfed hfed' _ hd
    _ (hT.trans (by rw [ha]; show _ = ((8 : ℕ) - 1 : ℚ) * (4 : ℕ) + _; norm_num)) (by rw [hl]; exact hlt)
  exact ⟨ops, ops', _, _, _, h, h', hl, hlt, fun n hn => by rw [hq n (by omega), if_pos hn]⟩

/-- Downsampling by 2: the length of the signal has to be odd. -/
example (a : List Rat) (ha : a.length = 9) : ∃ (ops ops' : List (Op Rat)) (q q' : Resampler Rat × List (Option (Buf Rat))) (T : ℕ),
    (cfg .down 2 16 true .fir).session ops = .ok q ∧ (cfg .down 2 16 true .fir).session ops' = .ok q' ∧
    ((cfg .down 2 16 true .fir).produced ops q.2).length = 100 ∧ T < 100 ∧ ∀ n ≤ T,
      seq ((cfg .down 2 16 true .fir).produced ops' q'.2) n = seq ((cfg .down 2 16 true .fir).produced ops q.2) (T - n) := by
  obtain ⟨ops, r, os, hv, hc, h, hfed⟩ := runs .down 2 (by simp) (a ++ List.replicate 191 0)
    (by rw [List.length_append, List.length_replicate, ha]; decide) (by rw [List.length_append, List.length_replicate, ha])
  obtain ⟨ops', r', os', -, hc', h', hfed'⟩ := runs .down 2 (by simp) (a.reverse ++ List.replicate 191 0)
    (by rw [List.length_append, List.length_replicate, List.length_reverse, ha]; decide)
    (by rw [List.length_append, List.length_replicate, List.length_reverse, ha])
  have hd : r.delay = .ok (cfg .down 2 16 true .fir).totalDelay := Config.Reachable.delay hv ⟨ops, os, hc, h⟩
  have hl : ((cfg .down 2 16 true .fir).produced ops os).length = 100 := by
    rw [(Config.session_op hv hc h).1, hfed, List.length_append, List.length_replicate, ha]
    decide
  have hT : ((4 + 2 * (cfg .down 2 16 true .fir).totalDelay).num.toNat : ℚ) = 4 + 2 * (cfg .down 2 16 true .fir).totalDelay := by decide +kernel
  have hlt : (4 + 2 * (cfg .down 2 16 true .fir).totalDelay).num.toNat < 100 := by decide +kernel
  obtain ⟨-, hq⟩ := C108_reversal (cfg .down 2 16 true .fir) hv rfl a (by rintro rfl; simp at ha) 191 ops ops' hc hc' r r' os os' h h' hfed hfed' _ hd
    _ (hT.trans (by rw [ha]; show _ = ((9 : ℕ) - 1 : ℚ) / (2 : ℕ) + _; norm_num)) (by rw [hl]; exact hlt)
  exact ⟨ops, ops', _, _, _, h, h', hl, hlt, fun n hn => by rw [hq n (by omega), if_pos hn]⟩

end Panda
