import Verif.Props.Polarity
import Verif.Proofs.Recast

/-!
# Switching subnormal numbers off changes nothing where nothing underflows (C119)
-/

namespace Panda

open Examples

/-- **C119** For every configuration, FIR and IIR, with and without SSE, and every session: an output sample that is computed without
underflow and overflow on the way (it is a number in `normal32`) is the same in binary32, in binary32 with subnormal results flushed as on x86 (FTZ),
and with subnormal results flushed as on ARM (FZ). -/
theorem C119_flush_partial (cfg : Config) (hv : cfg.Valid) (ops : List (Op F32)) (hc : ∀ op ∈ ops, cfg.OpOk op) :
    ∃ r os rn osn rx osx ra osa, cfg.session ops = .ok (r, os) ∧
      cfg.session (ops.map Op.recast : List (Op (Fl normal32))) = .ok (rn, osn) ∧
      cfg.session (ops.map Op.recast : List (Op (Fl binary32ftz))) = .ok (rx, osx) ∧
      cfg.session (ops.map Op.recast : List (Op (Fl binary32fz))) = .ok (ra, osa) ∧
      ∀ n y, seq (cfg.produced (ops.map Op.recast) osn) n = Fl.fin y →
        seq (cfg.produced ops os) n = Fl.fin y ∧ seq (cfg.produced (ops.map Op.recast) osx) n = Fl.fin y ∧
        seq (cfg.produced (ops.map Op.recast) osa) n = Fl.fin y := by
  obtain ⟨r, os, h1, -⟩ := Config.session_spec hv hc
  obtain ⟨rn, osn, h2, -⟩ := Config.session_spec hv (recast_ok (T := normal32) hc)
  obtain ⟨rx, osx, h3, -⟩ := Config.session_spec hv (recast_ok (T := binary32ftz) hc)
  obtain ⟨ra, osa, h4, -⟩ := Config.session_spec hv (recast_ok (T := binary32fz) hc)
  refine ⟨r, os, rn, osn, rx, osx, ra, osa, h1, h2, h3, h4, fun n y e => ⟨?_, ?_, ?_⟩⟩
  · have b1 := session_recast (T := binary32) same_binary32 hv hc h2 (by rw [recast_self]; exact h1) n y e
    rw [recast_self] at b1
    exact b1
  · exact session_recast same_ftz hv hc h2 h3 n y e
  · exact session_recast same_fz hv hc h2 h4 n y e

/-- The first output sample of a call with equal samples `q`, in the arithmetic `S`. -/
def firstOut (S : Format) (c : Config) (q : ℚ) : Fl S :=
  match c.session [Op.recast (Op.process (tinyCall q c.mode))] with
  | .ok s => seq (c.produced [Op.recast (Op.process (tinyCall q c.mode))] s.2) 0
  | .error _ => none

/-- There are such samples: IIR and FIR, up and down, an ordinary constant signal. -/
example : ∀ m ∈ [Mode.up, .down], ∀ s ∈ [true, false], ∀ f ∈ [Filter.fir, .iir],
    Option.any (α := ℚ) (fun y => y ≠ 0) (firstOut normal32 (cfg m 8 12 s f) (1 / 3)) = true := by
  decide +kernel

private def flushDiffers (a b : Option ℚ) : Bool :=
  match a, b with
  | some y, some z => decide (y ≠ z)
  | _, _ => false

private theorem flush_table : ∀ m ∈ [Mode.up, .down], ∀ r ∈ [2, 4, 8], ∀ p ∈ [8, 12, 16, 20, 24], ∀ s ∈ [true, false],
    ∀ f ∈ [Filter.fir, .iir], ∃ e ∈ [126, 110, 98, 92],
      flushDiffers (firstOut binary32 (cfg m r p s f) (2⁻¹ ^ e)) (firstOut binary32ftz (cfg m r p s f) (2⁻¹ ^ e)) = true ∧
      flushDiffers (firstOut binary32 (cfg m r p s f) (2⁻¹ ^ e)) (firstOut binary32fz (cfg m r p s f) (2⁻¹ ^ e)) = true := by
  decide +kernel

private theorem flushDiffers_spec {a b : Option ℚ} (h : flushDiffers a b = true) : ∃ y z, a = some y ∧ b = some z ∧ y ≠ z := by
  match a, b, h with
  | some y, some z, h => exact ⟨y, z, rfl, rfl, of_decide_eq_true h⟩
  | some _, none, h => cases h
  | none, some _, h => cases h
  | none, none, h => cases h

private theorem firstOut_spec {S : Format} {c : Config} {q y : ℚ} (h : (firstOut S c q : Option ℚ) = some y) : ∃ r os,
    c.session ([Op.process (tinyCall q c.mode)].map Op.recast : List (Op (Fl S))) = .ok (r, os) ∧
      seq (c.produced ([Op.process (tinyCall q c.mode)].map Op.recast) os) 0 = Fl.fin y := by
  unfold firstOut at h
  split at h
  · rename_i s e
    exact ⟨s.1, s.2, e, h⟩
  · cases h

private theorem tiny_ok {m : Mode} {k : ℕ} (hk : k ∈ [2, 4, 8]) (p : ℕ) (s : Bool) (f : Filter) (q : ℚ) :
    ∀ op ∈ [Op.process (tinyCall q m)], (cfg m k p s f).OpOk op := by
  intro op hop
  simp only [List.mem_cons, List.not_mem_nil, or_false] at hop
  subst hop
  have hn : (tinyCall q m).n ≤ 8 ∧ 0 < (tinyCall q m).n := by cases m <;> exact ⟨by simp [tinyCall], by simp [tinyCall]⟩
  have hl : (tinyCall q m).input.len = 16 ∧ (tinyCall q m).output.len = 16 := ⟨rfl, rfl⟩
  have ho : (cfg m k p s f).outLen (tinyCall q m).n ≤ 8 ∧ (m = .down → (tinyCall q m).n % k = 0) := by
    simp only [List.mem_cons, List.not_mem_nil, or_false] at hk
    rcases hk with rfl | rfl | rfl <;> cases m <;> exact ⟨by simp [Config.outLen, tinyCall, Examples.cfg], by simp [tinyCall]⟩
  exact ⟨by omega, by omega, by omega, ho.2, fun _ _ _ => by omega, fun _ _ => .inr hn.2, fun _ _ _ _ _ => by omega⟩

/-- **C119** is false without that assumption, for FIR and IIR, every mode, every ratio but 1 and every precision from 8 bits, with and without
SSE: there is a call with constant samples (`2^-126`, `2^-110`, `2^-98` or `2^-92`, which are not subnormal) so that the first output sample differs from the one with FTZ, and from the one with FZ. -/
theorem C119_false_tiny (m : Mode) (k : ℕ) (hk : k ∈ [2, 4, 8]) (p : ℕ) (hp : p ∈ [8, 12, 16, 20, 24]) (s : Bool) (f : Filter) :
    ∃ ops : List (Op F32), (∀ op ∈ ops, (cfg m k p s f).OpOk op) ∧ (∀ v ∈ fed ops, ∃ q, v = Fl.fin q ∧ 2⁻¹ ^ 126 ≤ q) ∧
      ∃ r os rx osx ra osa, (cfg m k p s f).session ops = .ok (r, os) ∧
        (cfg m k p s f).session (ops.map Op.recast : List (Op (Fl binary32ftz))) = .ok (rx, osx) ∧
        (cfg m k p s f).session (ops.map Op.recast : List (Op (Fl binary32fz))) = .ok (ra, osa) ∧
        ∃ y yx ya, seq ((cfg m k p s f).produced ops os) 0 = Fl.fin y ∧ seq ((cfg m k p s f).produced (ops.map Op.recast) osx) 0 = Fl.fin yx ∧
          seq ((cfg m k p s f).produced (ops.map Op.recast) osa) 0 = Fl.fin ya ∧ y ≠ yx ∧ y ≠ ya := by
  obtain ⟨e, he, h1, h2⟩ := flush_table m (by cases m <;> simp) k hk p hp s (by cases s <;> simp) f (by cases f <;> simp)
  obtain ⟨y, yx, a1, a2, a3⟩ := flushDiffers_spec h1
  obtain ⟨y', ya, b1, b2, b3⟩ := flushDiffers_spec h2
  obtain rfl : y = y' := Option.some.inj (a1.symm.trans b1)
  obtain ⟨r, os, c1, c2⟩ := firstOut_spec a1
  obtain ⟨rx, osx, d1, d2⟩ := firstOut_spec a2
  obtain ⟨ra, osa, e1, e2⟩ := firstOut_spec b2
  rw [recast_self] at c1 c2
  refine ⟨_, tiny_ok hk p s f _, ?_, r, os, rx, osx, ra, osa, c1, d1, e1, y, yx, ya, c2, d2, e2, a3, b3⟩
  intro v hv
  have ef : fed [Op.process (tinyCall (2⁻¹ ^ e) m)] = (List.range (tinyCall 0 m).n).map fun _ => Fl.fin (2⁻¹ ^ e) := by
    simp [fed, fedStep, tinyCall, Call.samples]
  have hv : v ∈ fed [Op.process (tinyCall (2⁻¹ ^ e) m)] := hv
  rw [ef] at hv
  obtain ⟨-, -, rfl⟩ := List.mem_map.1 hv
  refine ⟨_, rfl, ?_⟩
  refine pow_le_pow_of_le_one (by norm_num) (by norm_num) ?_
  simp only [List.mem_cons, List.not_mem_nil, or_false] at he
  omega

end Panda
