import Verif.Props.Freq
import Verif.Proofs.Scale

/-!
# Inverting the polarity and changing the level by powers of two (C87, C88)

Two sessions of the same shape: the same calls with buffers of the same sizes at the same places (that matters, because the vectorised
loops sum up in an order that depends on it).
-/

namespace Panda

open Examples

/-! ## C87 -/

/-- **C87** Inverting the polarity is exact to the last bit, for every configuration, FIR and IIR, with and without SSE, in binary32, and in
binary32 without subnormal numbers: if the samples fed since the last reset are the negated ones, then so are the samples produced.
Infinities and NaNs turn up at the same places in both. -/
theorem C87_polarity {S : Format} (hS : S = binary32 ∨ S = binary32ftz ∨ S = binary32fz) (cfg : Config) (hv : cfg.Valid)
    (ops ops' : List (Op (Fl S))) (hc : ∀ op ∈ ops, cfg.OpOk op) (hs : SameShape ops ops') (hx : fed ops' = (fed ops).map Fl.neg) :
    ∃ r os r' os', cfg.session ops = .ok (r, os) ∧ cfg.session ops' = .ok (r', os') ∧
      cfg.produced ops' os' = (cfg.produced ops os).map Fl.neg := by
  refine Config.session_homog hv (Fl.homog_neg ?_) hc hs hx
  rcases hS with rfl | rfl | rfl
  · exact binary32_odd
  · exact binary32ftz_odd
  · exact binary32fz_odd

/-- A ramp of odd multiples of 1/7, rounded, and the falling one. -/
example : ∃ r os r' os', (cfg .up 4 16 true .iir).session [Op.process (call32 (fun i => rnd32 ((i - 31) / 7)) 64 256)] = .ok (r, os) ∧
    (cfg .up 4 16 true .iir).session [Op.process (call32 (fun i => rnd32 ((31 - i) / 7)) 64 256)] = .ok (r', os') ∧
    (cfg .up 4 16 true .iir).produced [Op.process (call32 (fun i => rnd32 ((31 - i) / 7)) 64 256)] os' =
      ((cfg .up 4 16 true .iir).produced [Op.process (call32 (fun i => rnd32 ((i - 31) / 7)) 64 256)] os).map Fl.neg := by
  refine C87_polarity (.inl rfl) _ ⟨by decide, by decide, by decide⟩ _ _ ?_ ⟨⟨rfl, rfl, rfl, rfl, rfl, rfl, rfl, rfl⟩, trivial⟩ ?_
  · intro op hop
    simp only [List.mem_cons, List.not_mem_nil, or_false] at hop
    subst hop
    exact ⟨by decide, by decide, by decide, by decide, by decide, by decide, by decide⟩
  · rw [fed_call32, fed_call32, List.map_map]
    refine List.map_congr_left fun i _ => ?_
    refine congrArg some (Eq.trans ?_ (rnd32_neg' _))
    congr 1
    ring

/-! ## C88 -/

/-- The number times `2^k`, without rounding; "not a number" stays what it is. -/
def Fl.scale {S : Format} (k : ℤ) (a : Fl S) : Fl S := Option.map (fun q : ℚ => q * 2 ^ k) a

private theorem fed_pair {k : ℤ} {ops ops' : List (Op F32)} {xs : List (Two F32)} (ha : fed ops = xs.map Two.a)
    (hb : fed ops' = xs.map Two.b) (hx : fed ops' = (fed ops).map (Fl.scale k)) (hg : ∀ q, Fl.fin q ∈ fed ops → OnGrid 25 q)
    (hg' : ∀ q, Fl.fin q ∈ fed ops' → OnGrid 25 q) : ∀ p ∈ xs, scaleD k 25 p := by
  intro p hp x y h1 h2
  refine ⟨?_, hg x (by rw [ha, ← h1]; exact List.mem_map_of_mem hp), hg' y (by rw [hb, ← h2]; exact List.mem_map_of_mem hp)⟩
  rw [ha, hb, List.map_map] at hx
  have := List.map_inj_left.1 hx p hp
  rw [h2, Function.comp_apply, h1] at this
  exact Option.some.inj this

/-- **C88** Changing the level by a power of two is exact to the last bit for FIR resamplers in binary32, for every ratio, precision, with
and without SSE: if the fed samples are multiplied by `2^k`, and both the original and the multiplied ones are multiples of `2^-25` (any
24 bit audio samples, even at a quarter of full scale), then every output sample is multiplied by `2^k` exactly, unless one of
the two overflows; with samples up to `2^100` none does.
Missing: input samples that are no multiples of `2^-25`; for very small ones the claim is false (`C88_false_tiny`), because products
get below the smallest binary32 number. IIR filters, whose state decays into that range; for very small samples the claim is false there,
too (the same theorem). -/
theorem C88_power_of_two_partial (cfg : Config) (hv : cfg.Valid) (hf : cfg.filter = .fir) (k : ℤ)
    (ops ops' : List (Op F32)) (hc : ∀ op ∈ ops, cfg.OpOk op) (hs : SameShape ops ops') (hx : fed ops' = (fed ops).map (Fl.scale k))
    (hg : ∀ q, Fl.fin q ∈ fed ops → ∃ z : ℤ, q = z / 2 ^ 25) (hg' : ∀ q, Fl.fin q ∈ fed ops' → ∃ z : ℤ, q = z / 2 ^ 25) :
    ∃ r os r' os', cfg.session ops = .ok (r, os) ∧ cfg.session ops' = .ok (r', os') ∧
      (cfg.produced ops' os').length = (cfg.produced ops os).length ∧
      (∀ n y y', seq (cfg.produced ops os) n = Fl.fin y → seq (cfg.produced ops' os') n = Fl.fin y' → y' = y * 2 ^ k) ∧
      ((∀ v ∈ fed ops ++ fed ops', ∃ q, v = Fl.fin q ∧ |q| ≤ 2 ^ 100) →
        cfg.produced ops' os' = (cfg.produced ops os).map (Fl.scale k)) := by
  obtain ⟨r, os, r', os', h1, h2, xs, ys, hrel, ha, hb, pa, pb⟩ := Config.session_pairs hv hc hs
  have hD := stages_scale hv hf (fed_pair ha hb hx hg hg') hrel
  refine ⟨r, os, r', os', h1, h2, by rw [pa, pb, List.length_map, List.length_map], ?_, ?_⟩
  · intro n y y' e e'
    rw [pa] at e
    rw [pb] at e'
    rcases Nat.lt_or_ge n ys.length with hn | hn
    · have q1 : seq (ys.map Two.a) n = ys[n].a := by simp [seq, List.getD_eq_getElem?_getD, hn]
      have q2 : seq (ys.map Two.b) n = ys[n].b := by simp [seq, List.getD_eq_getElem?_getD, hn]
      exact (hD ys[n] (List.getElem_mem hn) y y' (q1.symm.trans e) (q2.symm.trans e')).1
    · have q1 : seq (ys.map Two.a) n = 0 := by simp [seq, List.getD_eq_getElem?_getD, hn]
      have q2 : seq (ys.map Two.b) n = 0 := by simp [seq, List.getD_eq_getElem?_getD, hn]
      rw [← Option.some.inj (q1.symm.trans e), ← Option.some.inj (q2.symm.trans e')]
      simp
  · intro hM
    have o1 := C22_no_overflow cfg hv hf ops hc r os h1 (2 ^ 100) le_rfl fun v hv => hM v (by simp [hv])
    have o2 := C22_no_overflow cfg hv hf ops' (hs.opOk hc) r' os' h2 (2 ^ 100) le_rfl fun v hv => hM v (by simp [hv])
    rw [pa] at o1 ⊢
    rw [pb] at o2 ⊢
    rw [List.map_map]
    refine List.map_congr_left fun p hp => ?_
    obtain ⟨y, e, -⟩ := o1 p.a (List.mem_map_of_mem hp)
    obtain ⟨y', e', -⟩ := o2 p.b (List.mem_map_of_mem hp)
    rw [Function.comp_apply, e', e, (hD p hp y y' e e').1]
    rfl

/-- 24 bit samples at full scale, and 12 dB below. -/
example : ∃ r os r' os', (cfg .up 8 24 true .fir).session [Op.process (call32 (fun i => (12345 * (i : ℤ) % 16777216 - 8388608 : ℤ) / 2 ^ 23) 100 800)]
      = .ok (r, os) ∧
    (cfg .up 8 24 true .fir).session [Op.process (call32 (fun i => (12345 * (i : ℤ) % 16777216 - 8388608 : ℤ) / 2 ^ 25) 100 800)] = .ok (r', os') ∧
    (cfg .up 8 24 true .fir).produced [Op.process (call32 (fun i => (12345 * (i : ℤ) % 16777216 - 8388608 : ℤ) / 2 ^ 25) 100 800)] os' =
      ((cfg .up 8 24 true .fir).produced [Op.process (call32 (fun i => (12345 * (i : ℤ) % 16777216 - 8388608 : ℤ) / 2 ^ 23) 100 800)] os).map
        (Fl.scale (-2)) := by
  obtain ⟨r, os, r', os', h1, h2, -, -, h3⟩ := C88_power_of_two_partial (cfg .up 8 24 true .fir) ⟨by decide, by decide, by decide⟩ rfl (-2)
    [Op.process (call32 (fun i => (12345 * (i : ℤ) % 16777216 - 8388608 : ℤ) / 2 ^ 23) 100 800)]
    [Op.process (call32 (fun i => (12345 * (i : ℤ) % 16777216 - 8388608 : ℤ) / 2 ^ 25) 100 800)] (by
      intro op hop
      simp only [List.mem_cons, List.not_mem_nil, or_false] at hop
      subst hop
      exact ⟨by decide, by decide, by decide, by decide, by decide, by decide, by decide⟩)
    ⟨⟨rfl, rfl, rfl, rfl, rfl, rfl, rfl, rfl⟩, trivial⟩ (by
      rw [fed_call32, fed_call32, List.map_map]
      refine List.map_congr_left fun i _ => congrArg some ?_
      show _ = _ * (2 : ℚ) ^ (-2 : ℤ)
      rw [div_mul_eq_mul_div, div_eq_div_iff (by norm_num) (by norm_num), mul_assoc]
      norm_num) (by
      intro q hq
      rw [fed_call32] at hq
      obtain ⟨i, -, e⟩ := List.mem_map.1 hq
      refine ⟨(12345 * (i : ℤ) % 16777216 - 8388608) * 4, ?_⟩
      rw [← Option.some.inj e]
      push_cast
      ring) (by
      intro q hq
      rw [fed_call32] at hq
      obtain ⟨i, -, e⟩ := List.mem_map.1 hq
      exact ⟨12345 * (i : ℤ) % 16777216 - 8388608, (Option.some.inj e).symm⟩)
  refine ⟨r, os, r', os', h1, h2, h3 ?_⟩
  have bound : ∀ i : ℕ, |((12345 * (i : ℤ) % 16777216 - 8388608 : ℤ) : ℚ)| ≤ 2 ^ 23 := by
    intro i
    have a := Int.emod_nonneg (12345 * (i : ℤ)) (show (16777216 : ℤ) ≠ 0 by decide)
    have b := Int.emod_lt_of_pos (12345 * (i : ℤ)) (show (0 : ℤ) < 16777216 by decide)
    rw [← Int.cast_abs]
    have : |12345 * (i : ℤ) % 16777216 - 8388608| ≤ 2 ^ 23 := by rw [abs_le]; omega
    exact_mod_cast this
  intro v hv
  rw [fed_call32, fed_call32] at hv
  rcases List.mem_append.1 hv with hv | hv <;> obtain ⟨i, -, rfl⟩ := List.mem_map.1 hv <;> refine ⟨_, rfl, ?_⟩ <;>
    rw [abs_div, div_le_iff₀ (by positivity)] <;> refine (bound i).trans ?_ <;> norm_num

/-- A call with equal samples `q`; the buffers have room for more. -/
def tinyCall (q : ℚ) (m : Mode) : Call F32 :=
  { st := { block16 := 5, tmpAddr := 4, tmp2Addr := 8, junk := fun _ => 0 },
    input := { addr := 4, len := 16, get := fun _ => Fl.fin q },
    n := match m with
      | .up => 1
      | .down => 8,
    output := { addr := 64, len := 16, get := fun _ => 0 } }

/-- The first output sample of this call. -/
private def tinyOut (c : Config) (q : ℚ) : F32 :=
  match c.session [Op.process (tinyCall q c.mode)] with
  | .ok s => seq (c.produced [Op.process (tinyCall q c.mode)] s.2) 0
  | .error _ => none

private def tinyDiffers (a b : F32) : Bool :=
  match a, b with
  | some y, some y' => decide (y' ≠ y * 2 ^ 100)
  | _, _ => false

private theorem tiny_table : ∀ m ∈ [Mode.up, .down], ∀ r ∈ [2, 4, 8], ∀ p ∈ [8, 12, 16, 20, 24], ∀ s ∈ [true, false],
    ∀ f ∈ [Filter.fir, .iir], tinyDiffers (tinyOut (cfg m r p s f) (2⁻¹ ^ 149)) (tinyOut (cfg m r p s f) (2⁻¹ ^ 49)) = true := by
  decide +kernel

private theorem tinyDiffers_spec {a b : F32} (h : tinyDiffers a b = true) : ∃ y y', a = Fl.fin y ∧ b = Fl.fin y' ∧ y' ≠ y * 2 ^ 100 := by
  match a, b, h with
  | some y, some y', h => exact ⟨y, y', rfl, rfl, of_decide_eq_true h⟩
  | some _, none, h => cases h
  | none, some _, h => cases h
  | none, none, h => cases h

private theorem tinyOut_spec {c : Config} {q y : ℚ} (h : tinyOut c q = Fl.fin y) : ∃ r os,
    c.session [Op.process (tinyCall q c.mode)] = .ok (r, os) ∧ seq (c.produced [Op.process (tinyCall q c.mode)] os) 0 = Fl.fin y := by
  unfold tinyOut at h
  split at h
  · rename_i s e
    exact ⟨s.1, s.2, e, h⟩
  · cases h

/-- **C88** is false without the assumption about multiples, for FIR and IIR, every mode, ratio and precision from 8 bits, with and without
SSE: the smallest samples of all, `2^-149`, and the same times `2^100`; the first output sample is not multiplied by `2^100`. -/
theorem C88_false_tiny (m : Mode) (k : ℕ) (hk : k ∈ [2, 4, 8]) (p : ℕ) (hp : p ∈ [8, 12, 16, 20, 24]) (s : Bool) (f : Filter) :
    ∃ ops ops' : List (Op F32), (∀ op ∈ ops, (cfg m k p s f).OpOk op) ∧ SameShape ops ops' ∧ fed ops' = (fed ops).map (Fl.scale 100) ∧
      ∃ r os r' os', (cfg m k p s f).session ops = .ok (r, os) ∧ (cfg m k p s f).session ops' = .ok (r', os') ∧
        ∃ y y', seq ((cfg m k p s f).produced ops os) 0 = Fl.fin y ∧ seq ((cfg m k p s f).produced ops' os') 0 = Fl.fin y' ∧
          y' ≠ y * 2 ^ 100 := by
  obtain ⟨y, y', h1, h2, h3⟩ := tinyDiffers_spec (tiny_table m (by cases m <;> simp) k hk p hp s (by cases s <;> simp) f
    (by cases f <;> simp))
  obtain ⟨r, os, e1, e2⟩ := tinyOut_spec h1
  obtain ⟨r', os', e1', e2'⟩ := tinyOut_spec h2
  refine ⟨[Op.process (tinyCall (2⁻¹ ^ 149) m)], [Op.process (tinyCall (2⁻¹ ^ 49) m)], ?_,
    ⟨⟨rfl, rfl, rfl, rfl, rfl, rfl, rfl, rfl⟩, trivial⟩, ?_, r, os, r', os', e1, e1', y, y', e2, e2', h3⟩
  · intro op hop
    simp only [List.mem_cons, List.not_mem_nil, or_false] at hop
    subst hop
    have hn : (tinyCall (2⁻¹ ^ 149) m).n ≤ 8 ∧ 0 < (tinyCall (2⁻¹ ^ 149) m).n := by cases m <;> decide
    have hl : (tinyCall (2⁻¹ ^ 149) m).input.len = 16 ∧ (tinyCall (2⁻¹ ^ 149) m).output.len = 16 := ⟨rfl, rfl⟩
    have ho : (cfg m k p s f).outLen (tinyCall (2⁻¹ ^ 149) m).n ≤ 8 ∧ (m = .down → (tinyCall (2⁻¹ ^ 149) m).n % k = 0) := by
      simp only [List.mem_cons, List.not_mem_nil, or_false] at hk
      rcases hk with rfl | rfl | rfl <;> cases m <;> exact ⟨by simp [Config.outLen, tinyCall, Examples.cfg], by decide⟩
    exact ⟨by omega, by omega, by omega, ho.2, fun _ _ _ => by omega, fun _ _ => .inr hn.2,
      fun _ _ _ _ _ => by omega⟩
  · have e : (2⁻¹ : ℚ) ^ 49 = 2⁻¹ ^ 149 * 2 ^ (100 : ℤ) := by norm_num
    have ef : ∀ q, fed [Op.process (tinyCall q m)] =
        (List.range (tinyCall 0 m).n).map fun _ => Fl.fin q := by
      intro q
      simp [fed, fedStep, tinyCall, Call.samples]
    rw [ef, ef, List.map_map]
    refine List.map_congr_left fun i _ => congrArg some e

end Panda
