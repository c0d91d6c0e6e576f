import Verif.Props.Energy
import Verif.Proofs.Float

/-!
# IIR filters with SSE compared to IIR filters without, bit by bit (C25, C24)
-/

set_option linter.unusedSectionVars false

namespace Panda

open Examples

section even

variable {F : Type} [Zero F] [One F] [Add F] [Sub F] [Mul F] [Sample F]

/-- The same filter without SSE. -/
private def Stage.fpu : Stage F → Stage F
  | .iirUp _ c => .iirUp false c
  | .iirDown _ c => .iirDown false c
  | s => s

/-- An IIR filter with an even number of coefficients. -/
private def Stage.EvenIir : Stage F → Prop
  | .iirUp _ c => c.length % 2 = 0
  | .iirDown _ c => c.length % 2 = 0
  | _ => False

private theorem rel_fpu (ha : ∀ a b : F, a + b = b + a) (hm : ∀ a b : F, a * b = b * a) {s : Stage F} (hs : s.EvenIir)
    {xs ys : List F} (h : s.Rel xs ys) : s.fpu.Rel xs ys := by
  have e : ∀ (sse : Bool) (c : List F), c.length % 2 = 0 → ∀ x, iirBranch1 sse c.length (seq c) x = iirBranch1 false c.length (seq c) x := by
    intro sse c hc x
    unfold iirBranch1
    rw [if_neg (by omega), if_neg (by omega)]
  cases s with
  | iirUp sse c =>
    refine ⟨h.1, fun m hlt => ?_⟩
    have := h.2 m hlt
    rw [e sse c hs] at this
    exact this
  | iirDown sse c =>
    refine ⟨h.1, fun m hlt => ?_⟩
    have := h.2 m hlt
    rw [e sse c hs] at this
    rw [if_neg (by simp)]
    rw [this]
    split
    · rw [hm, ha]
    · rfl
  | firUp v c => exact hs.elim
  | firDown v c => exact hs.elim

private theorem cascade_fpu (ha : ∀ a b : F, a + b = b + a) (hm : ∀ a b : F, a * b = b * a) {ss : List (Stage F)}
    (hs : ∀ s ∈ ss, s.EvenIir) {xs ys : List F} (h : CascadeRel ss xs ys) : CascadeRel (ss.map Stage.fpu) xs ys := by
  induction ss generalizing xs with
  | nil => exact h
  | cons s ss ih =>
    obtain ⟨zs, h1, h2⟩ := h
    exact ⟨zs, rel_fpu ha hm (hs s (by simp)) h1, ih (fun s h => hs s (by simp [h])) h2⟩

private theorem stage_fpu {cfg : Config} (hf : cfg.filter = .iir) (cfg' : Config) (hmode : cfg'.mode = cfg.mode)
    (hprec : cfg'.precision = cfg.precision) (hf' : cfg'.filter = .iir) (k : Nat) :
    (cfg'.stage (F := F) k).map Stage.fpu = (cfg.stage k).map Stage.fpu := by
  unfold Config.stage
  rw [hf, hf', hmode, hprec]
  cases cfg.mode <;> simp only [List.map_map] <;> rfl

/-- **C25** IIR filters whose stages all have an even number of coefficients give the same output with and without SSE, bit
for bit. The only laws used are that addition and multiplication commute, as they do for floating point numbers. -/
theorem C25_iir_sse_eq_fpu_even (ha : ∀ a b : F, a + b = b + a) (hm : ∀ a b : F, a * b = b * a)
    (cfg cfg' : Config) (hmode : cfg'.mode = cfg.mode) (hratio : cfg'.ratio = cfg.ratio)
    (hprec : cfg'.precision = cfg.precision) (hf : cfg.filter = .iir) (hf' : cfg'.filter = .iir) (hv : cfg.Valid)
    (hv' : cfg'.Valid)
    (heven : ∀ k ∈ [2, 4, 8], k ≤ cfg.ratio → ∀ t, iirTable k cfg.precision = some t → t.1.length % 2 = 0)
    (ops ops' : List (Op F)) (hc : ∀ op ∈ ops, cfg.OpOk op) (hc' : ∀ op ∈ ops', cfg'.OpOk op)
    (r r' : Resampler F) (os os' : List (Option (Buf F))) (h : cfg.session ops = .ok (r, os))
    (h' : cfg'.session ops' = .ok (r', os')) (he : fed ops = fed ops') : cfg.produced ops os = cfg'.produced ops' os' := by
  have ev : ∀ (c : Config), c.filter = .iir → c.ratio = cfg.ratio → c.precision = cfg.precision →
      ∀ s ∈ c.stages (F := F), s.EvenIir := by
    intro c hcf hcr hcp s hs
    have : ∃ k ∈ [2, 4, 8], k ≤ cfg.ratio ∧ s ∈ c.stage (F := F) k := by
      unfold Config.stages at hs
      split at hs <;> simp only [List.mem_flatten, List.mem_map, List.mem_filter, decide_eq_true_eq] at hs <;>
        obtain ⟨l, ⟨k, hk, rfl⟩, hs⟩ := hs <;> refine ⟨k, ?_, hcr ▸ hk.2, hs⟩ <;> have := hk.1 <;> simp at this ⊢ <;> omega
    obtain ⟨k, hk, hkr, hs⟩ := this
    unfold Config.stage at hs
    rw [hcf, hcp] at hs
    cases ht : iirTable k cfg.precision with
    | none => cases hm : c.mode <;> simp [hm, ht] at hs
    | some t =>
      have := heven k hk hkr t ht
      cases hm : c.mode <;> simp [hm, ht] at hs <;> subst hs <;> simpa [Stage.EvenIir] using this
  have h1 := cascade_fpu ha hm (ev cfg hf rfl rfl) (Config.session_rel' hv hc h)
  have h2 := cascade_fpu ha hm (ev cfg' hf' hratio hprec) (Config.session_rel' hv' hc' h')
  have hs : (cfg'.stages (F := F)).map Stage.fpu = (cfg.stages (F := F)).map Stage.fpu := by
    unfold Config.stages
    rw [hratio, hmode]
    cases cfg.mode <;> simp only [List.map_flatten, List.map_map] <;> congr 2 <;> funext k <;>
      exact stage_fpu hf cfg' hmode hprec hf' k
  rw [hs, ← he] at h2
  have iir : ∀ s ∈ (cfg.stages (F := F)).map Stage.fpu, s.Scalar ∧ ∀ v t, ¬(s = .firUp v t ∨ s = .firDown v t) := by
    intro s hs
    obtain ⟨s', hs', rfl⟩ := List.mem_map.1 hs
    have := ev cfg hf rfl rfl s' hs'
    cases s' with
    | iirUp sse c => exact ⟨trivial, by simp [Stage.fpu]⟩
    | iirDown sse c => exact ⟨trivial, by simp [Stage.fpu]⟩
    | firUp sse c => exact this.elim
    | firDown sse c => exact this.elim
  exact CascadeRel.functional (fun s hs => (iir s hs).1) (fun s hs v t e => ((iir s hs).2 v t e).elim) h1 h2

end even

/-- Floating point addition and multiplication commute. -/
theorem Fl.add_comm {S : Format} (a b : Fl S) : a + b = b + a := by
  cases a <;> cases b <;> try rfl
  exact congrArg (Fl.mk S) (_root_.add_comm _ _)

theorem Fl.mul_comm {S : Format} (a b : Fl S) : a * b = b * a := by
  cases a <;> cases b <;> try rfl
  exact congrArg (Fl.mk S) (_root_.mul_comm _ _)

/-- 16 bits, ratio 2 and 20 bits, ratio 4 have even stages only. -/
example : (∀ k ∈ [2, 4, 8], k ≤ 2 → ∀ t ∈ iirTable k 16, t.1.length % 2 = 0) ∧
    (∀ k ∈ [2, 4, 8], k ≤ 4 → ∀ t ∈ iirTable k 20, t.1.length % 2 = 0) := by decide +kernel

/-! ## Odd numbers of coefficients -/

/-- binary32 samples -/
abbrev F32 := Fl binary32

/-- A call with the first sample 1 and zeros after it. -/
def impulseCall (n : Nat) : Call F32 :=
  { st := { block16 := 5, tmpAddr := 4, tmp2Addr := 8, junk := fun _ => 0 },
    input := { addr := 4, len := n, get := fun i => if i = 0 then 1 else 0 }, n := n,
    output := { addr := 100, len := 2 * n, get := fun _ => 0 } }

/-- Coefficient number 1 of the factor 2 filter with 8 bits. -/
private def coef1 : F32 := Sample.ofDouble (iir2x8[1]'(by decide)).toRat

/-- One step of the two sections of branch 1 with SSE, when the input is zero. -/
private def ringStep (s : F32 × F32) : F32 × F32 :=
  ((0 - s.1) * coef1 + 0, ((0 - s.1) * coef1 + 0 - s.2) * 1 + s.1)

private def ringState (n : Nat) : F32 × F32 := (allpass coef1 (seq [1]) n, allpass 1 (allpass coef1 (seq [1])) n)

private theorem ringState_succ (n : Nat) : ringState (n + 2) = ringStep (ringState (n + 1)) := rfl

private theorem ringState_iter (n : Nat) : ringState (n + 1) = ringStep^[n] (ringState 1) := by
  induction n with
  | zero => rfl
  | succ n ih => rw [ringState_succ, ih, Function.iterate_succ_apply']

/-- The level of the remaining oscillation, about `2.8e-8`. -/
def ringLevel : ℚ := 7869243 / 2 ^ 48

private theorem ring_at : ringState 149 = ((0 : F32), Fl.fin ringLevel) := by
  rw [show 149 = 148 + 1 from rfl, ringState_iter]
  decide +kernel

private theorem ring_pos : ringStep ((0 : F32), Fl.fin ringLevel) = ((0 : F32), Fl.fin (-ringLevel)) := by
  decide +kernel

private theorem ring_neg : ringStep ((0 : F32), Fl.fin (-ringLevel)) = ((0 : F32), Fl.fin ringLevel) := by
  decide +kernel

private theorem ring_forever (k : Nat) : ringState (149 + k) = ((0 : F32), Fl.fin ringLevel) ∨
    ringState (149 + k) = ((0 : F32), Fl.fin (-ringLevel)) := by
  induction k with
  | zero => exact Or.inl ring_at
  | succ k ih =>
    have e : ringState (149 + (k + 1)) = ringStep (ringState (149 + k)) := by
      rw [show 149 + (k + 1) = (148 + k) + 2 by omega, ringState_succ, show 148 + k + 1 = 149 + k by omega]
    rw [e]
    rcases ih with h | h <;> rw [h]
    · exact Or.inr ring_pos
    · exact Or.inl ring_neg

private theorem impulse_seq (Z : Nat) : seq ((1 : F32) :: List.replicate Z 0) = seq [1] := by
  funext i
  cases i with
  | zero => rfl
  | succ i =>
    simp only [seq, List.getD_eq_getElem?_getD, List.getElem?_cons_succ, List.getElem?_replicate, List.getElem?_nil]
    split <;> rfl

private theorem odd_outputs (cfg : Config) (hv : cfg.Valid) (hf : cfg.filter = .iir) (hm : cfg.mode = .up) (h2 : cfg.ratio = 2)
    (h8 : cfg.precision = 8) (ops : List (Op F32)) (hc : ∀ op ∈ ops, cfg.OpOk op)
    (r : Resampler F32) (os : List (Option (Buf F32))) (h : cfg.session ops = .ok (r, os)) (Z : Nat)
    (hfed : fed ops = 1 :: List.replicate Z 0) (m : Nat) (hle : m ≤ Z) :
    seq (cfg.produced ops os) (2 * m + 1) = if cfg.iirSse then (ringState m).2 else (ringState m).1 := by
  have hrel := Config.session_rel' hv hc h
  rw [Config.stages_two h2] at hrel
  have ht : iirTable 2 8 = some (iir2x8, iirTable 2 8 |>.get (by decide) |>.2) := rfl
  simp only [Config.stage, hf, hm, h8] at hrel
  rw [ht] at hrel
  obtain ⟨ys, hr, hz⟩ := hrel
  have hz : cfg.produced ops os = ys := hz
  rw [hz]
  have := (hr.2 m (by rw [hfed]; simp; omega)).2
  rw [hfed, impulse_seq] at this
  rw [this]
  unfold iirBranch1 ringState
  have l : (iir2x8.map fun d => (Sample.ofDouble d.toRat : F32)).length = 3 := rfl
  rw [l]
  have hb : branchOut 3 (seq (iir2x8.map fun d => (Sample.ofDouble d.toRat : F32))) 1 (seq [1]) = allpass coef1 (seq [1]) := rfl
  rw [hb]
  by_cases hs : cfg.iirSse = true
  · rw [if_pos ⟨hs, rfl⟩, if_pos hs]
  · rw [if_neg (by simp [hs]), if_neg hs]

/-- **C24 is false in binary32 arithmetic with SSE.** 8 bits, factor 2 (three coefficients): the input is a single 1 followed by
zeros, however many; every second output sample from number 299 on is plus or minus `ringLevel` - the filter never gets
silent. (The unused lane of the SSE filter has coefficient 1; rounding errors are kept in it forever.) -/
theorem C24_false_sse_rings (cfg : Config) (hv : cfg.Valid) (hf : cfg.filter = .iir) (hm : cfg.mode = .up) (h2 : cfg.ratio = 2)
    (h8 : cfg.precision = 8) (hsse : cfg.iirSse = true) (ops : List (Op F32)) (hc : ∀ op ∈ ops, cfg.OpOk op)
    (r : Resampler F32) (os : List (Option (Buf F32))) (h : cfg.session ops = .ok (r, os)) (Z : Nat)
    (hfed : fed ops = 1 :: List.replicate Z 0) (m : Nat) (hm1 : 149 ≤ m) (hle : m ≤ Z) :
    ∃ y : ℚ, seq (cfg.produced ops os) (2 * m + 1) = Fl.fin y ∧ |y| = 7869243 / 2 ^ 48 := by
  rw [odd_outputs cfg hv hf hm h2 h8 ops hc r os h Z hfed m hle, if_pos hsse]
  have hl : |ringLevel| = 7869243 / 2 ^ 48 := abs_of_pos (by norm_num [ringLevel])
  obtain ⟨k, rfl⟩ := Nat.exists_eq_add_of_le hm1
  rcases ring_forever k with e | e <;> rw [e]
  · exact ⟨_, rfl, hl⟩
  · exact ⟨_, rfl, by rw [abs_neg, hl]⟩

/-- **C25 is false for odd numbers of coefficients in binary32 arithmetic**: for the same impulse the filter without SSE
outputs zeros, the filter with SSE does not. -/
theorem C25_false_odd (cfg cfg' : Config) (hmode : cfg'.mode = cfg.mode) (hratio : cfg'.ratio = cfg.ratio)
    (hprec : cfg'.precision = cfg.precision) (hv : cfg.Valid) (hv' : cfg'.Valid) (hf : cfg.filter = .iir) (hf' : cfg'.filter = .iir)
    (hm : cfg.mode = .up) (h2 : cfg.ratio = 2) (h8 : cfg.precision = 8) (hsse : cfg.iirSse = true) (hsse' : cfg'.iirSse = false)
    (ops : List (Op F32)) (hc : ∀ op ∈ ops, cfg.OpOk op) (hc' : ∀ op ∈ ops, cfg'.OpOk op)
    (r r' : Resampler F32) (os os' : List (Option (Buf F32))) (h : cfg.session ops = .ok (r, os)) (h' : cfg'.session ops = .ok (r', os'))
    (Z : Nat) (hfed : fed ops = 1 :: List.replicate Z 0) (m : Nat) (hm1 : 149 ≤ m) (hle : m ≤ Z) :
    seq (cfg'.produced ops os') (2 * m + 1) = 0 ∧ seq (cfg.produced ops os) (2 * m + 1) ≠ 0 := by
  constructor
  · rw [odd_outputs cfg' hv' hf' (by rw [hmode, hm]) (by rw [hratio, h2]) (by rw [hprec, h8]) ops hc' r' os' h' Z hfed m hle,
      if_neg (by simp [hsse'])]
    obtain ⟨k, rfl⟩ := Nat.exists_eq_add_of_le hm1
    rcases ring_forever k with e | e <;> rw [e]
  · obtain ⟨y, hy, hl⟩ := C24_false_sse_rings cfg hv hf hm h2 h8 hsse ops hc r os h Z hfed m hm1 hle
    rw [hy]
    intro h0
    have h0 : (some y : Option ℚ) = some 0 := h0
    cases h0
    norm_num at hl

/-- Such sessions exist, for any length (even with all zeros in one block). -/
example (Z : Nat) (hZ : Z < 2 ^ 31) :
    (∀ op ∈ [Op.process (impulseCall (Z + 1))], (cfg .up 2 8 true .iir).OpOk op ∧ (cfg .up 2 8 false .iir).OpOk op) ∧
    (∃ q, (cfg .up 2 8 true .iir).session [Op.process (impulseCall (Z + 1))] = .ok q) ∧
    (∃ q, (cfg .up 2 8 false .iir).session [Op.process (impulseCall (Z + 1))] = .ok q) ∧
    (cfg .up 2 8 true .iir).iirSse = true ∧ (cfg .up 2 8 false .iir).iirSse = false ∧
    fed [Op.process (impulseCall (Z + 1))] = 1 :: List.replicate Z 0 := by
  have hc : ∀ b, ∀ op ∈ [Op.process (impulseCall (Z + 1))], (cfg .up 2 8 b .iir).OpOk op := by
    intro b op hop
    simp only [List.mem_cons, List.not_mem_nil, or_false] at hop
    subst hop
    exact ⟨by show Z + 1 < _; omega, le_rfl, by show (Z + 1) * 2 ≤ 2 * (Z + 1); omega, by simp [cfg], by simp [cfg],
      fun _ _ => Or.inr (Nat.succ_pos Z), by simp [cfg]⟩
  refine ⟨fun op hop => ⟨hc _ op hop, hc _ op hop⟩, ?_, ?_, rfl, rfl, ?_⟩
  · obtain ⟨r, os, h, -⟩ := C04_output_frame (cfg .up 2 8 true .iir) ⟨by decide, by decide, by decide⟩ _ (hc _)
    exact ⟨_, h⟩
  · obtain ⟨r, os, h, -⟩ := C04_output_frame (cfg .up 2 8 false .iir) ⟨by decide, by decide, by decide⟩ _ (hc _)
    exact ⟨_, h⟩
  · show Call.samples _ = _
    unfold Call.samples impulseCall
    simp only [List.range_succ_eq_map, List.map_cons, List.map_map]
    refine congrArg₂ _ rfl ?_
    rw [List.eq_replicate_iff]
    simp

end Panda
