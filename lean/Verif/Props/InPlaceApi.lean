import Verif.Proofs.InPlaceApi
import Verif.Proofs.Stages
import Verif.Props.Common

/-!
# C82: `process_block` with the same array as input and output
-/

set_option linter.unusedSectionVars false

namespace Panda

variable {F : Type} [Zero F] [One F] [Add F] [Sub F] [Mul F] [Sample F]

/-- Calls for which using one array for input and output changes nothing at all. -/
inductive Config.InPlaceExact (cfg : Config) (n : Nat) : Prop where
  /-- ratio 1 -/
  | copy : cfg.ratio = 1 → cfg.InPlaceExact n
  /-- DOWN, ratio 4 or 8 -/
  | cascadeDown : cfg.mode = .down → 4 ≤ cfg.ratio → cfg.InPlaceExact n
  /-- UP, ratio 4 or 8: at most 1024 samples -/
  | cascadeUp : cfg.mode = .up → 4 ≤ cfg.ratio → n ≤ 1024 → cfg.InPlaceExact n
  /-- IIR, DOWN -/
  | iirDown : cfg.filter = .iir → cfg.mode = .down → cfg.InPlaceExact n
  /-- FIR, UP, ratio 2: less samples than the filter has taps -/
  | firUp (t : List Dec) : cfg.filter = .fir → cfg.mode = .up → cfg.ratio = 2 → firTable 2 cfg.precision = some t →
      n < t.length → cfg.InPlaceExact n
  /-- FIR, DOWN, ratio 2: less output samples than the filter has taps -/
  | firDown (t : List Dec) : cfg.filter = .fir → cfg.mode = .down → cfg.ratio = 2 → firTable 2 cfg.precision = some t →
      n / 2 < t.length → cfg.InPlaceExact n

/-- Calls for which the output may be the input array. -/
inductive Config.InPlaceOk (cfg : Config) (n : Nat) : Prop where
  | exact : cfg.InPlaceExact n → cfg.InPlaceOk n
  /-- FIR, DOWN, ratio 2, scalar code -/
  | firDownScalar : cfg.filter = .fir → cfg.mode = .down → cfg.ratio = 2 → cfg.vec = false → cfg.InPlaceOk n
  /-- FIR, DOWN, ratio 2, vector code: less than six output samples more than the filter has taps -/
  | firDownVec (t : List Dec) : cfg.filter = .fir → cfg.mode = .down → cfg.ratio = 2 → firTable 2 cfg.precision = some t →
      n / 2 < t.length + 6 → cfg.InPlaceOk n

/-- No sequence of later operations can tell the two objects apart. -/
def Resampler.Same (bld : Build) (r r' : Resampler F) : Prop :=
  r.order = r'.order ∧ r.delay = r'.delay ∧ r.sseEnabled = r'.sseEnabled ∧
    ∀ ops : List (Op F), (r.runOps bld ops).map Prod.snd = (r'.runOps bld ops).map Prod.snd

/-- **C82 (same state).** For the calls listed in `Config.InPlaceExact`, `process_block` with `output == input` does what it does with
a copy of the input: the same outcome, the same memory contents and the same object. -/
theorem C82_in_place_exact (cfg : Config) (hv : cfg.Valid) (r : Resampler F) (hr : cfg.Reachable r) (st : Stack F) (m : Buf F) (n : Nat)
    (hc : cfg.CallOk ⟨st, m, n, m⟩) (hn : cfg.InPlaceExact n) :
    r.processInPlace cfg.bld st m n = r.processBlock cfg.bld st m n m := by
  have hratio := hr.ratio hv
  have hmode := hr.mode hv
  obtain ⟨r0, xs, zs, -, h0, hs⟩ := hr.state hv
  have hd : DirOk r.mode (cfg.stages (F := F)) := by rw [hmode]; exact h0.dir
  have hok := callOk_of hratio hmode hc
  have hlen : (Call.samples ⟨st, m, n, m⟩).length = n := Call.samples_length _
  have hget : ∀ k < (Call.samples ⟨st, m, n, m⟩).length, m.get k = seq (Call.samples ⟨st, m, n, m⟩) k := by
    intro k hk
    rw [hlen] at hk
    exact (Call.samples_seq ⟨st, m, n, m⟩ k hk).symm
  have hval := hv.ratio
  simp only [List.mem_cons, List.not_mem_nil, or_false] at hval
  have one : cfg.ratio = 1 → r.processInPlace cfg.bld st m n = r.processBlock cfg.bld st m n m := by
    intro h1
    rw [← hratio] at h1
    unfold Resampler.processInPlace Resampler.processBlock copyN
    simp only [h1, Nat.zero_add]
    rw [if_neg (by decide), if_pos trivial, if_neg (by decide), if_pos trivial]
    rw [(forN_congr_inv (f := fun i (d : Buf F) => (m.rd i) >>= fun v => d.wr i v) (fun k (s : Buf F) => SameFrom k s m) ?_ ?_
      (SameFrom.refl 0 m)).1]
    · intro k _ s h
      rw [h.rd (Nat.le_refl k)]
    · intro k _ s s' h e
      obtain ⟨v, -, e⟩ := bind_ok e
      exact (h.mono (Nat.le_succ k)).wr e (by omega)
  have down : cfg.mode = .down → 4 ≤ cfg.ratio → r.processInPlace cfg.bld st m n = r.processBlock cfg.bld st m n m := by
    intro hm h4
    have := Resampler.inPlace_down (bld := cfg.bld) (st := st) (m := m) (c := Call.samples ⟨st, m, n, m⟩) (by omega) (hmode.trans hm) hd hs.inv
      (by rw [hlen]; exact hok) hget
    rwa [hlen] at this
  have two : cfg.ratio = 2 → (∀ i s, r.implX2 = some i → s ∈ cfg.stage (F := F) 2 → i.Inv s xs →
        i.processBlockMem cfg.bld st m 0 n 0 = i.processBlock cfg.bld st m 0 n m 0) →
      r.processInPlace cfg.bld st m n = r.processBlock cfg.bld st m n m := by
    intro h2 h
    have hp : r.path = [r.implX2] := by
      unfold Resampler.path; rw [hratio, h2]; cases r.mode <;> rfl
    have hinv := hs.inv
    rw [hp] at hinv
    obtain ⟨s, i, e1, e2, hi, -⟩ := hinv.one
    unfold Resampler.processInPlace Resampler.processBlock
    rw [if_pos (hratio.trans h2), if_pos (hratio.trans h2), e2]
    simp only [deref, pure_eq_ok, ok_bind]
    rw [h i s e2 (by rw [← Config.stages_two h2, e1]; simp) hi]
  cases hn with
  | copy h => exact one h
  | cascadeDown hm h4 => exact down hm h4
  | cascadeUp hm h4 hn =>
    have := Resampler.inPlace_one (bld := cfg.bld) (st := st) (m := m) (c := Call.samples ⟨st, m, n, m⟩) (by omega) hd hs.inv
      (by rw [hlen]; exact hok) hget (by rw [hlen]; exact hn)
    rwa [hlen] at this
  | iirDown hf hm =>
    rcases hval with h | h | h | h
    · exact one h
    · refine two h fun i s _ hs hi => ?_
      simp only [Config.stage, hf, hm, List.mem_map] at hs
      obtain ⟨t, -, rfl⟩ := hs
      cases hsse : cfg.iirSse <;> rw [hsse] at hi <;> cases i <;> simp only [Impl.Inv] at hi
      · simp only [Impl.processBlockMem, Impl.processBlock, FpuFilter.downBlock_inPlace]
      · simp only [Impl.processBlockMem, Impl.processBlock, SseFilter.downBlock_inPlace]
    · exact down hm (by omega)
    · exact down hm (by omega)
  | firUp t hf hm h2 ht hn =>
    refine two h2 fun i s _ hs hi => ?_
    simp only [Config.stage, hf, hm, ht, Option.toList_some, List.map_cons, List.map_nil, List.mem_cons, List.not_mem_nil, or_false] at hs
    subst hs
    cases i <;> simp only [Impl.Inv] at hi
    obtain ⟨-, -, ho, -⟩ := hi
    rw [List.length_map] at ho
    simp only [Impl.processBlockMem, Impl.processBlock]
    rw [Up2.processBlock_inPlace_short _ _ _ (by omega)]
  | firDown t hf hm h2 ht hn =>
    refine two h2 fun i s _ hs hi => ?_
    simp only [Config.stage, hf, hm, ht, Option.toList_some, List.map_cons, List.map_nil, List.mem_cons, List.not_mem_nil, or_false] at hs
    subst hs
    have := firTable_length ht
    cases i <;> simp only [Impl.Inv] at hi
    obtain ⟨-, -, ho, -⟩ := hi
    rw [List.length_map] at ho
    simp only [Impl.processBlockMem, Impl.processBlock]
    rw [Down2.processBlock_inPlace_short _ _ _ (by omega) (by omega)]

/-- Ratio 2 resamplers that differ only in the dead part of the odd history. -/
private def Resampler.Sim (r r' : Resampler F) : Prop :=
  r.ratio = 2 ∧ ∃ d d', r.implX2 = some (.firDown d) ∧ r' = { r with implX2 := some (.firDown d') } ∧ d.Sim d'

private theorem Resampler.Sim.process {bld : Build} {r r' : Resampler F} (h : r.Sim r') (c : Call F) :
    SameEnd (fun q q' => q.1.Sim q'.1 ∧ q.2 = q'.2) (r.processBlock bld c.st c.input c.n c.output)
      (r'.processBlock bld c.st c.input c.n c.output) := by
  obtain ⟨h2, d, d', e, rfl, hd⟩ := h
  unfold Resampler.processBlock
  simp only [if_pos h2, e, deref, pure_eq_ok, ok_bind, Impl.processBlock]
  have key := Down2.processBlock_sim (st := c.st) hd c.input 0 c.n c.output 0
  cases e1 : d.processBlock c.st c.input 0 c.n c.output 0 <;> cases e2 : d'.processBlock c.st c.input 0 c.n c.output 0 <;> rw [e1, e2] at key
  · exact key
  · exact key.elim
  · exact key.elim
  · exact ⟨⟨h2, _, _, rfl, rfl, key.1⟩, key.2⟩

private theorem Resampler.Sim.reset {r r' : Resampler F} (h : r.Sim r') : r.reset = r'.reset := by
  obtain ⟨h2, d, d', e, rfl, hd⟩ := h
  obtain ⟨_, _, i2, _, _⟩ := r
  simp only at e h2
  subst e h2
  simp [Resampler.reset, resetStage, deref, Impl.reset, hd.reset]

private theorem Resampler.Sim.runOps {bld : Build} {r r' : Resampler F} (h : r.Sim r') (ops : List (Op F)) :
    (r.runOps bld ops).map Prod.snd = (r'.runOps bld ops).map Prod.snd := by
  induction ops generalizing r r' with
  | nil => rfl
  | cons op ops ih =>
    cases op with
    | reset =>
      unfold Resampler.runOps
      rw [h.reset]
    | process c =>
      unfold Resampler.runOps
      have key := h.process (bld := bld) c
      cases e1 : r.processBlock bld c.st c.input c.n c.output <;> cases e2 : r'.processBlock bld c.st c.input c.n c.output <;>
        rw [e1, e2] at key
      · simp only [SameEnd] at key; subst key; rfl
      · exact key.elim
      · exact key.elim
      · rename_i q q'
        obtain ⟨k1, k2⟩ := key
        have := ih k1
        simp only [ok_bind]
        rw [k2]
        cases e3 : q.1.runOps bld ops <;> cases e4 : q'.1.runOps bld ops <;> rw [e3, e4] at this <;>
          simp [Except.map] at this ⊢ <;> exact this

private theorem Resampler.Sim.same {bld : Build} {r r' : Resampler F} (h : r.Sim r') : r.Same bld r' := by
  refine ⟨?_, ?_, ?_, fun ops => h.runOps ops⟩
  all_goals
    obtain ⟨h2, d, d', e, rfl, hd⟩ := h
  · simp [Resampler.order, e, deref, Impl.order, hd.order]
  · simp [Resampler.delay, e, deref, Impl.delay, hd.order, h2]
  · simp [Resampler.sseEnabled, e, deref, Impl.sseEnabled, hd.useSse]

/-- **C82 (partial).** For the calls listed in `Config.InPlaceOk`, `process_block` with `output == input` is as good as with a copy of
the input: it succeeds, the array ends up with the output samples and is otherwise unchanged, and no later operation on the object
can tell the difference. Missing are the other calls, for which it is false (`C82_false_fir_down_vec`, `C82_false_fir_up`,
`C82_false_up4`, `C82_false_iir_up`) or ends in a failed assert (`C82_iir_up_assert`). -/
theorem C82_in_place_partial (cfg : Config) (hv : cfg.Valid) (r : Resampler F) (hr : cfg.Reachable r) (st : Stack F) (m : Buf F) (n : Nat)
    (hc : cfg.CallOk ⟨st, m, n, m⟩) (hn : cfg.InPlaceOk n) :
    ∃ r1 r2 m', r.processInPlace cfg.bld st m n = .ok (r1, m') ∧ r.processBlock cfg.bld st m n m = .ok (r2, m') ∧
      r1.Same cfg.bld r2 := by
  obtain ⟨r0, xs, zs, -, h0, hs⟩ := hr.state hv
  obtain ⟨⟨r2, m'⟩, e, -⟩ := hs.step hv h0 hc
  simp only at e
  have ex : cfg.InPlaceExact n → ∃ r1 r2 m', r.processInPlace cfg.bld st m n = .ok (r1, m') ∧ r.processBlock cfg.bld st m n m = .ok (r2, m') ∧
      r1.Same cfg.bld r2 := fun h =>
    ⟨r2, r2, m', (C82_in_place_exact cfg hv r hr st m n hc h).trans e, e, rfl, rfl, rfl, fun _ => rfl⟩
  have dn : cfg.filter = .fir → cfg.mode = .down → cfg.ratio = 2 →
      (cfg.vec = false ∨ ∃ t, firTable 2 cfg.precision = some t ∧ n / 2 < t.length + 6) →
      ∃ r1 r2 m', r.processInPlace cfg.bld st m n = .ok (r1, m') ∧ r.processBlock cfg.bld st m n m = .ok (r2, m') ∧
      r1.Same cfg.bld r2 := by
    intro hf hm h2 hvec
    have hratio : r.ratio = 2 := (hr.ratio hv).trans h2
    have hp : r.path = [r.implX2] := by
      unfold Resampler.path; rw [hratio]; cases r.mode <;> rfl
    have hinv := hs.inv
    rw [hp] at hinv
    obtain ⟨s, i, e1, e2, hi, -⟩ := hinv.one
    have hs2 : s ∈ cfg.stage (F := F) 2 := by rw [← Config.stages_two h2, e1]; simp
    simp only [Config.stage, hf, hm, List.mem_map, Option.mem_toList] at hs2
    obtain ⟨t, ht, rfl⟩ := hs2
    have hl := firTable_length ht
    cases i <;> simp only [Impl.Inv] at hi
    rename_i d
    obtain ⟨-, hu, ho, -⟩ := hi
    rw [List.length_map] at ho
    have key := Down2.processBlock_inPlace (st := st) d m n (by omega) (by omega) (by
      rw [hu, ho]
      rcases hvec with h | ⟨t', ht', h⟩
      · exact Or.inl h
      · rw [ht] at ht'
        cases ht'
        exact Or.inr h)
    unfold Resampler.processBlock at e
    unfold Resampler.processInPlace Resampler.processBlock
    simp only [if_pos hratio, e2, deref, pure_eq_ok, ok_bind, Impl.processBlock, Impl.processBlockMem] at e ⊢
    cases p1 : d.processBlockMem st m 0 n 0 <;> cases p2 : d.processBlock st m 0 n m 0 <;> rw [p1, p2] at key
    · rw [p2] at e; simp at e
    · exact key.elim
    · exact key.elim
    · rename_i q q'
      obtain ⟨k1, k2⟩ := key
      refine ⟨{ r with implX2 := some (.firDown q.1) }, { r with implX2 := some (.firDown q'.1) }, q'.2, by rw [ok_bind, k2]; rfl, rfl,
        Resampler.Sim.same ⟨hratio, q.1, q'.1, rfl, rfl, k1⟩⟩
  cases hn with
  | exact h => exact ex h
  | firDownScalar hf hm h2 hvec => exact dn hf hm h2 (Or.inl hvec)
  | firDownVec t hf hm h2 ht hn => exact dn hf hm h2 (Or.inr ⟨t, ht, hn⟩)

/-- **C82, asserts enabled:** IIR upsamplers with ratio 2 refuse every call in place. -/
theorem C82_iir_up_assert (cfg : Config) (hv : cfg.Valid) (hf : cfg.filter = .iir) (hm : cfg.mode = .up) (h2 : cfg.ratio = 2)
    (hb : cfg.bld.ndebug = false) (r : Resampler F) (hr : cfg.Reachable r) (st : Stack F) (m : Buf F) (n : Nat) (hn : 0 < n) :
    r.processInPlace cfg.bld st m n = .error .assertFail := by
  obtain ⟨i, s, xs, e, hs, hi⟩ := hr.stage2 hv h2
  have hratio : r.ratio = 2 := (hr.ratio hv).trans h2
  have ha : cfg.bld.assert (decide (0 ≥ 0 + n) || decide (0 ≥ 0 + n)) = .error .assertFail := by
    have : decide (0 ≥ 0 + n) = false := by simp only [decide_eq_false_iff_not]; omega
    rw [this]
    simp [Build.assert, hb]
  unfold Resampler.processInPlace
  simp only [if_pos hratio, e, deref, pure_eq_ok, ok_bind]
  cases hs with
  | firUp t hf' => rw [hf] at hf'; cases hf'
  | firDown t hf' => rw [hf] at hf'; cases hf'
  | iirDown t _ hm' => rw [hm] at hm'; cases hm'
  | iirUp t =>
    cases hsse : cfg.iirSse <;> rw [hsse] at hi <;> cases i <;> simp only [Impl.Inv] at hi
    · simp only [Impl.processBlockMem, FpuFilter.upBlockMem, ha]; rfl
    · simp only [Impl.processBlockMem, SseFilter.upBlockMem, ha]; rfl

/-! ## Concrete cases, and where in-place calls go wrong -/

open Examples

/-- An array of `len` samples `1, 2, ...`. -/
private def mem (len : Nat) : Buf Rat := { addr := 16, len := len, get := fun i => i + 1 }

/-- A new resampler, called in place and with a copy of the input. -/
private def both (c : Config) (n len : Nat) : Res (Resampler Rat × (Resampler Rat × Buf Rat) × (Resampler Rat × Buf Rat)) := do
  let r ← c.new
  let a ← r.processInPlace c.bld someStack (mem len) n
  let b ← r.processBlock c.bld someStack (mem len) n (mem len)
  pure (r, a, b)

/-- Some output sample differs. -/
private def differs (r : Res (Resampler Rat × (Resampler Rat × Buf Rat) × (Resampler Rat × Buf Rat))) (i : Nat) : Bool :=
  match r with
  | .ok (_, a, b) => decide (a.2.get i ≠ b.2.get i)
  | .error _ => false

private theorem differs_spec {c : Config} {n len i : Nat} (h : differs (both c n len) i = true) :
    ∃ (r : Resampler Rat) (a b : Resampler Rat × Buf Rat), c.Reachable r ∧ r.processInPlace c.bld someStack (mem len) n = .ok a ∧
      r.processBlock c.bld someStack (mem len) n (mem len) = .ok b ∧ a.2.get i ≠ b.2.get i := by
  unfold differs at h
  split at h
  · rename_i r a b e
    unfold both at e
    obtain ⟨r', e1, e⟩ := bind_ok e
    obtain ⟨a', e2, e⟩ := bind_ok e
    obtain ⟨b', e3, e⟩ := bind_ok e
    simp only [pure_eq_ok, Except.ok.injEq, Prod.mk.injEq] at e
    obtain ⟨rfl, rfl, rfl⟩ := e
    refine ⟨r', a', b', ⟨[], [], by simp, ?_⟩, e2, e3, of_decide_eq_true h⟩
    unfold Config.session
    rw [e1]
    rfl
  · simp at h

/-- What `C82` claims, for one configuration and number of samples. -/
def Config.InPlaceClaim (cfg : Config) (F : Type) [Zero F] [One F] [Add F] [Sub F] [Mul F] [Sample F] (n : Nat) : Prop :=
  ∀ (r : Resampler F) (st : Stack F) (m : Buf F), cfg.Reachable r → cfg.CallOk ⟨st, m, n, m⟩ →
    ∃ r1 r2 m', r.processInPlace cfg.bld st m n = .ok (r1, m') ∧ r.processBlock cfg.bld st m n m = .ok (r2, m') ∧
      r1.Same cfg.bld r2

private theorem claim_false {c : Config} {n len i : Nat} (hc : c.CallOk ⟨someStack, mem len, n, mem len⟩)
    (h : differs (both c n len) i = true) : ¬ c.InPlaceClaim Rat n := by
  intro H
  obtain ⟨r, a, b, hr, e1, e2, hne⟩ := differs_spec h
  obtain ⟨r1, r2, m', e3, e4, -⟩ := H r someStack (mem len) hr hc
  rw [e1] at e3
  rw [e2] at e4
  cases e3
  cases e4
  exact hne rfl

/-- **C82 is false for FIR downsamplers with vector code**: `output[0] += 0.5f * input_odd[H]` reads `input[order - 1]`, which is the
sample `output[0]` just written. Here 2 taps and 16 samples. -/
theorem C82_false_fir_down_vec : ¬ (cfg .down 2 1 true .fir).InPlaceClaim Rat 16 :=
  claim_false (len := 16) (i := 1) ⟨by decide, by decide, by decide, by decide, by decide, by decide, by decide⟩ (by decide +kernel)

/-- **C82 is false for FIR upsamplers with ratio 2** (also for the scalar code): the output for the first samples overwrites the samples after
them. -/
theorem C82_false_fir_up : ¬ (cfg .up 2 1 false .fir).InPlaceClaim Rat 2 :=
  claim_false (len := 4) (i := 2) ⟨by decide, by decide, by decide, by decide, by decide, by decide, by decide⟩ (by decide +kernel)

/-- **C82 is false for IIR upsamplers with ratio 2** built without asserts. -/
theorem C82_false_iir_up : ¬ (cfg .up 2 8 false .iir).InPlaceClaim Rat 2 ∧ ¬ (cfg .up 2 8 true .iir).InPlaceClaim Rat 2 :=
  ⟨claim_false (len := 4) (i := 2) ⟨by decide, by decide, by decide, by decide, by decide, by decide, by decide⟩ (by decide +kernel),
   claim_false (len := 4) (i := 2) ⟨by decide, by decide, by decide, by decide, by decide, by decide, by decide⟩ (by decide +kernel)⟩

/-- **C82 is false for upsamplers with ratio 4 and more than 1024 samples**: the output of the first block of 1024 samples overwrites the
next block before it is read. -/
theorem C82_false_up4 : ¬ (cfg .up 4 1 false .fir).InPlaceClaim Rat 1025 :=
  claim_false (len := 4100) (i := 4096) ⟨by decide, by decide, by decide, by decide, by decide, by decide, by decide⟩ (by decide +kernel)

/-- The claim is `C82_in_place_partial` without its restriction. -/
example (cfg : Config) (hv : cfg.Valid) (n : Nat) (hn : cfg.InPlaceOk n) : cfg.InPlaceClaim Rat n :=
  fun r st m hr hc => C82_in_place_partial cfg hv r hr st m n hc hn

/-- `C82_in_place_partial` for the configuration of `C82_false_fir_down_vec`, with 14 samples instead of 16. -/
example : (cfg .down 2 1 true .fir).InPlaceClaim Rat 14 :=
  fun r st m hr hc => C82_in_place_partial _ ⟨by decide, by decide, by decide⟩ r hr st m 14 hc
    (.firDownVec firLinear rfl rfl rfl (by decide) (by decide))

/-- A call that `C82_in_place_exact` covers: DOWN by 4, 2048 samples. -/
example : ∃ r : Resampler Rat, (cfg .down 4 8 true .fir).Reachable r ∧
    r.processInPlace x86 someStack (mem 2048) 2048 = r.processBlock x86 someStack (mem 2048) 2048 (mem 2048) := by
  have hv : (cfg .down 4 8 true .fir).Valid := ⟨by decide, by decide, by decide⟩
  obtain ⟨q, h, -⟩ := Config.session_sat (F := Rat) hv (ops := []) (by simp)
  have hr : (cfg .down 4 8 true .fir).Reachable q.1 := ⟨[], q.2, by simp, h⟩
  exact ⟨q.1, hr, C82_in_place_exact _ hv q.1 hr someStack (mem 2048) 2048
    ⟨by decide, by decide, by decide, by decide, by decide, by decide, by decide⟩ (.cascadeDown rfl (by decide))⟩

/-- `C82_iir_up_assert` for a debug build. -/
example : ∃ r : Resampler Rat, ({ cfg .up 2 8 true .iir with bld := { x86 with ndebug := false } } : Config).Reachable r ∧
    r.processInPlace { x86 with ndebug := false } someStack (mem 4) 2 = .error .assertFail := by
  have hv : ({ cfg .up 2 8 true .iir with bld := { x86 with ndebug := false } } : Config).Valid := ⟨by decide, by decide, by decide⟩
  obtain ⟨q, h, -⟩ := Config.session_sat (F := Rat) hv (ops := []) (by simp)
  have hr : ({ cfg .up 2 8 true .iir with bld := { x86 with ndebug := false } } : Config).Reachable q.1 := ⟨[], q.2, by simp, h⟩
  exact ⟨q.1, hr, C82_iir_up_assert _ hv rfl rfl rfl rfl q.1 hr someStack (mem 4) 2 (by decide)⟩

end Panda
