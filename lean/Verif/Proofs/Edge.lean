import Verif.Proofs.Session

/-!
# Edge cases: zero samples, odd block sizes, reads past the end
-/

set_option linter.unusedSectionVars false

namespace Panda

variable {F : Type} [Zero F] [One F] [Add F] [Sub F] [Mul F] [Sample F]

/-- The classes that occur, by configuration. -/
inductive ImplShape (cfg : Config) : Impl F → Prop where
  | firUp (u : Up2 F) : cfg.filter = .fir → cfg.mode = .up → u.Wf → u.useSse = cfg.vec → ImplShape cfg (.firUp u)
  | firDown (d : Down2 F) : cfg.filter = .fir → cfg.mode = .down → d.Wf → ImplShape cfg (.firDown d)
  | iirUp (f : FpuFilter F) (dl : Rat) : cfg.filter = .iir → cfg.mode = .up → cfg.iirSse = false → ImplShape cfg (.iirUp f dl)
  | iirDown (f : FpuFilter F) (dl : Rat) : cfg.filter = .iir → cfg.mode = .down → cfg.iirSse = false →
      ImplShape cfg (.iirDown f dl)
  | iirUpSse (f : SseFilter F) (dl : Rat) : cfg.filter = .iir → cfg.mode = .up → cfg.iirSse = true →
      ImplShape cfg (.iirUpSse f dl)
  | iirDownSse (f : SseFilter F) (dl : Rat) : cfg.filter = .iir → cfg.mode = .down → cfg.iirSse = true →
      ImplShape cfg (.iirDownSse f dl)

theorem implShape_of {cfg : Config} {s : Stage F} {i : Impl F} {xs : List F} (hs : StageShape cfg s) (h : i.Inv s xs) :
    ImplShape cfg i := by
  cases hs with
  | firUp t hf hm =>
    cases i <;> first | exact h.elim | exact .firUp _ hf hm h.1 h.2.1
  | firDown t hf hm =>
    cases i <;> first | exact h.elim | exact .firDown _ hf hm h.1
  | iirUp t hf hm =>
    cases hb : cfg.iirSse <;> rw [hb] at h <;> cases i <;>
      first | exact h.elim | exact .iirUp _ _ hf hm hb | exact .iirUpSse _ _ hf hm hb
  | iirDown t hf hm =>
    cases hb : cfg.iirSse <;> rw [hb] at h <;> cases i <;>
      first | exact h.elim | exact .iirDown _ _ hf hm hb | exact .iirDownSse _ _ hf hm hb

theorem Config.Reachable.shape2 {cfg : Config} (hv : cfg.Valid) (h2 : cfg.ratio = 2) {r : Resampler F}
    (h : cfg.Reachable r) : ∃ i, r.implX2 = some i ∧ ImplShape cfg i := by
  obtain ⟨i, s, xs, hi, hs, hx⟩ := h.stage2 hv h2
  exact ⟨i, hi, implShape_of hs hx⟩

theorem Config.Reachable.order_le {cfg : Config} (hv : cfg.Valid) (h2 : cfg.ratio = 2) {r : Resampler F}
    (h : cfg.Reachable r) {i : Impl F} (hi : r.implX2 = some i) (hf : cfg.filter = .fir) : i.order ≤ 52 := by
  obtain ⟨r0, xs, zs, -, h0, hs⟩ := h.state hv
  have hx2 := h0.x2
  rw [if_pos (by omega)] at hx2
  obtain ⟨i0, s, hi0, -, -, -, ho, -⟩ := hx2
  have hev := hs.evolves.x2
  rw [hi0, hi] at hev
  have hev : i0.Evolves i := hev
  rw [hev.order, ho]
  unfold Config.stageOrder
  rw [hf]
  obtain ⟨t, ht⟩ := Option.isSome_iff_exists.mp (tables_exist (k := 2) (by simp) hv.precision).1
  have := firTable_length ht
  simp [ht]
  omega

theorem Resampler.processBlock_two {bld : Build} {st : Stack F} {r : Resampler F} {i : Impl F} (h2 : r.ratio = 2)
    (hi : r.implX2 = some i) (input : Buf F) (n : Nat) (output : Buf F) :
    r.processBlock bld st input n output =
      (i.processBlock bld st input 0 n output 0 >>= fun p => .ok ({ r with implX2 := some p.1 }, p.2)) := by
  unfold Resampler.processBlock
  rw [if_pos h2, hi]
  rfl

theorem Up2.processBlock_zero {u : Up2 F} (hu : u.Wf) (input : Buf F) (ioff : Nat) (output : Buf F) (ooff : Nat) :
    u.processBlock input ioff 0 output ooff = .ok (u, output) := by
  have h1 := hu.hist_len
  have h2 := hu.order_ge
  obtain ⟨o, t, ta, hi, ss⟩ := u
  simp only at h1 h2
  unfold Up2.processBlock
  simp only [Nat.zero_min]
  simp [copyN, forN, Up2.processBlockAligned, whileF, memmoveDown, u32]
  rw [if_pos (by omega)]
  rw [if_pos (by omega)]
  cases t <;> rfl

theorem Down2.processBlock_zero {d : Down2 F} {st : Stack F} (input : Buf F) (ioff : Nat) (output : Buf F) (ooff : Nat) :
    d.processBlock st input ioff 0 output ooff = .ok (d, output) := by
  unfold Down2.processBlock
  simp [whileF]

/-- The SSE downsampler reads two samples past the last pair. -/
theorem SseFilter.downBlock_oob {bld : Build} {f : SseFilter F} {input output : Buf F} {ioff ooff k : Nat} (hk : 0 < k)
    (hl : input.len < ioff + 2 * k + 2) : ¬ ∃ q, f.downBlock bld input ioff k output ooff = .ok q := by
  rintro ⟨q, h⟩
  obtain ⟨k, rfl⟩ : ∃ j, k = j + 1 := ⟨k - 1, by omega⟩
  unfold SseFilter.downBlock at h
  cases ha : bld.assert (decide (k + 1 > 0)) with
  | error e => rw [ha, err_bind] at h; cases h
  | ok u =>
    rw [ha, ok_bind, forN] at h
    have hld : ∀ b : Buf F, b.len < ioff + 2 * (k + 1) + 2 → ∃ e, b.ld4u (ioff + k * 2) = .error e := by
      intro b hb
      unfold Buf.ld4u Buf.rd
      split
      · split
        · split
          · rw [if_neg (by omega)]
            exact ⟨_, rfl⟩
          · exact ⟨_, rfl⟩
        · exact ⟨_, rfl⟩
      · exact ⟨_, rfl⟩
    obtain ⟨e, he⟩ := hld input hl
    revert h
    generalize forN _ k _ = s
    cases s with
    | error e' => intro h; cases h
    | ok s =>
      simp only [ok_bind, he, err_bind]
      intro h
      cases h

/-- Without SSE, `process_block_aligned` never writes behind the `2^32` samples reachable by the `uint` index `2*i`. -/
theorem Up2.processBlockAligned_wrap {u : Up2 F} (hu : u.Wf) (hs : u.useSse = false) {input output : Buf F}
    {ioff ooff n : Nat} (hn : n < 2 ^ 32) (hin : ioff + n + u.order - 1 ≤ input.len) (hout : ooff + 2 * n ≤ output.len) :
    Sat (u.processBlockAligned input ioff n output ooff)
      (fun o => o.len = output.len ∧ ∀ j, ooff + 2 ^ 32 ≤ j → o.get j = output.get j) := by
  have ho := hu.order_ge
  unfold Up2.processBlockAligned
  simp only [hs, Bool.false_eq_true, if_false, pure_eq_ok, ok_bind]
  refine sat_bind (sat_whileF (fun s : Nat × Buf F => s.1 ≤ n ∧ s.2.len = output.len ∧
      ∀ j, ooff + 2 ^ 32 ≤ j → s.2.get j = output.get j) (fun s => n - s.1) ⟨Nat.zero_le _, rfl, fun _ _ => rfl⟩
      (by simp only; omega) ?_) ?_
  · rintro ⟨i, o⟩ ⟨hi, hl, hf⟩ hc
    simp only [decide_eq_true_eq] at hc hi hl hf ⊢
    have hw : u32 (2 * i) + 2 ≤ 2 ^ 32 := by unfold u32; omega
    have hw2 : u32 (2 * i) ≤ 2 * i := by unfold u32; omega
    refine sat_bind (Up2.processSampleUnaligned_sat (N := 0) (X := input.get) (p := ioff + i) hu
      ⟨by omega, fun k _ => rfl⟩ (by omega)) ?_
    intro o' ho'
    rw [u32_of_lt (by omega)]
    refine sat_ok ⟨⟨by simp only; omega, by simp only; rw [ho'.len, hl], ?_⟩, by simp only; omega⟩
    intro j hj
    simp only
    rw [ho'.frame j (by omega), hf j hj]
  · rintro ⟨i, o⟩ ⟨⟨hi, hl, hf⟩, hc⟩
    exact sat_ok ⟨hl, hf⟩

/-- The index `2*i` is a `uint`: a factor 2 upsampler fed with so many samples that it overflows does not write its
last output samples. -/
theorem Up2.processBlock_wrap {u : Up2 F} (hu : u.Wf) (hs : u.useSse = false) {input output : Buf F}
    {n : Nat} (h1 : u.order ≤ n) (hn : n < 2 ^ 32) (hin : n ≤ input.len) (hout : 2 * n ≤ output.len) :
    Sat (u.processBlock input 0 n output 0)
      (fun q => q.2.len = output.len ∧ ∀ j, 2 * (u.order - 1) + 2 ^ 32 ≤ j → q.2.get j = output.get j) := by
  have ho := hu.order_ge
  have hlt := hu.order_lt
  have hhl := hu.hist_len
  unfold Up2.processBlock
  have hm : min n (u.order - 1) = u.order - 1 := by omega
  simp only [hm]
  refine sat_bind (copyN_sat (src := input) (dst := u.history) (by omega) (by omega)) ?_
  rintro h ⟨hl, -, -, -⟩
  refine sat_bind (Up2.processBlockAligned_wrap hu hs (by omega) (by omega) (by omega)) ?_
  rintro o ⟨hol, hof⟩
  rw [if_pos (by omega)]
  rw [u32_of_lt (by omega)]
  refine sat_bind (P := fun o' : Buf F => o'.len = output.len ∧ ∀ j, 2 * (u.order - 1) + 2 ^ 32 ≤ j → o'.get j = output.get j) ?_ ?_
  · unfold Up2.processBlockUnaligned
    simp only [hs, Bool.false_eq_true, if_false, pure_eq_ok, ok_bind]
    refine sat_mono (Up2.processBlockAligned_wrap hu hs (by omega) (by omega) ?_) ?_
    · simp only [u32]; omega
    rintro o' ⟨h1, h2⟩
    refine ⟨by rw [h1, hol], fun j hj => ?_⟩
    rw [h2 j (by simp only [u32]; omega), hof j (by omega)]
  · rintro o' ⟨h1, h2⟩
    refine sat_bind (copyN_sat (src := input) (dst := h) (by omega) (by omega)) ?_
    intro _ _
    exact sat_ok ⟨h1, h2⟩

end Panda
