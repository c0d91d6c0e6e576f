import Verif.Model.InPlaceApi
import Verif.Proofs.InPlace
import Verif.Proofs.Session

/-!
# `process_block` with `output == input`: when reads see the original samples
-/

set_option linter.unusedSectionVars false

namespace Panda

/-! ## Loops with equal bodies -/

theorem forN_congr_inv {σ : Type} {f g : Nat → σ → Res σ} (I : Nat → σ → Prop) {n : Nat}
    (heq : ∀ k < n, ∀ s, I k s → g k s = f k s) (hstep : ∀ k < n, ∀ s s', I k s → f k s = .ok s' → I (k + 1) s')
    {s : σ} (h0 : I 0 s) : forN g n s = forN f n s ∧ ∀ s', forN f n s = .ok s' → I n s' := by
  induction n with
  | zero => exact ⟨rfl, fun s' h => by obtain rfl : s = s' := by simpa [forN] using h
                                       exact h0⟩
  | succ n ih =>
    obtain ⟨h1, h2⟩ := ih (fun k hk => heq k (by omega)) (fun k hk => hstep k (by omega))
    unfold forN
    rw [h1]
    cases hs : forN f n s with
    | error e => exact ⟨rfl, fun s' h => by simp at h⟩
    | ok s1 =>
      simp only [ok_bind]
      exact ⟨heq n (by omega) _ (h2 _ hs), fun s' h => hstep n (by omega) _ _ (h2 _ hs) h⟩

theorem forN_congr {σ : Type} {f g : Nat → σ → Res σ} {n : Nat} (heq : ∀ k < n, ∀ s, g k s = f k s) (s : σ) :
    forN g n s = forN f n s :=
  (forN_congr_inv (fun _ _ => True) (fun k hk s _ => heq k hk s) (fun _ _ _ _ _ _ => trivial) trivial).1

theorem whileF_congr_inv {σ : Type} {cond : σ → Bool} {f g : σ → Res σ} (I : σ → Prop)
    (heq : ∀ s, I s → cond s = true → g s = f s) (hstep : ∀ s s', I s → cond s = true → f s = .ok s' → I s') (n : Nat) :
    ∀ s, I s → whileF cond g n s = whileF cond f n s ∧ ∀ s', whileF cond f n s = .ok s' → I s' := by
  induction n with
  | zero =>
    intro s h0
    unfold whileF
    refine ⟨rfl, fun s' h => ?_⟩
    by_cases hc : cond s = true
    · rw [if_pos hc] at h; simp at h
    · rw [if_neg hc] at h
      obtain rfl : s = s' := by simpa using h
      exact h0
  | succ n ih =>
    intro s h0
    unfold whileF
    by_cases hc : cond s = true
    · simp only [if_pos hc, heq s h0 hc]
      cases hf : f s with
      | error e => exact ⟨rfl, fun s' h => by simp at h⟩
      | ok s1 =>
        simp only [ok_bind]
        exact ih s1 (hstep s s1 h0 hc hf)
    · simp only [if_neg hc]
      refine ⟨trivial, fun s' h => ?_⟩
      obtain rfl : s = s' := by simpa using h
      exact h0

/-! ## Buffers that agree from some position on -/

/-- The same array, with the same contents from `off` on. -/
def SameFrom {F : Type} (off : Nat) (a b : Buf F) : Prop :=
  a.addr = b.addr ∧ a.len = b.len ∧ ∀ j, off ≤ j → a.get j = b.get j

namespace SameFrom
variable {F : Type} {off : Nat} {a b c : Buf F}

theorem refl (off : Nat) (a : Buf F) : SameFrom off a a := ⟨rfl, rfl, fun _ _ => rfl⟩

theorem trans (h1 : SameFrom off a b) (h2 : SameFrom off b c) : SameFrom off a c :=
  ⟨h1.1.trans h2.1, h1.2.1.trans h2.2.1, fun j hj => (h1.2.2 j hj).trans (h2.2.2 j hj)⟩

theorem mono (h : SameFrom off a b) {off' : Nat} (hle : off ≤ off') : SameFrom off' a b :=
  ⟨h.1, h.2.1, fun j hj => h.2.2 j (by omega)⟩

theorem rd (h : SameFrom off a b) {j : Nat} (hj : off ≤ j) : a.rd j = b.rd j := by
  simp only [Buf.rd, h.2.1, h.2.2 j hj]

theorem ld4a (h : SameFrom off a b) {j : Nat} (hj : off ≤ j) : a.ld4a j = b.ld4a j := by
  simp only [Buf.ld4a, h.1, h.rd hj, h.rd (show off ≤ j + 1 by omega), h.rd (show off ≤ j + 2 by omega), h.rd (show off ≤ j + 3 by omega)]

theorem ld4u (h : SameFrom off a b) {j : Nat} (hj : off ≤ j) : a.ld4u j = b.ld4u j := by
  simp only [Buf.ld4u, h.rd hj, h.rd (show off ≤ j + 1 by omega), h.rd (show off ≤ j + 2 by omega), h.rd (show off ≤ j + 3 by omega)]

theorem wr (h : SameFrom off a b) {k : Nat} {v : F} {a' : Buf F} (hw : a.wr k v = .ok a') (hk : k < off) : SameFrom off a' b := by
  obtain ⟨-, rfl⟩ := wr_ok hw
  refine ⟨h.1, h.2.1, fun j hj => ?_⟩
  rw [Buf.upd_get_ne _ _ _ (by omega), h.2.2 j hj]

end SameFrom

variable {F : Type} [Zero F] [Add F] [Mul F]

/-! ## What is read of the input -/

section reads
variable {off : Nat} {a b : Buf F} (h : SameFrom off a b)
include h

theorem firProcessOneSample_reads {ioff : Nat} (hi : off ≤ ioff) (taps : Buf F) (n : Nat) :
    firProcessOneSample a ioff taps n = firProcessOneSample b ioff taps n := by
  unfold firProcessOneSample
  refine forN_congr (fun k _ s => ?_) _
  rw [h.rd (by omega)]

theorem firSseAcc_reads {ioff : Nat} (hi : off ≤ ioff) (taps : Buf F) (n k : Nat) :
    firSseAcc a ioff taps n k = firSseAcc b ioff taps n k := by
  unfold firSseAcc
  rw [h.ld4a hi]
  congr 1
  funext x
  congr 1
  funext t
  refine forN_congr (fun k _ s => ?_) _
  simp only
  rw [h.ld4a (by omega)]

theorem firProcess4SamplesSse_reads {ioff : Nat} (hi : off ≤ ioff) (taps : Buf F) (n : Nat) :
    firProcess4SamplesSse a ioff taps n = firProcess4SamplesSse b ioff taps n := by
  unfold firProcess4SamplesSse
  simp only [firSseAcc_reads h hi]

theorem Up2.process4SamplesAligned_reads (u : Up2 F) {ioff : Nat} (hi : off ≤ ioff) (o : Buf F) (ooff : Nat) :
    u.process4SamplesAligned a ioff o ooff = u.process4SamplesAligned b ioff o ooff := by
  unfold Up2.process4SamplesAligned
  simp only [firProcess4SamplesSse_reads h hi]
  rw [h.rd (by omega), h.rd (by omega), h.rd (by omega), h.rd (by omega)]

theorem Up2.processSampleUnaligned_reads (u : Up2 F) {ioff : Nat} (hi : off ≤ ioff) (o : Buf F) (ooff : Nat) :
    u.processSampleUnaligned a ioff o ooff = u.processSampleUnaligned b ioff o ooff := by
  unfold Up2.processSampleUnaligned
  simp only [firProcessOneSample_reads h hi]
  rw [h.rd (by omega)]

theorem Up2.processBlockAligned_reads (u : Up2 F) {ioff : Nat} (hi : off ≤ ioff) (n : Nat) (o : Buf F) (ooff : Nat) :
    u.processBlockAligned a ioff n o ooff = u.processBlockAligned b ioff n o ooff := by
  unfold Up2.processBlockAligned
  simp only [fun k => u.process4SamplesAligned_reads h (show off ≤ ioff + k by omega),
    fun k => u.processSampleUnaligned_reads h (show off ≤ ioff + k by omega)]

theorem Up2.processBlockUnaligned_reads (u : Up2 F) {ioff : Nat} (hi : off ≤ ioff) (n : Nat) (o : Buf F) (ooff : Nat) :
    u.processBlockUnaligned a ioff n o ooff = u.processBlockUnaligned b ioff n o ooff := by
  unfold Up2.processBlockUnaligned
  simp only [fun k => u.processSampleUnaligned_reads h (show off ≤ ioff + k by omega), h.1,
    fun k => u.processBlockAligned_reads h (show off ≤ ioff + k by omega)]

theorem copyN_reads {soff : Nat} (hi : off ≤ soff) (n : Nat) (d : Buf F) (doff : Nat) : copyN a soff n d doff = copyN b soff n d doff := by
  unfold copyN
  refine forN_congr (fun k _ s => ?_) _
  rw [h.rd (by omega)]

theorem Up2.processBlock_reads (u : Up2 F) {ioff : Nat} (hi : off ≤ ioff) (n : Nat) (o : Buf F) (ooff : Nat) :
    u.processBlock a ioff n o ooff = u.processBlock b ioff n o ooff := by
  unfold Up2.processBlock
  simp only [copyN_reads h hi, u.processBlockUnaligned_reads h hi]
  simp only [copyN_reads h (show off ≤ ioff + n - min n (u.order - 1) by omega)]

variable [Sample F]

theorem deinterleave2_reads {soff : Nat} (hi : off ≤ soff) (n : Nat) (o : Buf F) (ooff : Nat) :
    deinterleave2 a soff n o ooff = deinterleave2 b soff n o ooff := by
  unfold deinterleave2
  refine forN_congr (fun k _ s => ?_) _
  rw [h.rd (by omega)]

theorem Down2.processSampleUnaligned_reads (d : Down2 F) (step : Nat) (even : Buf F) (eoff : Nat) {doff : Nat}
    (hi : off ≤ doff + (d.order / 2 - 1) * step) :
    d.processSampleUnaligned step even eoff a doff = d.processSampleUnaligned step even eoff b doff := by
  unfold Down2.processSampleUnaligned
  simp only [h.rd hi]

theorem Down2.process4SamplesAligned_reads (d : Down2 F) (step : Nat) (even : Buf F) (eoff : Nat) {doff : Nat}
    (hi : off ≤ doff + (d.order / 2 - 1) * step) (o : Buf F) (ooff : Nat) :
    d.process4SamplesAligned step even eoff a doff o ooff = d.process4SamplesAligned step even eoff b doff o ooff := by
  unfold Down2.process4SamplesAligned
  have hk : ∀ k, off ≤ doff + (d.order / 2 - 1 + k) * step := fun k => by
    have := Nat.mul_le_mul_right step (Nat.le_add_right (d.order / 2 - 1) k)
    omega
  simp only [h.rd hi, fun k => h.rd (hk k)]

theorem Down2.processBlockAligned_reads (d : Down2 F) (step : Nat) (even : Buf F) (eoff : Nat) {doff : Nat}
    (hi : off ≤ doff + (d.order / 2 - 1) * step) (o : Buf F) (ooff n : Nat) :
    d.processBlockAligned step even eoff a doff o ooff n = d.processBlockAligned step even eoff b doff o ooff n := by
  unfold Down2.processBlockAligned
  have h1 := fun k => d.processSampleUnaligned_reads h step even (eoff + k) (doff := doff + k * step) (by omega)
  have h2 := fun k => d.process4SamplesAligned_reads h step even (eoff + k) (doff := doff + k * step) (by omega)
  simp only [h2, h1]

theorem Down2.processBlockUnaligned_reads (d : Down2 F) (step : Nat) (even : Buf F) (eoff : Nat) {doff : Nat} (hi : off ≤ doff)
    (o : Buf F) (ooff n : Nat) :
    d.processBlockUnaligned step even eoff a doff o ooff n = d.processBlockUnaligned step even eoff b doff o ooff n := by
  unfold Down2.processBlockUnaligned
  have h1 := fun k => d.processSampleUnaligned_reads h step even (eoff + k) (doff := doff + k * step) (by omega)
  simp only [h1, fun e k => d.processBlockAligned_reads h step even e (show off ≤ doff + k + (d.order / 2 - 1) * step by omega)]

theorem Down2.loopBody_reads (st : Stack F) (s : DownLoop F) (hi : off ≤ s.ioff) : Down2.loopBody st a s = Down2.loopBody st b s := by
  unfold Down2.loopBody
  simp only [deinterleave2_reads h hi, deinterleave2_reads h (show off ≤ s.ioff + 1 by omega),
    s.d.processBlockUnaligned_reads h 2 _ _ (show off ≤ s.ioff + 1 by omega)]
  simp only [deinterleave2_reads h (show off ≤ s.ioff + 1 + min s.n (1024 * 2) - min (min s.n (1024 * 2) / 2) (s.d.order - 1) * 2 by omega)]

omit h in
theorem Down2.loopBody_ioff {st : Stack F} {input : Buf F} {s s' : DownLoop F} (h : Down2.loopBody st input s = .ok s') :
    s'.ioff = s.ioff + min s.n 2048 ∧ s'.n = s.n - min s.n 2048 ∧ s'.ooff = s.ooff + min s.n 2048 / 2 ∧
      s'.d.order = s.d.order ∧ s'.d.useSse = s.d.useSse := by
  unfold Down2.loopBody at h
  obtain ⟨_, -, h⟩ := bind_ok h
  obtain ⟨_, -, h⟩ := bind_ok h
  obtain ⟨_, -, h⟩ := bind_ok h
  obtain ⟨_, -, h⟩ := bind_ok h
  obtain ⟨_, -, h⟩ := bind_ok h
  simp only [pure_eq_ok, Except.ok.injEq] at h
  subst h
  exact ⟨rfl, rfl, rfl, rfl, rfl⟩

theorem Down2.processBlock_reads (st : Stack F) (d : Down2 F) {ioff : Nat} (hi : off ≤ ioff) (n : Nat) (o : Buf F) (ooff : Nat) :
    d.processBlock st a ioff n o ooff = d.processBlock st b ioff n o ooff := by
  unfold Down2.processBlock
  rw [(whileF_congr_inv (fun s : DownLoop F => off ≤ s.ioff) (fun s hs _ => Down2.loopBody_reads h st s hs)
    (fun s s' hs _ e => by have := (Down2.loopBody_ioff e).1; omega) n _ hi).1]

variable [One F] [Sub F]

theorem FpuFilter.upBlock_reads (bld : Build) (f : FpuFilter F) {ioff : Nat} (hi : off ≤ ioff) (n : Nat) (o : Buf F) (ooff : Nat) :
    f.upBlock bld a ioff n o ooff = f.upBlock bld b ioff n o ooff := by
  unfold FpuFilter.upBlock
  simp only [fun k => h.rd (show off ≤ ioff + k by omega)]

theorem FpuFilter.downBlock_reads (bld : Build) (f : FpuFilter F) {ioff : Nat} (hi : off ≤ ioff) (n : Nat) (o : Buf F) (ooff : Nat) :
    f.downBlock bld a ioff n o ooff = f.downBlock bld b ioff n o ooff := by
  unfold FpuFilter.downBlock
  simp only [fun k => h.rd (show off ≤ ioff + k by omega)]

theorem SseFilter.upBlock_reads (bld : Build) (f : SseFilter F) {ioff : Nat} (hi : off ≤ ioff) (n : Nat) (o : Buf F) (ooff : Nat) :
    f.upBlock bld a ioff n o ooff = f.upBlock bld b ioff n o ooff := by
  unfold SseFilter.upBlock
  simp only [fun k => h.rd (show off ≤ ioff + k by omega)]

theorem SseFilter.downBlock_reads (bld : Build) (f : SseFilter F) {ioff : Nat} (hi : off ≤ ioff) (n : Nat) (o : Buf F) (ooff : Nat) :
    f.downBlock bld a ioff n o ooff = f.downBlock bld b ioff n o ooff := by
  unfold SseFilter.downBlock
  simp only [fun k => h.ld4u (show off ≤ ioff + k by omega)]

theorem Impl.processBlock_reads (bld : Build) (st : Stack F) (i : Impl F) {ioff : Nat} (hi : off ≤ ioff) (n : Nat) (o : Buf F) (ooff : Nat) :
    i.processBlock bld st a ioff n o ooff = i.processBlock bld st b ioff n o ooff := by
  cases i with
  | firUp u => simp only [Impl.processBlock, u.processBlock_reads h hi]
  | firDown d => simp only [Impl.processBlock, d.processBlock_reads h st hi]
  | iirUp f dl => simp only [Impl.processBlock, f.upBlock_reads h bld hi]
  | iirDown f dl => simp only [Impl.processBlock, f.downBlock_reads h bld hi]
  | iirUpSse f dl => simp only [Impl.processBlock, f.upBlock_reads h bld hi]
  | iirDownSse f dl => simp only [Impl.processBlock, f.downBlock_reads h bld hi]

theorem Resampler.loopBody_reads (bld : Build) (st : Stack F) (s : RLoop F) (hi : off ≤ s.ioff) :
    Resampler.loopBody bld st a s = Resampler.loopBody bld st b s := by
  unfold Resampler.loopBody
  simp only [fun i : Impl F => i.processBlock_reads h bld st hi]

end reads

/-! ## Ratios 4 and 8 -/

section cascade
variable [Sample F] [One F] [Sub F]

/-- DOWN: the output is always behind the input. -/
theorem Resampler.inPlace_down {bld : Build} {st : Stack F} {ss : List (Stage F)} {r : Resampler F} {xs zs c : List F} {m : Buf F}
    (hr : r.ratio = 4 ∨ r.ratio = 8) (hm : r.mode = .down) (hd : DirOk r.mode ss) (h : ChainInv ss r.path xs zs)
    (hok : r.CallOk bld ss c.length m.len m.len) (hc : ∀ k < c.length, m.get k = seq c k) :
    r.processInPlace bld st m c.length = r.processBlock bld st m c.length m := by
  unfold Resampler.processInPlace Resampler.processBlock
  have h2 : r.ratio ≠ 2 := by omega
  have h1 : r.ratio ≠ 1 := by omega
  simp only [if_neg h1, if_neg h2]
  rw [(whileF_congr_inv (f := Resampler.loopBody bld st m) (Resampler.LoopInv ss r xs zs c m) ?_ ?_ _ _ (Resampler.LoopInv.init h)).1]
  · rintro s ⟨k, hk, -, hio, -, -, hP⟩ -
    refine Resampler.loopBody_reads (off := s.ioff) ⟨hP.addr, hP.len, fun j hj => hP.frame j (Or.inr ?_)⟩ bld st s (Nat.le_refl _)
    have : r.outLen k ≤ k := by
      unfold Resampler.outLen
      simp only [hm]
      exact Nat.div_le_self _ _
    omega
  · intro s s' hs hcond e
    obtain ⟨s2, e2, h2, -⟩ := hs.step hr hd hok hc (st := st) (by simpa using hcond)
    rw [e] at e2
    cases e2
    exact h2

/-- One block of at most 1024 samples. -/
theorem Resampler.inPlace_one {bld : Build} {st : Stack F} {ss : List (Stage F)} {r : Resampler F} {xs zs c : List F} {m : Buf F}
    (hr : r.ratio = 4 ∨ r.ratio = 8) (hd : DirOk r.mode ss) (h : ChainInv ss r.path xs zs)
    (hok : r.CallOk bld ss c.length m.len m.len) (hc : ∀ k < c.length, m.get k = seq c k) (hn : c.length ≤ 1024) :
    r.processInPlace bld st m c.length = r.processBlock bld st m c.length m := by
  unfold Resampler.processInPlace Resampler.processBlock
  have h2 : r.ratio ≠ 2 := by omega
  have h1 : r.ratio ≠ 1 := by omega
  simp only [if_neg h1, if_neg h2]
  rw [(whileF_congr_inv (f := Resampler.loopBody bld st m) (fun s : RLoop F => Resampler.LoopInv ss r xs zs c m s ∧
    (s.n ≠ 0 → s.output = m)) ?_ ?_ _ _ ⟨Resampler.LoopInv.init h, fun _ => rfl⟩).1]
  · rintro s ⟨-, h⟩ hcond
    rw [h (by simpa using hcond)]
  · rintro s s' ⟨hs, -⟩ hcond e
    have hcond' : s.n ≠ 0 := by simpa using hcond
    have hs' := hs
    obtain ⟨k, hk, hn1, -, hoo, -⟩ := hs
    obtain ⟨s2, e2, h2, hlt⟩ := hs'.step hr hd hok hc (st := st) hcond'
    rw [e] at e2
    cases e2
    refine ⟨h2, fun h0 => absurd ?_ h0⟩
    have : s'.n = s.n - min 1024 s.n := by
      clear h2 hlt hs' hcond h0
      unfold Resampler.loopBody at e
      cases hm : s.r.mode <;> simp only [hm] at e
      all_goals
        split at e
        · repeat
            obtain ⟨_, -, e⟩ := bind_ok e
          simp only [pure_eq_ok, Except.ok.injEq] at e
          subst e
          rfl
        · repeat
            obtain ⟨_, -, e⟩ := bind_ok e
          simp only [pure_eq_ok, Except.ok.injEq] at e
          subst e
          rfl
    omega

/-! ## IIR, DOWN, ratio 2 -/

theorem FpuFilter.downBlock_inPlace {bld : Build} (f : FpuFilter F) (m : Buf F) (n : Nat) :
    f.downBlockMem bld m 0 n 0 = f.downBlock bld m 0 n m 0 := by
  unfold FpuFilter.downBlockMem FpuFilter.downBlock doWhileN
  rw [assert_of (by simp), ok_bind]
  congr 1
  funext _
  refine (forN_congr_inv (fun k (s : FpuFilter F × Buf F) => SameFrom k s.2 m) ?_ ?_ (SameFrom.refl 0 m)).1
  · intro k _ s hs
    simp only [hs.rd (show k ≤ 0 + (k * 2 + 1) by omega), hs.rd (show k ≤ 0 + k * 2 by omega)]
  · intro k _ s s' hs e
    obtain ⟨_, -, e⟩ := bind_ok e
    obtain ⟨_, -, e⟩ := bind_ok e
    obtain ⟨_, -, e⟩ := bind_ok e
    obtain ⟨b, hw, e⟩ := bind_ok e
    simp only [pure_eq_ok, Except.ok.injEq] at e
    subst e
    exact (hs.mono (Nat.le_succ k)).wr hw (by omega)

theorem SseFilter.downBlock_inPlace {bld : Build} (f : SseFilter F) (m : Buf F) (n : Nat) :
    f.downBlockMem bld m 0 n 0 = f.downBlock bld m 0 n m 0 := by
  unfold SseFilter.downBlockMem SseFilter.downBlock
  rw [assert_of (by simp), ok_bind]
  congr 1
  funext _
  refine (forN_congr_inv (fun k (s : SseFilter F × Buf F) => SameFrom k s.2 m) ?_ ?_ (SameFrom.refl 0 m)).1
  · intro k _ s hs
    simp only [hs.ld4u (show k ≤ 0 + k * 2 by omega)]
  · intro k _ s s' hs e
    obtain ⟨_, -, e⟩ := bind_ok e
    obtain ⟨_, -, e⟩ := bind_ok e
    obtain ⟨b, hw, e⟩ := bind_ok e
    simp only [pure_eq_ok, Except.ok.injEq] at e
    subst e
    exact (hs.mono (Nat.le_succ k)).wr hw (by omega)

end cascade

/-! ## FIR, ratio 2 -/

/-- UP: all samples go through the history. -/
theorem Up2.processBlock_inPlace_short (u : Up2 F) (m : Buf F) (n : Nat) (hn : n ≤ u.order - 1) :
    u.processBlockMem m 0 n 0 = u.processBlock m 0 n m 0 := by
  unfold Up2.processBlockMem Up2.processBlock
  have : ¬ n > min n (u.order - 1) := by omega
  simp only [if_neg this]

variable [Sample F]

/-- DOWN: all samples go through the history. -/
theorem Down2.processBlock_inPlace_short {st : Stack F} (d : Down2 F) (m : Buf F) (n : Nat) (hO : d.order ≤ 1025)
    (hn : n / 2 < d.order) :
    d.processBlockMem st m 0 n 0 = d.processBlock st m 0 n m 0 := by
  unfold Down2.processBlockMem Down2.processBlock
  split
  · rfl
  rw [(whileF_congr_inv (f := Down2.loopBody st m) (fun s : DownLoop F => s.n ≠ 0 → s = { d := d, n := n, ioff := 0, output := m, ooff := 0 })
    ?_ ?_ _ _ (fun _ => rfl)).1]
  · rintro s hs hc
    rw [hs (by simpa using hc)]
    unfold Down2.loopBodyMem Down2.loopBody
    have : ¬ min n (1024 * 2) / 2 > min (min n (1024 * 2) / 2) (d.order - 1) := by omega
    simp only [if_neg this]
  · rintro s s' hs hc e h0
    rw [hs (by simpa using hc)] at e
    have := (Down2.loopBody_ioff e).2.1
    simp only at this
    omega

/-! ### Related results -/

/-- Two computations end in the same way, with results related by `R`. -/
def SameEnd {α β : Type} (R : α → β → Prop) : Res α → Res β → Prop
  | .ok a, .ok b => R a b
  | .error e, .error e' => e = e'
  | _, _ => False

theorem SameEnd.of_eq {α : Type} {x y : Res α} (h : x = y) : SameEnd (fun a b => a = b ∧ y = .ok b) x y := by
  subst h
  cases x with
  | error e => exact rfl
  | ok a => exact ⟨rfl, rfl⟩

theorem SameEnd.bind {α β γ δ : Type} {R : α → β → Prop} {S : γ → δ → Prop} {x : Res α} {y : Res β} {f : α → Res γ} {g : β → Res δ}
    (h : SameEnd R x y) (hfg : ∀ a b, R a b → SameEnd S (f a) (g b)) : SameEnd S (x >>= f) (y >>= g) := by
  cases x <;> cases y
  · exact h
  · exact h.elim
  · exact h.elim
  · exact hfg _ _ h

theorem SameEnd.mono {α β : Type} {R S : α → β → Prop} {x : Res α} {y : Res β} (h : SameEnd R x y) (hRS : ∀ a b, R a b → S a b) :
    SameEnd S x y := by
  cases x <;> cases y
  · exact h
  · exact h.elim
  · exact h.elim
  · exact hRS _ _ h

theorem SameEnd.forN {σ τ : Type} {f : Nat → σ → Res σ} {g : Nat → τ → Res τ} (R : Nat → σ → τ → Prop) {n : Nat}
    (hstep : ∀ k < n, ∀ s t, R k s t → SameEnd (R (k + 1)) (f k s) (g k t)) {s : σ} {t : τ} (h0 : R 0 s t) :
    SameEnd (R n) (forN f n s) (forN g n t) := by
  induction n with
  | zero => exact h0
  | succ n ih => exact (ih fun k hk => hstep k (by omega)).bind fun a b h => hstep n (by omega) a b h

theorem SameEnd.whileF {σ τ : Type} {c : σ → Bool} {c' : τ → Bool} {f : σ → Res σ} {g : τ → Res τ} (R : σ → τ → Prop)
    (hc : ∀ s t, R s t → c s = c' t) (hstep : ∀ s t, R s t → c s = true → SameEnd R (f s) (g t)) (n : Nat) :
    ∀ s t, R s t → SameEnd R (whileF c f n s) (whileF c' g n t) := by
  induction n with
  | zero =>
    intro s t h
    unfold Panda.whileF
    rw [← hc s t h]
    by_cases hs : c s = true
    · rw [if_pos hs, if_pos hs]; exact rfl
    · rw [if_neg hs, if_neg hs]; exact h
  | succ n ih =>
    intro s t h
    unfold Panda.whileF
    rw [← hc s t h]
    by_cases hs : c s = true
    · rw [if_pos hs, if_pos hs]
      exact (hstep s t h hs).bind ih
    · rw [if_neg hs, if_neg hs]; exact h

/-! ### The first half of the odd history is never read -/

/-- Downsamplers that differ at most in the first `order/2 - 1` entries of the odd history. -/
structure Down2.Sim (d d' : Down2 F) : Prop where
  order : d.order = d'.order
  useSse : d.useSse = d'.useSse
  taps : d.taps = d'.taps
  even : d.historyEven = d'.historyEven
  sseTaps : d.sseTaps = d'.sseTaps
  odd : SameFrom (d.order / 2 - 1) d.historyOdd d'.historyOdd

theorem deinterleave2_from {H : Nat} {src src' dst dst' : Buf F} (hd : SameFrom H dst dst') (hl : src.len = src'.len) {soff n doff : Nat}
    (hs : ∀ j, H ≤ doff + j → src.get (soff + 2 * j) = src'.get (soff + 2 * j)) :
    SameEnd (SameFrom H) (deinterleave2 src soff n dst doff) (deinterleave2 src' soff n dst' doff) := by
  unfold deinterleave2
  refine SameEnd.forN (fun _ => SameFrom H) (fun k _ s t h => ?_) hd
  simp only [Buf.rd, hl]
  by_cases hk : soff + 2 * k < src'.len
  · simp only [if_pos hk, ok_bind, Buf.wr, h.2.1]
    by_cases hw : doff + k < t.len
    · simp only [if_pos hw]
      refine ⟨h.1, h.2.1, fun j hj => ?_⟩
      simp only [Buf.upd_get]
      by_cases hjk : j = doff + k
      · rw [if_pos hjk, if_pos hjk, hs k (by omega)]
      · rw [if_neg hjk, if_neg hjk, h.2.2 j hj]
    · simp only [if_neg hw]; exact rfl
  · simp only [if_neg hk]; exact rfl

theorem memmoveDown_from {H : Nat} {a b : Buf F} (h : SameFrom H a b) (k n : Nat) :
    SameEnd (SameFrom H) (memmoveDown a k n) (memmoveDown b k n) := by
  unfold memmoveDown
  rw [h.2.1]
  by_cases h1 : k + n ≤ b.len
  · by_cases h2 : n ≤ b.len
    · simp only [if_pos h1, if_pos h2]
      refine ⟨h.1, rfl, fun j hj => ?_⟩
      simp only
      rw [h.2.2 _ (show H ≤ k + j by omega), h.2.2 j hj]
    · simp only [if_pos h1, if_neg h2]; exact rfl
  · simp only [if_neg h1]; exact rfl

/-- What `process_block_aligned` writes. -/
theorem Down2.processBlockAligned_frame {d : Down2 F} {step : Nat} {even : Buf F} {eoff : Nat} {odd : Buf F}
    {doff : Nat} {o o' : Buf F} {ooff n : Nat} (h : d.processBlockAligned step even eoff odd doff o ooff n = .ok o') :
    SameFrom (ooff + n) o' o := by
  unfold Down2.processBlockAligned at h
  obtain ⟨q, e1, h⟩ := bind_ok h
  obtain ⟨s, e, h⟩ := bind_ok h
  simp only [pure_eq_ok, Except.ok.injEq] at h
  subst h
  have hq : SameFrom (ooff + n) q.2 o := by
    by_cases hu : d.useSse = true
    · simp only [if_pos hu] at e1
      refine ((whileF_congr_inv (fun s : Nat × Buf F => SameFrom (ooff + n) s.2 o) (fun _ _ _ => rfl) ?_ _ _
        (SameFrom.refl _ o)).2 _ e1)
      intro s s' hs hc e
      have hlt : s.1 + 6 < n := by simpa using hc
      obtain ⟨b, hw, e⟩ := bind_ok e
      simp only [pure_eq_ok, Except.ok.injEq] at e
      subst e
      unfold Down2.process4SamplesAligned at hw
      obtain ⟨_, -, hw⟩ := bind_ok hw
      obtain ⟨_, w0, hw⟩ := bind_ok hw
      obtain ⟨_, w1, hw⟩ := bind_ok hw
      obtain ⟨_, w2, hw⟩ := bind_ok hw
      obtain ⟨_, w3, hw⟩ := bind_ok hw
      obtain ⟨_, -, hw⟩ := bind_ok hw
      obtain ⟨_, -, hw⟩ := bind_ok hw
      obtain ⟨_, w4, hw⟩ := bind_ok hw
      obtain ⟨_, -, hw⟩ := bind_ok hw
      obtain ⟨_, -, hw⟩ := bind_ok hw
      obtain ⟨_, w5, hw⟩ := bind_ok hw
      obtain ⟨_, -, hw⟩ := bind_ok hw
      obtain ⟨_, -, hw⟩ := bind_ok hw
      obtain ⟨_, w6, hw⟩ := bind_ok hw
      obtain ⟨_, -, hw⟩ := bind_ok hw
      obtain ⟨_, -, w7⟩ := bind_ok hw
      exact (((((((hs.wr w0 (by omega)).wr w1 (by omega)).wr w2 (by omega)).wr w3 (by omega)).wr w4 (by omega)).wr w5 (by omega)).wr w6
        (by omega)).wr w7 (by omega)
    · simp only [if_neg hu, pure_eq_ok, Except.ok.injEq] at e1
      subst e1
      exact SameFrom.refl _ o
  refine ((whileF_congr_inv (fun s : Nat × Buf F => SameFrom (ooff + n) s.2 o) (fun _ _ _ => rfl) ?_ _ _ hq).2 _ e)
  intro s s' hs hc e
  obtain ⟨_, -, e⟩ := bind_ok e
  obtain ⟨b, hw, e⟩ := bind_ok e
  simp only [pure_eq_ok, Except.ok.injEq] at e
  subst e
  exact hs.wr hw (by have : s.1 < n := by simpa using hc
                     omega)

/-- Scalar code (or too few samples for vectors), rest of the block: what is read of the odd samples. -/
theorem Down2.processBlockUnaligned_inPlace {d : Down2 F} {even m input : Buf F} {doff ooff n : Nat}
    (hd : d.useSse = false ∨ n ≤ 6 ∧ even.addr % 16 = 0)
    (hs : SameFrom ooff m input) (hpos : ooff ≤ doff + (d.order / 2 - 1) * 2) :
    SameEnd (fun a b => a = b ∧ SameFrom (ooff + n) a input) (d.processBlockUnalignedMem 2 even 0 m doff ooff n)
      (d.processBlockUnaligned 2 even 0 input doff m ooff n) := by
  have e1 : ∀ f : Nat × Buf F → Res (Nat × Buf F),
      (if d.useSse = true then whileF (fun s : Nat × Buf F => (even.addr + 4 * (0 + s.1)) % 16 ≠ 0 && s.1 < n) f n (0, m)
        else pure (0, m)) = .ok (0, m) := by
    intro f
    rcases hd with hd | ⟨-, hd⟩
    · simp only [hd, Bool.false_eq_true, if_false, pure_eq_ok]
    · split
      · have : ¬ (decide ((even.addr + 4 * (0 + (0, m).1)) % 16 ≠ 0) && decide ((0, m).1 < n)) = true := by simp [hd]
        cases n <;> simp only [whileF, if_neg this, pure_eq_ok]
      · rfl
  have e2 : ∀ f : Nat × Buf F → Res (Nat × Buf F),
      (if d.useSse = true then whileF (fun s : Nat × Buf F => s.1 + 6 < n) f n (0, m) else pure (0, m)) = .ok (0, m) := by
    intro f
    rcases hd with hd | ⟨hd, -⟩
    · simp only [hd, Bool.false_eq_true, if_false, pure_eq_ok]
    · split
      · have : ¬ (decide ((0, m).1 + 6 < n)) = true := by simp only [decide_eq_true_eq]; omega
        cases n <;> simp only [whileF, if_neg this, pure_eq_ok]
      · rfl
  unfold Down2.processBlockUnalignedMem Down2.processBlockUnaligned
  rw [e1, e1]
  simp only [ok_bind]
  unfold Down2.processBlockAlignedMem Down2.processBlockAligned
  rw [e2, e2]
  simp only [ok_bind, Nat.zero_mul, Nat.add_zero]
  refine SameEnd.bind (R := fun s t => s = t ∧ SameFrom (ooff + n) s.2 input) ?_ fun a b h => ⟨by rw [h.1], h.2⟩
  have key := whileF_congr_inv (cond := fun s : Nat × Buf F => decide (s.1 < n))
    (f := fun s => d.processSampleUnaligned 2 even (0 + s.1) input (doff + s.1 * 2) >>= fun v =>
      s.2.wr (ooff + s.1) v >>= fun o => Except.ok (s.1 + 1, o))
    (g := fun s => d.processSampleUnaligned 2 even (0 + s.1) s.2 (doff + s.1 * 2) >>= fun v =>
      s.2.wr (ooff + s.1) v >>= fun o => Except.ok (s.1 + 1, o))
    (fun s => s.1 ≤ n ∧ SameFrom (ooff + s.1) s.2 input) ?_ ?_ n (0, m) ⟨Nat.zero_le _, hs⟩
  · refine (SameEnd.of_eq key.1).mono fun a b h => ⟨h.1, ?_⟩
    obtain ⟨rfl, h⟩ := h
    obtain ⟨h1, h2⟩ := key.2 _ h
    exact h2.mono (by omega)
  · rintro s ⟨-, h⟩ -
    rw [d.processSampleUnaligned_reads h 2 even (0 + s.1) (doff := doff + s.1 * 2) (by omega)]
  · rintro s s' ⟨h1, h⟩ hc e
    obtain ⟨_, -, e⟩ := bind_ok e
    obtain ⟨b, hw, e⟩ := bind_ok e
    simp only [Except.ok.injEq] at e
    subst e
    have : s.1 < n := by simpa using hc
    exact ⟨this, (h.mono (by simp only; omega)).wr hw (by simp only; omega)⟩

theorem deinterleave2_addr {src dst o : Buf F} {soff n doff : Nat} (h : deinterleave2 src soff n dst doff = .ok o) : o.addr = dst.addr := by
  refine (forN_congr_inv (fun _ (s : Buf F) => s.addr = dst.addr) (fun _ _ _ _ => rfl) ?_ rfl).2 _ h
  intro k _ s s' hs e
  obtain ⟨_, -, e⟩ := bind_ok e
  obtain ⟨-, rfl⟩ := wr_ok e
  exact hs

/-- States of the loop of `Downsampler2::process_block` that differ at most in what is never read. -/
structure DownLoop.Sim (s t : DownLoop F) : Prop where
  d : s.d.Sim t.d
  n : s.n = t.n
  ioff : s.ioff = t.ioff
  output : s.output = t.output
  ooff : s.ooff = t.ooff

/-- One block, in place and out of place. -/
theorem Down2.loopBody_inPlace {st : Stack F} {s t : DownLoop F} {input : Buf F} (hst : s.Sim t) (he : s.d.order % 2 = 0) (h2 : 2 ≤ s.d.order)
    (hd : s.d.useSse = false ∨ s.n / 2 < s.d.order + 6) (hn : s.n % 2 = 0)
    (hle : s.ooff ≤ s.ioff) (hs : SameFrom s.ooff s.output input) :
    SameEnd (fun s' t' => s'.Sim t' ∧ SameFrom s'.ooff s'.output input) (Down2.loopBodyMem st s) (Down2.loopBody st input t) := by
  obtain ⟨⟨O, sse, taps, hE, hO, sT⟩, n, ioff, out, ooff⟩ := s
  obtain ⟨⟨O', sse', taps', hE', hO', sT'⟩, n', ioff', out', ooff'⟩ := t
  obtain ⟨⟨e1, e2, e3, e4, e5, ho⟩, f1, f2, f3, f4⟩ := hst
  simp only at e1 e2 e3 e4 e5 f1 f2 f3 f4 he h2 hd hn hle hs ho
  subst e1 e2 e3 e4 e5 f1 f2 f3 f4
  unfold Down2.loopBodyMem Down2.loopBody
  simp only [show 1024 * 2 = 2048 from rfl]
  refine SameEnd.bind (SameEnd.of_eq (deinterleave2_reads hs hle _ _ _)) ?_
  rintro even _ ⟨rfl, hev⟩
  have hea := deinterleave2_addr hev
  refine SameEnd.bind (SameEnd.of_eq rfl) ?_
  rintro hEven _ ⟨rfl, -⟩
  refine SameEnd.bind (deinterleave2_from ho hs.2.1 fun j _ => hs.2.2 _ (by omega)) fun hOdd hOdd' hod => ?_
  refine SameEnd.bind (SameEnd.of_eq (Down2.processBlockAligned_reads hod _ 1 _ _ (by simp only; omega) _ _ _)) ?_
  rintro o _ ⟨rfl, ho⟩
  have hf := (Down2.processBlockAligned_frame ho).trans (hs.mono (Nat.le_add_right _ _))
  refine SameEnd.bind (R := fun q q' => q.1 = q'.1 ∧ SameFrom (O / 2 - 1) q.2.1 q'.2.1 ∧ q.2.2 = q'.2.2 ∧
    SameFrom (ooff + min n 2048 / 2) q.2.2 input) ?_ fun q q' hq => ⟨⟨⟨rfl, rfl, rfl, hq.1, rfl, hq.2.1⟩, rfl, rfl, hq.2.2.1, rfl⟩, hq.2.2.2⟩
  by_cases hgt : min n 2048 / 2 > min (min n 2048 / 2) (O - 1)
  · simp only [if_pos hgt]
    have hm : min (min n 2048 / 2) (O - 1) = O - 1 := by omega
    rw [hm] at hf ⊢
    refine SameEnd.bind (Down2.processBlockUnaligned_inPlace (hd.imp id fun h => ⟨by omega, by rw [hea]; simp only; omega⟩) hf
      (by simp only; omega)) ?_
    rintro o2 _ ⟨rfl, ho2⟩
    refine SameEnd.bind (SameEnd.of_eq rfl) ?_
    rintro hEven2 _ ⟨rfl, -⟩
    refine SameEnd.bind (deinterleave2_from hod ho2.2.1 fun j hj => ho2.2.2 _ (by omega)) fun hOdd2 hOdd2' hod2 => ?_
    exact ⟨rfl, hod2, rfl, ho2.mono (by omega)⟩
  · simp only [if_neg hgt]
    refine SameEnd.bind (SameEnd.of_eq rfl) ?_
    rintro hEven2 _ ⟨rfl, -⟩
    refine SameEnd.bind (memmoveDown_from hod _ _) fun hOdd2 hOdd2' hod2 => ?_
    exact ⟨rfl, hod2, rfl, hf.mono (by omega)⟩

/-- One block, both out of place. -/
theorem Down2.loopBody_sim {st : Stack F} {s t : DownLoop F} {input : Buf F} (hst : s.Sim t) :
    SameEnd DownLoop.Sim (Down2.loopBody st input s) (Down2.loopBody st input t) := by
  obtain ⟨⟨O, sse, taps, hE, hO, sT⟩, n, ioff, out, ooff⟩ := s
  obtain ⟨⟨O', sse', taps', hE', hO', sT'⟩, n', ioff', out', ooff'⟩ := t
  obtain ⟨⟨e1, e2, e3, e4, e5, ho⟩, f1, f2, f3, f4⟩ := hst
  simp only at e1 e2 e3 e4 e5 f1 f2 f3 f4 ho
  subst e1 e2 e3 e4 e5 f1 f2 f3 f4
  unfold Down2.loopBody
  simp only
  refine SameEnd.bind (SameEnd.of_eq rfl) ?_
  rintro even _ ⟨rfl, hev⟩
  refine SameEnd.bind (SameEnd.of_eq rfl) ?_
  rintro hEven _ ⟨rfl, -⟩
  refine SameEnd.bind (deinterleave2_from ho rfl fun j _ => rfl) fun hOdd hOdd' hod => ?_
  refine SameEnd.bind (SameEnd.of_eq (Down2.processBlockAligned_reads hod _ 1 _ _ (by simp only; omega) _ _ _)) ?_
  rintro o _ ⟨rfl, -⟩
  refine SameEnd.bind (R := fun q q' => q.1 = q'.1 ∧ SameFrom (O / 2 - 1) q.2.1 q'.2.1 ∧ q.2.2 = q'.2.2) ?_
    fun q q' hq => ⟨⟨rfl, rfl, rfl, hq.1, rfl, hq.2.1⟩, rfl, rfl, hq.2.2, rfl⟩
  split
  · refine SameEnd.bind (SameEnd.of_eq rfl) ?_
    rintro o2 _ ⟨rfl, -⟩
    refine SameEnd.bind (SameEnd.of_eq rfl) ?_
    rintro hEven2 _ ⟨rfl, -⟩
    refine SameEnd.bind (deinterleave2_from hod rfl fun j _ => rfl) fun hOdd2 hOdd2' hod2 => ?_
    exact ⟨rfl, hod2, rfl⟩
  · refine SameEnd.bind (SameEnd.of_eq rfl) ?_
    rintro hEven2 _ ⟨rfl, -⟩
    refine SameEnd.bind (memmoveDown_from hod _ _) fun hOdd2 hOdd2' hod2 => ?_
    exact ⟨rfl, hod2, rfl⟩

theorem Down2.Sim.refl (d : Down2 F) : d.Sim d := ⟨rfl, rfl, rfl, rfl, rfl, SameFrom.refl _ _⟩

/-- A whole call in place. -/
theorem Down2.processBlock_inPlace {st : Stack F} (d : Down2 F) (m : Buf F) (n : Nat) (he : d.order % 2 = 0) (h2 : 2 ≤ d.order)
    (hd : d.useSse = false ∨ n / 2 < d.order + 6) :
    SameEnd (fun q q' => q.1.Sim q'.1 ∧ q.2 = q'.2) (d.processBlockMem st m 0 n 0) (d.processBlock st m 0 n m 0) := by
  unfold Down2.processBlockMem Down2.processBlock
  split
  · exact ⟨Down2.Sim.refl d, rfl⟩
  refine SameEnd.bind (R := fun s t : DownLoop F => s.Sim t) ?_ fun s t h => ⟨h.d, h.output⟩
  refine (SameEnd.whileF (fun s t : DownLoop F => s.Sim t ∧ s.d.useSse = d.useSse ∧ s.d.order = d.order ∧ s.n ≤ n ∧ s.n % 2 = 0 ∧
    s.ooff ≤ s.ioff ∧ SameFrom s.ooff s.output m) ?_ ?_ n _ _ ⟨⟨Down2.Sim.refl d, rfl, rfl, rfl, rfl⟩, rfl, rfl, Nat.le_refl _,
      by simp only; omega, Nat.le_refl _, SameFrom.refl _ _⟩).mono fun s t h => h.1
  · rintro s t ⟨h, -⟩
    rw [h.n]
  · rintro s t ⟨h, hu, ho, hn, hp, hle, hs⟩ -
    have key := Down2.loopBody_inPlace (st := st) h (by omega) (by omega) (by rw [hu, ho]; exact hd.imp id fun h => by omega) hp hle hs
    cases et : Down2.loopBody st m t with
    | error e =>
      rw [et] at key
      cases es : Down2.loopBodyMem st s with
      | error e' => rw [es] at key; exact key
      | ok s' => rw [es] at key; exact key.elim
    | ok t' =>
      rw [et] at key
      cases es : Down2.loopBodyMem st s with
      | error e' => rw [es] at key; exact key.elim
      | ok s' =>
        rw [es] at key
        obtain ⟨k1, k2⟩ := key
        obtain ⟨e1, e2, e3, e4, e5⟩ := Down2.loopBody_ioff et
        have := h.n
        have := h.ioff
        have := h.ooff
        have := k1.n
        have := k1.ioff
        have := k1.ooff
        exact ⟨k1, by rw [k1.d.useSse, e5, ← h.d.useSse, hu], by rw [k1.d.order, e4, ← h.d.order, ho], by omega, by omega, by omega, k2⟩

/-- A later call: the difference is not noticed. -/
theorem Down2.processBlock_sim {st : Stack F} {d d' : Down2 F} (hd : d.Sim d') (input : Buf F) (ioff n : Nat) (o : Buf F) (ooff : Nat) :
    SameEnd (fun q q' => q.1.Sim q'.1 ∧ q.2 = q'.2) (d.processBlock st input ioff n o ooff) (d'.processBlock st input ioff n o ooff) := by
  unfold Down2.processBlock
  split
  · exact ⟨hd, rfl⟩
  refine SameEnd.bind (R := fun s t : DownLoop F => s.Sim t) ?_ fun s t h => ⟨h.d, h.output⟩
  exact SameEnd.whileF DownLoop.Sim (fun s t h => by rw [h.n]) (fun s t h _ => Down2.loopBody_sim h) n _ _ ⟨hd, rfl, rfl, rfl, rfl⟩

/-- `reset` removes the difference. -/
theorem Down2.Sim.reset {d d' : Down2 F} (h : d.Sim d') : d.reset = d'.reset := by
  obtain ⟨O, sse, taps, hE, ⟨ad, len, g⟩, sT⟩ := d
  obtain ⟨O', sse', taps', hE', ⟨ad', len', g'⟩, sT'⟩ := d'
  obtain ⟨e1, e2, e3, e4, e5, a1, a2, -⟩ := h
  simp only at e1 e2 e3 e4 e5 a1 a2
  subst e1 e2 e3 e4 e5 a1 a2
  rfl

end Panda
