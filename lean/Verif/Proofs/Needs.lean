import Verif.Proofs.EdgeDown

/-!
# What `process_block` needs: accesses that happen whenever it returns

Partial correctness: what is known if a function returns (without undefined behaviour).
-/

set_option linter.unusedSectionVars false

namespace Panda

variable {F : Type} [Zero F] [One F] [Add F] [Sub F] [Mul F] [Sample F]

/-- If `x` returns, the result satisfies `Q`. -/
def Rets {α : Type} (x : Res α) (Q : α → Prop) : Prop := ∀ a, x = .ok a → Q a

theorem post_ok {α : Type} {a : α} {Q : α → Prop} (h : Q a) : Rets (.ok a) Q := by
  rintro _ ⟨⟩
  exact h

theorem post_bind {α β : Type} {x : Res α} {f : α → Res β} {P : α → Prop} {Q : β → Prop} (hx : Rets x P) (hf : ∀ a, P a → Rets (f a) Q) :
    Rets (x >>= f) Q := by
  intro b h
  obtain ⟨a, ha, hb⟩ := bind_ok h
  exact hf a (hx a ha) b hb

theorem post_any {α : Type} (x : Res α) : Rets x fun _ => True := fun _ _ => trivial

theorem post_mono {α : Type} {x : Res α} {P Q : α → Prop} (hx : Rets x P) (h : ∀ a, P a → Q a) : Rets x Q := fun a ha => h a (hx a ha)

theorem post_forN {σ : Type} {body : Nat → σ → Res σ} {n : Nat} {s : σ} (I : Nat → σ → Prop) (h0 : I 0 s)
    (hstep : ∀ i < n, ∀ s, I i s → Rets (body i s) (I (i + 1))) : Rets (forN body n s) (I n) := by
  induction n with
  | zero => exact post_ok h0
  | succ n ih => exact post_bind (ih fun i hi => hstep i (by omega)) (hstep n (by omega))

theorem post_whileF {σ : Type} {cond : σ → Bool} {body : σ → Res σ} {fuel : Nat} {s : σ} (I : σ → Prop) (h0 : I s)
    (hstep : ∀ s, I s → cond s = true → Rets (body s) I) : Rets (whileF cond body fuel s) fun s => I s ∧ cond s = false := by
  induction fuel generalizing s with
  | zero =>
    unfold whileF
    split
    · rintro _ ⟨⟩
    · rename_i h
      exact post_ok ⟨h0, by simpa using h⟩
  | succ fuel ih =>
    unfold whileF
    split
    · rename_i h
      exact post_bind (hstep s h0 h) fun s' h' => ih h'
    · rename_i h
      exact post_ok ⟨h0, by simpa using h⟩

theorem post_rd {G : Type} (b : Buf G) (i : Nat) : Rets (b.rd i) fun _ => i < b.len := by
  intro a h
  unfold Buf.rd at h
  split at h
  · assumption
  · cases h

theorem post_wr {G : Type} (b : Buf G) (i : Nat) (v : G) : Rets (b.wr i v) fun b' => b'.len = b.len ∧ i < b.len := by
  intro a h
  unfold Buf.wr at h
  split at h
  · cases h
    exact ⟨rfl, by assumption⟩
  · cases h

theorem post_copyN (src : Buf F) (soff n : Nat) (dst : Buf F) (doff : Nat) :
    Rets (copyN src soff n dst doff) fun d => d.len = dst.len ∧ (n = 0 ∨ soff + n ≤ src.len ∧ doff + n ≤ dst.len) := by
  refine post_forN (fun i (d : Buf F) => d.len = dst.len ∧ (i = 0 ∨ soff + i ≤ src.len ∧ doff + i ≤ dst.len)) ⟨rfl, .inl rfl⟩ ?_
  rintro i - d ⟨h1, -⟩
  refine post_bind (post_rd _ _) fun v hv => post_mono (post_wr _ _ _) ?_
  rintro d' ⟨h2, h3⟩
  exact ⟨by omega, by omega⟩

theorem post_deinterleave2 (data : Buf F) (doff n : Nat) (output : Buf F) (ooff : Nat) :
    Rets (deinterleave2 data doff n output ooff) fun o => o.len = output.len ∧ ((n + 1) / 2 = 0 ∨ doff + 2 * ((n + 1) / 2) - 1 ≤ data.len) := by
  refine post_forN (fun i (d : Buf F) => d.len = output.len ∧ (i = 0 ∨ doff + 2 * i - 1 ≤ data.len)) ⟨rfl, .inl rfl⟩ ?_
  rintro i - d ⟨h1, -⟩
  refine post_bind (post_rd _ _) fun v hv => post_mono (post_wr _ _ _) ?_
  rintro d' ⟨h2, h3⟩
  exact ⟨by omega, by omega⟩

/-! ## FIR, upsampling -/

theorem Up2.post_4 (u : Up2 F) (input : Buf F) (ioff : Nat) (output : Buf F) (ooff : Nat) :
    Rets (u.process4SamplesAligned input ioff output ooff) fun o => o.len = output.len ∧ ooff + 8 ≤ output.len := by
  unfold Up2.process4SamplesAligned
  refine post_bind (post_any _) fun _ _ => post_bind (post_wr _ _ _) fun o1 h1 => ?_
  refine post_bind (post_any _) fun _ _ => post_bind (post_wr _ _ _) fun o2 h2 => ?_
  refine post_bind (post_any _) fun _ _ => post_bind (post_wr _ _ _) fun o3 h3 => ?_
  refine post_bind (post_any _) fun _ _ => post_bind (post_wr _ _ _) fun o4 h4 => ?_
  refine post_bind (post_any _) fun v _ => post_bind (post_wr _ _ _) fun o5 h5 => ?_
  refine post_bind (post_wr _ _ _) fun o6 h6 => post_bind (post_wr _ _ _) fun o7 h7 => post_mono (post_wr _ _ _) fun o8 h8 => ?_
  omega

theorem Up2.post_1 (u : Up2 F) (input : Buf F) (ioff : Nat) (output : Buf F) (ooff : Nat) :
    Rets (u.processSampleUnaligned input ioff output ooff) fun o => o.len = output.len ∧ ooff + 2 ≤ output.len := by
  unfold Up2.processSampleUnaligned
  refine post_bind (post_any _) fun _ _ => post_bind (post_wr _ _ _) fun o1 h1 => ?_
  refine post_bind (post_any _) fun _ _ => post_mono (post_wr _ _ _) fun o2 h2 => ?_
  omega

/-- State of a loop that has written `k` samples per step from `ooff` on. -/
def Wrote (k ooff L : Nat) (s : Nat × Buf F) : Prop := s.2.len = L ∧ (s.1 = 0 ∨ ooff + k * s.1 ≤ L)

theorem Up2.post_aligned (u : Up2 F) (input : Buf F) (ioff : Nat) {n : Nat} (hn : n < 2 ^ 31) (output : Buf F) (ooff : Nat) :
    Rets (u.processBlockAligned input ioff n output ooff) fun o => o.len = output.len ∧ (n = 0 ∨ ooff + 2 * n ≤ output.len) := by
  unfold Up2.processBlockAligned
  refine post_bind (P := fun s => Wrote 2 ooff output.len s ∧ s.1 ≤ n) ?_ ?_
  · split
    · refine post_mono (post_whileF (fun s : Nat × Buf F => Wrote 2 ooff output.len s ∧ s.1 ≤ n) ⟨⟨rfl, .inl rfl⟩, Nat.zero_le _⟩ ?_) fun s h => h.1
      rintro ⟨i, o⟩ ⟨⟨h1, h2⟩, h3⟩ hc
      have hc := of_decide_eq_true hc
      simp only [u32] at h1 h2 h3 hc ⊢
      refine post_bind (Up2.post_4 _ _ _ _ _) fun o' h' => post_ok ?_
      simp only [Wrote]
      omega
    · exact post_ok ⟨⟨rfl, .inl rfl⟩, Nat.zero_le _⟩
  · rintro ⟨i, o⟩ h
    refine post_bind (post_whileF (fun s : Nat × Buf F => Wrote 2 ooff output.len s ∧ s.1 ≤ n) h ?_) ?_
    · rintro ⟨i, o⟩ ⟨⟨h1, h2⟩, h3⟩ hc
      simp only [decide_eq_true_eq, u32] at h1 h2 h3 hc ⊢
      refine post_bind (Up2.post_1 _ _ _ _ _) fun o' h' => post_ok ?_
      simp only [Wrote]
      omega
    · rintro ⟨i, o⟩ ⟨⟨⟨h1, h2⟩, h3⟩, hc⟩
      simp only [decide_eq_false_iff_not] at h1 h2 h3 hc
      refine post_ok ⟨h1, ?_⟩
      omega

theorem Up2.post_unaligned (u : Up2 F) (input : Buf F) (ioff : Nat) {n : Nat} (hn : n < 2 ^ 31) (output : Buf F) (ooff : Nat) :
    Rets (u.processBlockUnaligned input ioff n output ooff) fun o => o.len = output.len ∧ (n = 0 ∨ ooff + 2 * n ≤ output.len) := by
  unfold Up2.processBlockUnaligned
  refine post_bind (P := fun s => Wrote 2 ooff output.len s ∧ s.1 ≤ n) ?_ ?_
  · split
    · refine post_mono (post_whileF (fun s : Nat × Buf F => Wrote 2 ooff output.len s ∧ s.1 ≤ n) ⟨⟨rfl, .inl rfl⟩, Nat.zero_le _⟩ ?_) fun s h => h.1
      rintro ⟨i, o⟩ ⟨⟨h1, h2⟩, h3⟩ hc
      simp only [Bool.and_eq_true, decide_eq_true_eq, u32] at h1 h2 h3 hc ⊢
      refine post_bind (Up2.post_1 _ _ _ _ _) fun o' h' => post_ok ?_
      simp only [Wrote]
      omega
    · exact post_ok ⟨⟨rfl, .inl rfl⟩, Nat.zero_le _⟩
  · rintro ⟨i, o⟩ ⟨⟨h1, h2⟩, h3⟩
    simp only at h1 h2 h3 ⊢
    refine post_mono (Up2.post_aligned u _ _ (by omega) _ _) fun o' h' => ?_
    have : u32 (2 * i) = 2 * i := u32_of_lt (by omega)
    omega

theorem Up2.post_block {u : Up2 F} (hu : 2 ≤ u.order) (input : Buf F) (ioff : Nat) {n : Nat} (hn : n < 2 ^ 31) (output : Buf F) (ooff : Nat) :
    Rets (u.processBlock input ioff n output ooff) fun q => q.1.order = u.order ∧ q.2.len = output.len ∧
      (n = 0 ∨ ioff + n ≤ input.len ∧ ooff + 2 * n ≤ output.len) := by
  unfold Up2.processBlock
  refine post_bind (post_copyN _ _ _ _ _) fun h1 p1 => post_bind (Up2.post_aligned u _ _ (by omega) _ _) fun o1 p2 => ?_
  split
  · refine post_bind (Up2.post_unaligned u _ _ (by omega) _ _) fun o2 p3 => post_bind (post_copyN _ _ _ _ _) fun h2 p4 => post_ok ?_
    have : u32 (2 * min n (u.order - 1)) = 2 * min n (u.order - 1) := u32_of_lt (by omega)
    refine ⟨rfl, ?_⟩
    simp only
    omega
  · refine post_bind (post_any _) fun h2 _ => post_ok ⟨rfl, ?_⟩
    simp only
    omega

/-! ## FIR, downsampling -/

theorem Down2.post_4 (d : Down2 F) (step : Nat) (even : Buf F) (eoff : Nat) (odd : Buf F) (doff : Nat) (output : Buf F) (ooff : Nat) :
    Rets (d.process4SamplesAligned step even eoff odd doff output ooff) fun o => o.len = output.len ∧ ooff + 4 ≤ output.len := by
  unfold Down2.process4SamplesAligned
  refine post_bind (post_any _) fun v _ => ?_
  refine post_bind (post_wr _ _ _) fun o1 h1 => post_bind (post_wr _ _ _) fun o2 h2 => ?_
  refine post_bind (post_wr _ _ _) fun o3 h3 => post_bind (post_wr _ _ _) fun o4 h4 => ?_
  refine post_bind (post_any _) fun _ _ => post_bind (post_any _) fun _ _ => post_bind (post_wr _ _ _) fun o5 h5 => ?_
  refine post_bind (post_any _) fun _ _ => post_bind (post_any _) fun _ _ => post_bind (post_wr _ _ _) fun o6 h6 => ?_
  refine post_bind (post_any _) fun _ _ => post_bind (post_any _) fun _ _ => post_bind (post_wr _ _ _) fun o7 h7 => ?_
  refine post_bind (post_any _) fun _ _ => post_bind (post_any _) fun _ _ => post_mono (post_wr _ _ _) fun o8 h8 => ?_
  omega

theorem Down2.post_aligned (d : Down2 F) (step : Nat) (even : Buf F) (eoff : Nat) (odd : Buf F) (doff : Nat) (output : Buf F) (ooff n : Nat) :
    Rets (d.processBlockAligned step even eoff odd doff output ooff n) fun o => o.len = output.len ∧ (n = 0 ∨ ooff + n ≤ output.len) := by
  unfold Down2.processBlockAligned
  refine post_bind (P := fun s => Wrote 1 ooff output.len s ∧ s.1 ≤ n) ?_ ?_
  · split
    · refine post_mono (post_whileF (fun s : Nat × Buf F => Wrote 1 ooff output.len s ∧ s.1 ≤ n) ⟨⟨rfl, .inl rfl⟩, Nat.zero_le _⟩ ?_) fun s h => h.1
      rintro ⟨i, o⟩ ⟨⟨h1, h2⟩, h3⟩ hc
      simp only [decide_eq_true_eq] at h1 h2 h3 hc ⊢
      refine post_bind (Down2.post_4 _ _ _ _ _ _ _ _) fun o' h' => post_ok ?_
      simp only [Wrote]
      omega
    · exact post_ok ⟨⟨rfl, .inl rfl⟩, Nat.zero_le _⟩
  · rintro ⟨i, o⟩ h
    refine post_bind (post_whileF (fun s : Nat × Buf F => Wrote 1 ooff output.len s ∧ s.1 ≤ n) h ?_) ?_
    · rintro ⟨i, o⟩ ⟨⟨h1, h2⟩, h3⟩ hc
      simp only [decide_eq_true_eq] at h1 h2 h3 hc ⊢
      refine post_bind (post_any _) fun v _ => post_bind (post_wr _ _ _) fun o' h' => post_ok ?_
      simp only [Wrote]
      omega
    · rintro ⟨i, o⟩ ⟨⟨⟨h1, h2⟩, h3⟩, hc⟩
      simp only [decide_eq_false_iff_not] at h1 h2 h3 hc
      refine post_ok ⟨h1, ?_⟩
      omega

theorem Down2.post_unaligned (d : Down2 F) (step : Nat) (even : Buf F) (eoff : Nat) (odd : Buf F) (doff : Nat) (output : Buf F) (ooff n : Nat) :
    Rets (d.processBlockUnaligned step even eoff odd doff output ooff n) fun o => o.len = output.len ∧ (n = 0 ∨ ooff + n ≤ output.len) := by
  unfold Down2.processBlockUnaligned
  refine post_bind (P := fun s => s.2.len = output.len) ?_ ?_
  · split
    · refine post_mono (post_whileF (fun s : Nat × Buf F => s.2.len = output.len) rfl ?_) fun s h => h.1
      rintro ⟨i, o⟩ h1 -
      refine post_bind (post_any _) fun v _ => post_bind (post_wr _ _ _) fun o' h' => post_ok ?_
      exact h'.1.trans h1
    · exact post_ok rfl
  · rintro ⟨i, o⟩ h1
    simp only at h1
    refine post_mono (Down2.post_aligned d _ _ _ _ _ _ _ _) fun o' h' => ?_
    omega

theorem Down2.post_body (st : Stack F) (input : Buf F) (s : DownLoop F) (ho : 2 ≤ s.d.order) (he : s.n % 2 = 0) (h0 : s.n ≠ 0) :
    Rets (Down2.loopBody st input s) fun s' => s'.d.order = s.d.order ∧ s'.output.len = s.output.len ∧
      ∃ k, 0 < k ∧ 2 * k ≤ s.n ∧ s'.n = s.n - 2 * k ∧ s'.ioff = s.ioff + 2 * k ∧ s'.ooff = s.ooff + k ∧
        s'.ioff ≤ input.len ∧ s'.ooff ≤ s.output.len := by
  unfold Down2.loopBody
  refine post_bind (post_any _) fun ev _ => post_bind (post_any _) fun hE _ => ?_
  refine post_bind (post_deinterleave2 _ _ _ _ _) fun hO p1 => post_bind (Down2.post_aligned _ _ _ _ _ _ _ _ _) fun o1 p2 => ?_
  refine post_bind (P := fun q : Buf F × Buf F × Buf F => q.2.2.len = s.output.len ∧ s.ioff + min s.n (1024 * 2) ≤ input.len ∧
    s.ooff + min s.n (1024 * 2) / 2 ≤ s.output.len) ?_ ?_
  · split
    · refine post_bind (Down2.post_unaligned _ _ _ _ _ _ _ _ _) fun o2 p3 => post_bind (post_any _) fun _ _ => ?_
      refine post_bind (post_deinterleave2 _ _ _ _ _) fun _ p4 => post_ok ?_
      simp only
      omega
    · refine post_bind (post_any _) fun _ _ => post_bind (post_any _) fun _ _ => post_ok ?_
      simp only
      omega
  · rintro ⟨a, b, c⟩ h
    refine post_ok ⟨rfl, h.1, min s.n (1024 * 2) / 2, ?_⟩
    clear p1 p2
    simp only at h ⊢
    have : min s.n (1024 * 2) % 2 = 0 := by omega
    refine ⟨by omega, by omega, by omega, by omega, by omega, by omega, by omega⟩

theorem Down2.post_block (st : Stack F) {d : Down2 F} (ho : 2 ≤ d.order) (input : Buf F) (ioff : Nat) {n : Nat} (he : n % 2 = 0)
    (output : Buf F) (ooff : Nat) :
    Rets (d.processBlock st input ioff n output ooff) fun q => q.1.order = d.order ∧ q.2.len = output.len ∧
      (n = 0 ∨ ioff + n ≤ input.len ∧ ooff + n / 2 ≤ output.len) := by
  unfold Down2.processBlock
  rw [if_neg (by omega)]
  refine post_bind (post_whileF (fun s : DownLoop F => s.d.order = d.order ∧ s.output.len = output.len ∧ s.n % 2 = 0 ∧ s.n ≤ n ∧
    s.ioff + s.n = ioff + n ∧ s.ooff + s.n / 2 = ooff + n / 2 ∧ (s.n = n ∨ s.ioff ≤ input.len ∧ s.ooff ≤ output.len))
    ⟨rfl, rfl, he, Nat.le_refl _, rfl, rfl, .inl rfl⟩ ?_) ?_
  · rintro s ⟨h1, h2, h3, h4, h5, h6, -⟩ hc
    refine post_mono (Down2.post_body st input s (by omega) h3 (by simpa using hc)) ?_
    rintro s' ⟨a1, a2, k, a3, a4, a5, a6, a7, a8, a9⟩
    refine ⟨by omega, by omega, by omega, by omega, by omega, by omega, ?_⟩
    omega
  · rintro s ⟨⟨h1, h2, h3, h4, h5, h6, h7⟩, hc⟩
    refine post_ok ⟨h1, h2, ?_⟩
    simp at hc
    omega

/-! ## IIR -/

theorem FpuFilter.post_up (bld : Build) (f : FpuFilter F) (input : Buf F) (ioff n : Nat) (output : Buf F) (ooff : Nat) :
    Rets (f.upBlock bld input ioff n output ooff) fun q => q.2.len = output.len ∧
      (n = 0 ∨ ioff + n ≤ input.len ∧ ooff + 2 * n ≤ output.len) := by
  unfold FpuFilter.upBlock doWhileN
  refine post_bind (post_any _) fun _ _ => post_mono (post_forN (fun i (s : FpuFilter F × Buf F) => s.2.len = output.len ∧
    (i = 0 ∨ ioff + i ≤ input.len ∧ ooff + 2 * i ≤ output.len)) ⟨rfl, .inl rfl⟩ ?_) fun q h => ⟨h.1, by omega⟩
  rintro i - s ⟨h1, -⟩
  refine post_bind (post_rd _ _) fun v hv => post_bind (post_any _) ?_
  rintro ⟨a, b, f'⟩ -
  refine post_bind (post_wr _ _ _) fun o1 p1 => post_bind (post_wr _ _ _) fun o2 p2 => post_ok ?_
  simp only
  omega

theorem FpuFilter.post_down (bld : Build) (f : FpuFilter F) (input : Buf F) (ioff n : Nat) (output : Buf F) (ooff : Nat) :
    Rets (f.downBlock bld input ioff n output ooff) fun q => q.2.len = output.len ∧
      (n = 0 ∨ ioff + 2 * n ≤ input.len ∧ ooff + n ≤ output.len) := by
  unfold FpuFilter.downBlock doWhileN
  refine post_bind (post_any _) fun _ _ => post_mono (post_forN (fun i (s : FpuFilter F × Buf F) => s.2.len = output.len ∧
    (i = 0 ∨ ioff + 2 * i ≤ input.len ∧ ooff + i ≤ output.len)) ⟨rfl, .inl rfl⟩ ?_) fun q h => ⟨h.1, by omega⟩
  rintro i - s ⟨h1, -⟩
  refine post_bind (post_rd _ _) fun v hv => post_bind (post_rd _ _) fun v' hv' => post_bind (post_any _) ?_
  rintro ⟨a, f'⟩ -
  refine post_bind (post_wr _ _ _) fun o1 p1 => post_ok ?_
  simp only
  omega

theorem SseFilter.post_up (bld : Build) (f : SseFilter F) (input : Buf F) (ioff n : Nat) (output : Buf F) (ooff : Nat) :
    Rets (f.upBlock bld input ioff n output ooff) fun q => q.2.len = output.len ∧
      (n = 0 ∨ ioff + n ≤ input.len ∧ ooff + 2 * n ≤ output.len) := by
  unfold SseFilter.upBlock
  refine post_bind (post_any _) fun _ _ => post_forN (fun i (s : SseFilter F × Buf F) => s.2.len = output.len ∧
    (i = 0 ∨ ioff + i ≤ input.len ∧ ooff + 2 * i ≤ output.len)) ⟨rfl, .inl rfl⟩ ?_
  rintro i - s ⟨h1, -⟩
  refine post_bind (post_rd _ _) fun v hv => post_bind (post_any _) ?_
  rintro ⟨a, m⟩ -
  refine post_bind (post_wr _ _ _) fun o1 p1 => post_bind (post_wr _ _ _) fun o2 p2 => post_ok ?_
  simp only
  omega

theorem post_ld4u (b : Buf F) (i : Nat) : Rets (b.ld4u i) fun _ => i + 4 ≤ b.len := by
  unfold Buf.ld4u
  refine post_bind (post_any _) fun _ _ => post_bind (post_any _) fun _ _ => post_bind (post_any _) fun _ _ => ?_
  refine post_bind (post_rd _ _) fun _ h => post_ok ?_
  omega

theorem SseFilter.post_down (bld : Build) (f : SseFilter F) (input : Buf F) (ioff n : Nat) (output : Buf F) (ooff : Nat) :
    Rets (f.downBlock bld input ioff n output ooff) fun q => q.2.len = output.len ∧
      (n = 0 ∨ ioff + 2 * n + 2 ≤ input.len ∧ ooff + n ≤ output.len) := by
  unfold SseFilter.downBlock
  refine post_bind (post_any _) fun _ _ => post_forN (fun i (s : SseFilter F × Buf F) => s.2.len = output.len ∧
    (i = 0 ∨ ioff + 2 * i + 2 ≤ input.len ∧ ooff + i ≤ output.len)) ⟨rfl, .inl rfl⟩ ?_
  rintro i - s ⟨h1, -⟩
  refine post_bind (post_ld4u _ _) fun v hv => post_bind (post_any _) ?_
  rintro ⟨a, m⟩ -
  refine post_bind (post_wr _ _ _) fun o1 p1 => post_ok ?_
  simp only
  omega

end Panda
