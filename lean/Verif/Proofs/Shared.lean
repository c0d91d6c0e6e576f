import Verif.Model.Shared
import Verif.Proofs.InPlaceApi

/-!
# Input and output as disjoint parts of one array: simulation
-/

set_option linter.unusedSectionVars false

namespace Panda

/-- If `x` succeeds, so does `y`, with a related result. -/
def Follows {α β : Type} (R : α → β → Prop) (x : Res α) (y : Res β) : Prop := ∀ a, x = .ok a → ∃ b, y = .ok b ∧ R a b

namespace Follows
variable {α β γ δ : Type}

theorem same (x : Res α) : Follows Eq x x := fun a h => ⟨a, h, rfl⟩

theorem ok {R : α → β → Prop} {a : α} {b : β} (h : R a b) : Follows R (.ok a) (.ok b) := by
  rintro _ ⟨⟩
  exact ⟨b, rfl, h⟩

theorem bind {R : α → β → Prop} {S : γ → δ → Prop} {x : Res α} {y : Res β} {f : α → Res γ} {g : β → Res δ}
    (h : Follows R x y) (hfg : ∀ a b, R a b → Follows S (f a) (g b)) : Follows S (x >>= f) (y >>= g) := by
  intro c hc
  obtain ⟨a, h1, h2⟩ := bind_ok hc
  obtain ⟨b, h3, h4⟩ := h a h1
  obtain ⟨d, h5, h6⟩ := hfg a b h4 c h2
  exact ⟨d, by rw [h3, ok_bind, h5], h6⟩

theorem bindEq {S : γ → δ → Prop} {x y : Res α} {f : α → Res γ} {g : α → Res δ}
    (h : Follows Eq x y) (hfg : ∀ a, Follows S (f a) (g a)) : Follows S (x >>= f) (y >>= g) :=
  h.bind fun a b e => by subst e; exact hfg a

theorem mono {R S : α → β → Prop} {x : Res α} {y : Res β} (h : Follows R x y) (hRS : ∀ a b, R a b → S a b) : Follows S x y := by
  intro a ha
  obtain ⟨b, h1, h2⟩ := h a ha
  exact ⟨b, h1, hRS a b h2⟩

theorem forN {σ τ : Type} {f : Nat → σ → Res σ} {g : Nat → τ → Res τ} (R : σ → τ → Prop) {n : Nat}
    (hstep : ∀ k < n, ∀ s t, R s t → Follows R (f k s) (g k t)) {s : σ} {t : τ} (h0 : R s t) :
    Follows R (forN f n s) (forN g n t) := by
  induction n with
  | zero => exact Follows.ok h0
  | succ n ih => exact (ih fun k hk => hstep k (by omega)).bind fun a b h => hstep n (by omega) a b h

theorem whileF {σ τ : Type} {c : σ → Bool} {c' : τ → Bool} {f : σ → Res σ} {g : τ → Res τ} (R : σ → τ → Prop)
    (hc : ∀ s t, R s t → c s = c' t) (hstep : ∀ s t, R s t → Follows R (f s) (g t)) (n : Nat) :
    ∀ s t, R s t → Follows R (whileF c f n s) (whileF c' g n t) := by
  induction n with
  | zero =>
    intro s t h
    unfold Panda.whileF
    rw [← hc s t h]
    split
    · intro a ha; simp at ha
    · exact Follows.ok h
  | succ n ih =>
    intro s t h
    unfold Panda.whileF
    rw [← hc s t h]
    split
    · exact (hstep s t h).bind ih
    · exact Follows.ok h

end Follows

variable {F : Type}

/-- `b` is the part of `m` that starts at `off`. -/
structure PartOf (b m : Buf F) (off : Nat) : Prop where
  addr : b.addr = m.addr + 4 * off
  len : off + b.len ≤ m.len
  get : ∀ j < b.len, m.get (off + j) = b.get j

theorem PartOf.self (b : Buf F) : PartOf b b 0 := ⟨by omega, by omega, fun j _ => by rw [Nat.zero_add]⟩

section reads
variable {b m : Buf F} {off : Nat} (h : PartOf b m off)
include h

theorem PartOf.rd {j k : Nat} (hk : k = off + j) : Follows Eq (b.rd j) (m.rd k) := by
  intro v hv
  obtain ⟨h1, h2⟩ := rd_ok hv
  refine ⟨v, ?_, rfl⟩
  rw [Buf.rd_eq (by have := h.len; omega), hk, h.get j h1, h2]

theorem PartOf.ld4u {j k : Nat} (hk : k = off + j) : Follows Eq (b.ld4u j) (m.ld4u k) := by
  unfold Buf.ld4u
  refine (h.rd hk).bindEq fun _ => (h.rd (by omega)).bindEq fun _ => (h.rd (by omega)).bindEq fun _ => (h.rd (by omega)).bindEq fun _ => ?_
  exact Follows.same _

theorem PartOf.aligned (j k : Nat) (hk : k = off + j) : (m.addr + 4 * k) % 16 = (b.addr + 4 * j) % 16 := by
  rw [h.addr, hk]
  congr 1
  omega

theorem PartOf.ld4a {j k : Nat} (hk : k = off + j) : Follows Eq (b.ld4a j) (m.ld4a k) := by
  unfold Buf.ld4a
  rw [h.aligned j k hk]
  split
  · refine (h.rd hk).bindEq fun _ => (h.rd (by omega)).bindEq fun _ => (h.rd (by omega)).bindEq fun _ => (h.rd (by omega)).bindEq fun _ => ?_
    exact Follows.same _
  · exact Follows.same _

theorem PartOf.copyN {soff k n : Nat} (hk : k = off + soff) (d : Buf F) (doff : Nat) :
    Follows Eq (copyN b soff n d doff) (copyN m k n d doff) := by
  refine Follows.forN Eq (fun i _ s t e => ?_) rfl
  subst e
  exact (h.rd (by omega)).bindEq fun _ => Follows.same _

theorem PartOf.deinterleave2 {soff k n : Nat} (hk : k = off + soff) (d : Buf F) (doff : Nat) :
    Follows Eq (deinterleave2 b soff n d doff) (deinterleave2 m k n d doff) := by
  refine Follows.forN Eq (fun i _ s t e => ?_) rfl
  subst e
  exact (h.rd (by omega)).bindEq fun _ => Follows.same _

variable [Zero F] [Add F] [Mul F]

theorem PartOf.oneSample {j k : Nat} (hk : k = off + j) (taps : Buf F) (n : Nat) :
    Follows Eq (firProcessOneSample b j taps n) (firProcessOneSample m k taps n) := by
  refine Follows.forN Eq (fun i _ s t e => ?_) rfl
  subst e
  exact (h.rd (by omega)).bindEq fun _ => Follows.same _

theorem PartOf.sseAcc {j k : Nat} (hk : k = off + j) (taps : Buf F) (n i : Nat) :
    Follows Eq (firSseAcc b j taps n i) (firSseAcc m k taps n i) := by
  unfold firSseAcc
  refine (h.ld4a hk).bindEq fun _ => (Follows.same _).bindEq fun _ => ?_
  refine Follows.forN Eq (fun i _ s t e => ?_) rfl
  subst e
  exact (h.ld4a (by omega)).bindEq fun _ => Follows.same _

theorem PartOf.fourSamples {j k : Nat} (hk : k = off + j) (taps : Buf F) (n : Nat) :
    Follows Eq (firProcess4SamplesSse b j taps n) (firProcess4SamplesSse m k taps n) := by
  unfold firProcess4SamplesSse
  exact (h.sseAcc hk _ _ _).bindEq fun _ => (h.sseAcc hk _ _ _).bindEq fun _ => (h.sseAcc hk _ _ _).bindEq fun _ =>
    (h.sseAcc hk _ _ _).bindEq fun _ => Follows.same _

theorem PartOf.downSample [Sample F] (d : Down2 F) (step : Nat) (even : Buf F) (eoff : Nat) {j k : Nat} (hk : k = off + j) :
    Follows Eq (d.processSampleUnaligned step even eoff b j) (d.processSampleUnaligned step even eoff m k) := by
  unfold Down2.processSampleUnaligned
  exact (Follows.same _).bindEq fun _ => (h.rd (by omega)).bindEq fun _ => Follows.same _

end reads

/-- `m` is what has become of `m0` when `o` (of length `l`) is the part of it that starts at `off`. -/
structure OutPart (m0 : Buf F) (l off : Nat) (o m : Buf F) : Prop where
  part : PartOf o m off
  len : o.len = l
  addr : m.addr = m0.addr
  size : m.len = m0.len
  frame : ∀ j, j < off ∨ off + l ≤ j → m.get j = m0.get j

theorem OutPart.init {o m : Buf F} {off : Nat} (h : PartOf o m off) : OutPart m o.len off o m := ⟨h, rfl, rfl, rfl, fun _ _ => rfl⟩

theorem OutPart.wr {m0 : Buf F} {l off : Nat} {o m : Buf F} (h : OutPart m0 l off o m) {j k : Nat} (hk : k = off + j) (v : F) :
    Follows (OutPart m0 l off) (o.wr j v) (m.wr k v) := by
  intro o' ho
  obtain ⟨h1, rfl⟩ := wr_ok ho
  have h2 := h.part.len
  have h3 := h.len
  refine ⟨m.upd k v, Buf.wr_eq v (by omega), ⟨h.part.addr, h2, fun i hi => ?_⟩, h3, h.addr, h.size, fun i hi => ?_⟩
  · have hi : i < o.len := hi
    rw [Buf.upd_get, Buf.upd_get]
    by_cases e : i = j
    · rw [if_pos e, if_pos (by omega)]
    · rw [if_neg e, if_neg (by omega), h.part.get i hi]
  · rw [Buf.upd_get_ne _ _ _ (by omega), h.frame i hi]

/-- Neither part overlaps the other one. -/
def Apart (ioff n ooff l : Nat) : Prop := ioff + n ≤ ooff ∨ ooff + l ≤ ioff

/-- The part that is read is untouched. -/
theorem OutPart.other {b m0 : Buf F} {ioff l ooff : Nat} {o m : Buf F} (hb : PartOf b m0 ioff) (h : OutPart m0 l ooff o m)
    (ha : Apart ioff b.len ooff l) : PartOf b m ioff := by
  refine ⟨by rw [hb.addr, h.addr], by rw [h.size]; exact hb.len, fun j hj => ?_⟩
  rw [h.frame _ (by unfold Apart at ha; omega), hb.get j hj]

/-! ## Two arrays, written one in another place -/

section two
variable [Zero F] [Add F] [Mul F] {b mi : Buf F} {ioff : Nat} (hb : PartOf b mi ioff) {m0 : Buf F} {l ooff : Nat}
include hb

theorem Up2.four_part (u : Up2 F) {o m : Buf F} (h : OutPart m0 l ooff o m) {i i' j j' : Nat} (hi : i' = ioff + i) (hj : j' = ooff + j) :
    Follows (OutPart m0 l ooff) (u.process4SamplesAligned b i o j) (u.process4SamplesAligned mi i' m j') := by
  unfold Up2.process4SamplesAligned
  refine (hb.rd (by omega)).bindEq fun _ => (h.wr (by omega) _).bind fun _ _ h => ?_
  refine (hb.rd (by omega)).bindEq fun _ => (h.wr (by omega) _).bind fun _ _ h => ?_
  refine (hb.rd (by omega)).bindEq fun _ => (h.wr (by omega) _).bind fun _ _ h => ?_
  refine (hb.rd (by omega)).bindEq fun _ => (h.wr (by omega) _).bind fun _ _ h => ?_
  refine (hb.fourSamples hi _ _).bindEq fun _ => (h.wr (by omega) _).bind fun _ _ h => ?_
  exact (h.wr (by omega) _).bind fun _ _ h => (h.wr (by omega) _).bind fun _ _ h => h.wr (by omega) _

theorem Up2.sample_part (u : Up2 F) {o m : Buf F} (h : OutPart m0 l ooff o m) {i i' j j' : Nat} (hi : i' = ioff + i) (hj : j' = ooff + j) :
    Follows (OutPart m0 l ooff) (u.processSampleUnaligned b i o j) (u.processSampleUnaligned mi i' m j') := by
  unfold Up2.processSampleUnaligned
  refine (hb.oneSample hi _ _).bindEq fun _ => (h.wr hj _).bind fun _ _ h => ?_
  exact (hb.rd (by omega)).bindEq fun _ => h.wr (by omega) _

theorem Up2.aligned_part (u : Up2 F) {o m : Buf F} (h : OutPart m0 l ooff o m) {i i' j j' : Nat} (hi : i' = ioff + i) (hj : j' = ooff + j)
    (n : Nat) : Follows (OutPart m0 l ooff) (u.processBlockAligned b i n o j) (u.processBlockAligned mi i' n m j') := by
  unfold Up2.processBlockAligned
  refine Follows.bind (R := fun s t : Nat × Buf F => s.1 = t.1 ∧ OutPart m0 l ooff s.2 t.2) ?_ fun s t hs => ?_
  · split
    · refine Follows.whileF _ (fun s t hs => by simp only [hs.1]) ?_ n _ _ ⟨rfl, h⟩
      rintro ⟨s, o⟩ ⟨_, m⟩ ⟨rfl, hs⟩
      exact (u.four_part hb hs (by simp only; omega) (by simp only; omega)).bind fun _ _ h => Follows.ok ⟨rfl, h⟩
    · exact Follows.ok ⟨rfl, h⟩
  · obtain ⟨s, o⟩ := s
    obtain ⟨t, m⟩ := t
    obtain ⟨rfl, hs⟩ := hs
    refine Follows.bind (R := fun s t : Nat × Buf F => s.1 = t.1 ∧ OutPart m0 l ooff s.2 t.2) ?_ fun s t hs => Follows.ok hs.2
    refine Follows.whileF _ (fun s t hs => by simp only [hs.1]) ?_ n _ _ ⟨rfl, hs⟩
    rintro ⟨s, o⟩ ⟨_, m⟩ ⟨rfl, hs⟩
    exact (u.sample_part hb hs (by simp only; omega) (by simp only; omega)).bind fun _ _ h => Follows.ok ⟨rfl, h⟩

theorem Up2.unaligned_part (u : Up2 F) {o m : Buf F} (h : OutPart m0 l ooff o m) {i i' j j' : Nat} (hi : i' = ioff + i) (hj : j' = ooff + j)
    (n : Nat) : Follows (OutPart m0 l ooff) (u.processBlockUnaligned b i n o j) (u.processBlockUnaligned mi i' n m j') := by
  unfold Up2.processBlockUnaligned
  refine Follows.bind (R := fun s t : Nat × Buf F => s.1 = t.1 ∧ OutPart m0 l ooff s.2 t.2) ?_ fun s t hs => ?_
  · split
    · refine Follows.whileF _ (fun s t hs => by simp only [hs.1, hb.aligned (i + t.1) (i' + t.1) (by omega)]) ?_ n _ _ ⟨rfl, h⟩
      rintro ⟨s, o⟩ ⟨_, m⟩ ⟨rfl, hs⟩
      exact (u.sample_part hb hs (by simp only; omega) (by simp only; omega)).bind fun _ _ h => Follows.ok ⟨rfl, h⟩
    · exact Follows.ok ⟨rfl, h⟩
  · obtain ⟨s, o⟩ := s
    obtain ⟨t, m⟩ := t
    obtain ⟨rfl, hs⟩ := hs
    exact u.aligned_part hb hs (by simp only; omega) (by simp only; omega) _

theorem Up2.block_part (u : Up2 F) {o m : Buf F} (h : OutPart m0 l ooff o m) {i i' j j' : Nat} (hi : i' = ioff + i) (hj : j' = ooff + j)
    (n : Nat) : Follows (fun q q' => q.1 = q'.1 ∧ OutPart m0 l ooff q.2 q'.2) (u.processBlock b i n o j) (u.processBlock mi i' n m j') := by
  unfold Up2.processBlock
  refine (hb.copyN hi _ _).bindEq fun hist => (u.aligned_part (PartOf.self hist) h rfl hj _).bind fun o m h => ?_
  split
  · refine (u.unaligned_part hb h hi (by omega) _).bind fun o m h => (hb.copyN (by omega) _ _).bindEq fun _ => Follows.ok ⟨rfl, h⟩
  · exact (Follows.same _).bindEq fun _ => Follows.ok ⟨rfl, h⟩

variable [Sample F]

theorem Down2.four_part (d : Down2 F) (step : Nat) (even : Buf F) (eoff : Nat) {o m : Buf F} (h : OutPart m0 l ooff o m)
    {i i' j j' : Nat} (hi : i' = ioff + i) (hj : j' = ooff + j) :
    Follows (OutPart m0 l ooff) (d.process4SamplesAligned step even eoff b i o j) (d.process4SamplesAligned step even eoff mi i' m j') := by
  unfold Down2.process4SamplesAligned
  refine (Follows.same _).bindEq fun _ => (h.wr (by omega) _).bind fun _ _ h => (h.wr (by omega) _).bind fun _ _ h =>
    (h.wr (by omega) _).bind fun _ _ h => (h.wr (by omega) _).bind fun _ _ h => ?_
  refine (h.part.rd (by omega)).bindEq fun _ => (hb.rd (by omega)).bindEq fun _ => (h.wr (by omega) _).bind fun _ _ h => ?_
  refine (h.part.rd (by omega)).bindEq fun _ => (hb.rd (by omega)).bindEq fun _ => (h.wr (by omega) _).bind fun _ _ h => ?_
  refine (h.part.rd (by omega)).bindEq fun _ => (hb.rd (by omega)).bindEq fun _ => (h.wr (by omega) _).bind fun _ _ h => ?_
  exact (h.part.rd (by omega)).bindEq fun _ => (hb.rd (by omega)).bindEq fun _ => h.wr (by omega) _

theorem Down2.aligned_part (d : Down2 F) (step : Nat) (even : Buf F) (eoff : Nat) {o m : Buf F} (h : OutPart m0 l ooff o m)
    {i i' j j' : Nat} (hi : i' = ioff + i) (hj : j' = ooff + j) (n : Nat) :
    Follows (OutPart m0 l ooff) (d.processBlockAligned step even eoff b i o j n) (d.processBlockAligned step even eoff mi i' m j' n) := by
  unfold Down2.processBlockAligned
  refine Follows.bind (R := fun s t : Nat × Buf F => s.1 = t.1 ∧ OutPart m0 l ooff s.2 t.2) ?_ fun s t hs => ?_
  · split
    · refine Follows.whileF _ (fun s t hs => by simp only [hs.1]) ?_ n _ _ ⟨rfl, h⟩
      rintro ⟨s, o⟩ ⟨_, m⟩ ⟨rfl, hs⟩
      exact (d.four_part hb step even _ hs (by simp only; omega) (by simp only; omega)).bind fun _ _ h => Follows.ok ⟨rfl, h⟩
    · exact Follows.ok ⟨rfl, h⟩
  · obtain ⟨s, o⟩ := s
    obtain ⟨t, m⟩ := t
    obtain ⟨rfl, hs⟩ := hs
    refine Follows.bind (R := fun s t : Nat × Buf F => s.1 = t.1 ∧ OutPart m0 l ooff s.2 t.2) ?_ fun s t hs => Follows.ok hs.2
    refine Follows.whileF _ (fun s t hs => by simp only [hs.1]) ?_ n _ _ ⟨rfl, hs⟩
    rintro ⟨s, o⟩ ⟨_, m⟩ ⟨rfl, hs⟩
    exact (hb.downSample d step even _ (by simp only; omega)).bindEq fun _ => (hs.wr (by simp only; omega) _).bind fun _ _ h => Follows.ok ⟨rfl, h⟩

theorem Down2.unaligned_part (d : Down2 F) (step : Nat) (even : Buf F) (eoff : Nat) {o m : Buf F} (h : OutPart m0 l ooff o m)
    {i i' j j' : Nat} (hi : i' = ioff + i) (hj : j' = ooff + j) (n : Nat) :
    Follows (OutPart m0 l ooff) (d.processBlockUnaligned step even eoff b i o j n) (d.processBlockUnaligned step even eoff mi i' m j' n) := by
  unfold Down2.processBlockUnaligned
  refine Follows.bind (R := fun s t : Nat × Buf F => s.1 = t.1 ∧ OutPart m0 l ooff s.2 t.2) ?_ fun s t hs => ?_
  · split
    · refine Follows.whileF _ (fun s t hs => by simp only [hs.1]) ?_ n _ _ ⟨rfl, h⟩
      rintro ⟨s, o⟩ ⟨_, m⟩ ⟨rfl, hs⟩
      exact (hb.downSample d step even _ (by simp only; omega)).bindEq fun _ => (hs.wr (by simp only; omega) _).bind fun _ _ h => Follows.ok ⟨rfl, h⟩
    · exact Follows.ok ⟨rfl, h⟩
  · obtain ⟨s, o⟩ := s
    obtain ⟨t, m⟩ := t
    obtain ⟨rfl, hs⟩ := hs
    exact d.aligned_part hb step even _ hs (by simp only; omega) (by simp only; omega) _

end two

/-- The same state of the loop of `Downsampler2::process_block`, the arrays being parts of other ones. -/
structure DownLoop.Part (m0 : Buf F) (l a c : Nat) (s t : DownLoop F) : Prop where
  d : s.d = t.d
  n : s.n = t.n
  ioff : t.ioff = a + s.ioff
  ooff : t.ooff = c + s.ooff
  output : OutPart m0 l c s.output t.output

section two
variable [Zero F] [Add F] [Mul F] [Sample F] {b mi : Buf F} {ioff : Nat} (hb : PartOf b mi ioff) {m0 : Buf F} {l ooff : Nat}
include hb

theorem Down2.body_part {st : Stack F} {s t : DownLoop F} (h : DownLoop.Part m0 l ioff ooff s t) :
    Follows (DownLoop.Part m0 l ioff ooff) (Down2.loopBody st b s) (Down2.loopBody st mi t) := by
  obtain ⟨d, n, i, o, j⟩ := s
  obtain ⟨d', n', i', m, j'⟩ := t
  obtain ⟨rfl, rfl, hi, hj, ho⟩ := h
  simp only at hi hj ho
  unfold Down2.loopBody
  simp only
  refine (hb.deinterleave2 hi _ _).bindEq fun even => (Follows.same _).bindEq fun hEven => (hb.deinterleave2 (by omega) _ _).bindEq fun hOdd =>
    (Down2.aligned_part (PartOf.self hOdd) d 1 hEven 0 ho rfl hj _).bind fun o m ho => ?_
  refine Follows.bind (R := fun q q' : Buf F × Buf F × Buf F => q.1 = q'.1 ∧ q.2.1 = q'.2.1 ∧ OutPart m0 l ooff q.2.2 q'.2.2) ?_ fun q q' hq => ?_
  · split
    · exact (d.unaligned_part hb 2 even 0 ho (by omega) (by omega) _).bind fun o m ho => (Follows.same _).bindEq fun _ =>
        (hb.deinterleave2 (by omega) _ _).bindEq fun _ => Follows.ok ⟨rfl, rfl, ho⟩
    · exact (Follows.same _).bindEq fun _ => (Follows.same _).bindEq fun _ => Follows.ok ⟨rfl, rfl, ho⟩
  · obtain ⟨q1, q2, q3⟩ := q
    obtain ⟨q1', q2', q3'⟩ := q'
    obtain ⟨rfl, rfl, hq⟩ := hq
    exact Follows.ok ⟨rfl, rfl, by simp only; omega, by simp only; omega, hq⟩

theorem Down2.block_part (st : Stack F) (d : Down2 F) {o m : Buf F} (h : OutPart m0 l ooff o m) {i i' j j' : Nat}
    (hi : i' = ioff + i) (hj : j' = ooff + j) (n : Nat) :
    Follows (fun q q' => q.1 = q'.1 ∧ OutPart m0 l ooff q.2 q'.2) (d.processBlock st b i n o j) (d.processBlock st mi i' n m j') := by
  unfold Down2.processBlock
  split
  · exact Follows.ok ⟨rfl, h⟩
  · refine Follows.bind (Follows.whileF (DownLoop.Part m0 l ioff ooff) (fun s t hs => by simp only [hs.n]) (fun s t hs => Down2.body_part hb hs) n
      { d := d, n := n, ioff := i, output := o, ooff := j } { d := d, n := n, ioff := i', output := m, ooff := j' } ⟨rfl, rfl, hi, hj, h⟩)
      fun s t hs => Follows.ok ⟨hs.d, hs.output⟩

variable [One F] [Sub F]

theorem FpuFilter.up_part (bld : Build) (f : FpuFilter F) {o m : Buf F} (h : OutPart m0 l ooff o m) {i i' j j' : Nat}
    (hi : i' = ioff + i) (hj : j' = ooff + j) (n : Nat) :
    Follows (fun q q' => q.1 = q'.1 ∧ OutPart m0 l ooff q.2 q'.2) (f.upBlock bld b i n o j) (f.upBlock bld mi i' n m j') := by
  unfold FpuFilter.upBlock doWhileN
  refine (Follows.same _).bindEq fun _ => Follows.forN _ ?_ ⟨rfl, h⟩
  rintro k - ⟨f, o⟩ ⟨_, m⟩ ⟨rfl, h⟩
  exact (hb.rd (by omega)).bindEq fun _ => (Follows.same _).bindEq fun _ => (h.wr (by omega) _).bind fun _ _ h =>
    (h.wr (by omega) _).bind fun _ _ h => Follows.ok ⟨rfl, h⟩

theorem FpuFilter.down_part (bld : Build) (f : FpuFilter F) {o m : Buf F} (h : OutPart m0 l ooff o m) {i i' j j' : Nat}
    (hi : i' = ioff + i) (hj : j' = ooff + j) (n : Nat) :
    Follows (fun q q' => q.1 = q'.1 ∧ OutPart m0 l ooff q.2 q'.2) (f.downBlock bld b i n o j) (f.downBlock bld mi i' n m j') := by
  unfold FpuFilter.downBlock doWhileN
  refine (Follows.same _).bindEq fun _ => Follows.forN _ ?_ ⟨rfl, h⟩
  rintro k - ⟨f, o⟩ ⟨_, m⟩ ⟨rfl, h⟩
  exact (hb.rd (by omega)).bindEq fun _ => (hb.rd (by omega)).bindEq fun _ => (Follows.same _).bindEq fun _ => (h.wr (by omega) _).bind fun _ _ h =>
    Follows.ok ⟨rfl, h⟩

theorem SseFilter.up_part (bld : Build) (f : SseFilter F) {o m : Buf F} (h : OutPart m0 l ooff o m) {i i' j j' : Nat}
    (hi : i' = ioff + i) (hj : j' = ooff + j) (n : Nat) :
    Follows (fun q q' => q.1 = q'.1 ∧ OutPart m0 l ooff q.2 q'.2) (f.upBlock bld b i n o j) (f.upBlock bld mi i' n m j') := by
  unfold SseFilter.upBlock
  refine (Follows.same _).bindEq fun _ => Follows.forN _ ?_ ⟨rfl, h⟩
  rintro k - ⟨f, o⟩ ⟨_, m⟩ ⟨rfl, h⟩
  exact (hb.rd (by omega)).bindEq fun _ => (Follows.same _).bindEq fun _ => (h.wr (by omega) _).bind fun _ _ h =>
    (h.wr (by omega) _).bind fun _ _ h => Follows.ok ⟨rfl, h⟩

theorem SseFilter.down_part (bld : Build) (f : SseFilter F) {o m : Buf F} (h : OutPart m0 l ooff o m) {i i' j j' : Nat}
    (hi : i' = ioff + i) (hj : j' = ooff + j) (n : Nat) :
    Follows (fun q q' => q.1 = q'.1 ∧ OutPart m0 l ooff q.2 q'.2) (f.downBlock bld b i n o j) (f.downBlock bld mi i' n m j') := by
  unfold SseFilter.downBlock
  refine (Follows.same _).bindEq fun _ => Follows.forN _ ?_ ⟨rfl, h⟩
  rintro k - ⟨f, o⟩ ⟨_, m⟩ ⟨rfl, h⟩
  exact (hb.ld4u (by omega)).bindEq fun _ => (Follows.same _).bindEq fun _ => (h.wr (by omega) _).bind fun _ _ h =>
    Follows.ok ⟨rfl, h⟩

theorem Impl.block_part (bld : Build) (st : Stack F) (f : Impl F) {o m : Buf F} (h : OutPart m0 l ooff o m) {i i' j j' : Nat}
    (hi : i' = ioff + i) (hj : j' = ooff + j) (n : Nat) :
    Follows (fun q q' => q.1 = q'.1 ∧ OutPart m0 l ooff q.2 q'.2) (f.processBlock bld st b i n o j) (f.processBlock bld st mi i' n m j') := by
  cases f with
  | firUp u => exact (u.block_part hb h hi hj n).bind fun q q' hq => Follows.ok ⟨by rw [hq.1], hq.2⟩
  | firDown d => exact (d.block_part hb st h hi hj n).bind fun q q' hq => Follows.ok ⟨by rw [hq.1], hq.2⟩
  | iirUp f dl => exact (f.up_part hb bld h hi hj n).bind fun q q' hq => Follows.ok ⟨by rw [hq.1], hq.2⟩
  | iirDown f dl => exact (f.down_part hb bld h hi hj _).bind fun q q' hq => Follows.ok ⟨by rw [hq.1], hq.2⟩
  | iirUpSse f dl => exact (f.up_part hb bld h hi hj n).bind fun q q' hq => Follows.ok ⟨by rw [hq.1], hq.2⟩
  | iirDownSse f dl => exact (f.down_part hb bld h hi hj _).bind fun q q' hq => Follows.ok ⟨by rw [hq.1], hq.2⟩

end two

/-- The upsamplers among the filters. -/
def Impl.goesUp : Impl F → Bool
  | .firUp _ | .iirUp _ _ | .iirUpSse _ _ => true
  | .firDown _ | .iirDown _ _ | .iirDownSse _ _ => false

/-! ## One array -/

section one
variable [Zero F] [Add F] [Mul F] {b m0 : Buf F} {ioff l ooff : Nat} (hb : PartOf b m0 ioff) (ha : Apart ioff b.len ooff l)
include hb ha

theorem Up2.four_mem (u : Up2 F) {o m : Buf F} (h : OutPart m0 l ooff o m) {i i' j j' : Nat} (hi : i' = ioff + i) (hj : j' = ooff + j) :
    Follows (OutPart m0 l ooff) (u.process4SamplesAligned b i o j) (u.process4SamplesMem m i' j') := by
  unfold Up2.process4SamplesAligned Up2.process4SamplesMem
  refine ((h.other hb ha).rd (by omega)).bindEq fun _ => (h.wr (by omega) _).bind fun _ _ h => ?_
  refine ((h.other hb ha).rd (by omega)).bindEq fun _ => (h.wr (by omega) _).bind fun _ _ h => ?_
  refine ((h.other hb ha).rd (by omega)).bindEq fun _ => (h.wr (by omega) _).bind fun _ _ h => ?_
  refine ((h.other hb ha).rd (by omega)).bindEq fun _ => (h.wr (by omega) _).bind fun _ _ h => ?_
  refine ((h.other hb ha).fourSamples hi _ _).bindEq fun _ => (h.wr (by omega) _).bind fun _ _ h => ?_
  exact (h.wr (by omega) _).bind fun _ _ h => (h.wr (by omega) _).bind fun _ _ h => h.wr (by omega) _

theorem Up2.sample_mem (u : Up2 F) {o m : Buf F} (h : OutPart m0 l ooff o m) {i i' j j' : Nat} (hi : i' = ioff + i) (hj : j' = ooff + j) :
    Follows (OutPart m0 l ooff) (u.processSampleUnaligned b i o j) (u.processSampleMem m i' j') := by
  unfold Up2.processSampleUnaligned Up2.processSampleMem
  refine ((h.other hb ha).oneSample hi _ _).bindEq fun _ => (h.wr hj _).bind fun _ _ h => ?_
  exact ((h.other hb ha).rd (by omega)).bindEq fun _ => h.wr (by omega) _

theorem Up2.aligned_mem (u : Up2 F) {o m : Buf F} (h : OutPart m0 l ooff o m) {i i' j j' : Nat} (hi : i' = ioff + i) (hj : j' = ooff + j)
    (n : Nat) : Follows (OutPart m0 l ooff) (u.processBlockAligned b i n o j) (u.processBlockAlignedMem m i' n j') := by
  unfold Up2.processBlockAligned Up2.processBlockAlignedMem
  refine Follows.bind (R := fun s t : Nat × Buf F => s.1 = t.1 ∧ OutPart m0 l ooff s.2 t.2) ?_ fun s t hs => ?_
  · split
    · refine Follows.whileF _ (fun s t hs => by simp only [hs.1]) ?_ n _ _ ⟨rfl, h⟩
      rintro ⟨s, o⟩ ⟨_, m⟩ ⟨rfl, hs⟩
      exact (u.four_mem hb ha hs (by simp only; omega) (by simp only; omega)).bind fun _ _ h => Follows.ok ⟨rfl, h⟩
    · exact Follows.ok ⟨rfl, h⟩
  · obtain ⟨s, o⟩ := s
    obtain ⟨t, m⟩ := t
    obtain ⟨rfl, hs⟩ := hs
    refine Follows.bind (R := fun s t : Nat × Buf F => s.1 = t.1 ∧ OutPart m0 l ooff s.2 t.2) ?_ fun s t hs => Follows.ok hs.2
    refine Follows.whileF _ (fun s t hs => by simp only [hs.1]) ?_ n _ _ ⟨rfl, hs⟩
    rintro ⟨s, o⟩ ⟨_, m⟩ ⟨rfl, hs⟩
    exact (u.sample_mem hb ha hs (by simp only; omega) (by simp only; omega)).bind fun _ _ h => Follows.ok ⟨rfl, h⟩

theorem Up2.unaligned_mem (u : Up2 F) {o m : Buf F} (h : OutPart m0 l ooff o m) {i i' j j' : Nat} (hi : i' = ioff + i) (hj : j' = ooff + j)
    (n : Nat) : Follows (OutPart m0 l ooff) (u.processBlockUnaligned b i n o j) (u.processBlockUnalignedMem m i' n j') := by
  unfold Up2.processBlockUnaligned Up2.processBlockUnalignedMem
  refine Follows.bind (R := fun s t : Nat × Buf F => s.1 = t.1 ∧ OutPart m0 l ooff s.2 t.2) ?_ fun s t hs => ?_
  · split
    · refine Follows.whileF _ (fun s t hs => by simp only [hs.1, (hs.2.other hb ha).aligned (i + t.1) (i' + t.1) (by omega)]) ?_ n _ _ ⟨rfl, h⟩
      rintro ⟨s, o⟩ ⟨_, m⟩ ⟨rfl, hs⟩
      exact (u.sample_mem hb ha hs (by simp only; omega) (by simp only; omega)).bind fun _ _ h => Follows.ok ⟨rfl, h⟩
    · exact Follows.ok ⟨rfl, h⟩
  · obtain ⟨s, o⟩ := s
    obtain ⟨t, m⟩ := t
    obtain ⟨rfl, hs⟩ := hs
    exact u.aligned_mem hb ha hs (by simp only; omega) (by simp only; omega) _

theorem Up2.block_mem (u : Up2 F) {o m : Buf F} (h : OutPart m0 l ooff o m) {i i' j j' : Nat} (hi : i' = ioff + i) (hj : j' = ooff + j)
    (n : Nat) : Follows (fun q q' => q.1 = q'.1 ∧ OutPart m0 l ooff q.2 q'.2) (u.processBlock b i n o j) (u.processBlockMem m i' n j') := by
  unfold Up2.processBlock Up2.processBlockMem
  refine ((h.other hb ha).copyN hi _ _).bindEq fun hist => (u.aligned_part (PartOf.self hist) h rfl hj _).bind fun o m h => ?_
  split
  · refine (u.unaligned_mem hb ha h hi (by omega) _).bind fun o m h => ((h.other hb ha).copyN (by omega) _ _).bindEq fun _ => Follows.ok ⟨rfl, h⟩
  · exact (Follows.same _).bindEq fun _ => Follows.ok ⟨rfl, h⟩

variable [Sample F]

theorem Down2.four_mem (d : Down2 F) (step : Nat) (even : Buf F) (eoff : Nat) {o m : Buf F} (h : OutPart m0 l ooff o m)
    {i i' j j' : Nat} (hi : i' = ioff + i) (hj : j' = ooff + j) :
    Follows (OutPart m0 l ooff) (d.process4SamplesAligned step even eoff b i o j) (d.process4SamplesMem step even eoff m i' j') := by
  unfold Down2.process4SamplesAligned Down2.process4SamplesMem
  refine (Follows.same _).bindEq fun _ => (h.wr (by omega) _).bind fun _ _ h => (h.wr (by omega) _).bind fun _ _ h =>
    (h.wr (by omega) _).bind fun _ _ h => (h.wr (by omega) _).bind fun _ _ h => ?_
  refine (h.part.rd (by omega)).bindEq fun _ => ((h.other hb ha).rd (by omega)).bindEq fun _ => (h.wr (by omega) _).bind fun _ _ h => ?_
  refine (h.part.rd (by omega)).bindEq fun _ => ((h.other hb ha).rd (by omega)).bindEq fun _ => (h.wr (by omega) _).bind fun _ _ h => ?_
  refine (h.part.rd (by omega)).bindEq fun _ => ((h.other hb ha).rd (by omega)).bindEq fun _ => (h.wr (by omega) _).bind fun _ _ h => ?_
  exact (h.part.rd (by omega)).bindEq fun _ => ((h.other hb ha).rd (by omega)).bindEq fun _ => h.wr (by omega) _

theorem Down2.aligned_mem (d : Down2 F) (step : Nat) (even : Buf F) (eoff : Nat) {o m : Buf F} (h : OutPart m0 l ooff o m)
    {i i' j j' : Nat} (hi : i' = ioff + i) (hj : j' = ooff + j) (n : Nat) :
    Follows (OutPart m0 l ooff) (d.processBlockAligned step even eoff b i o j n) (d.processBlockAlignedMem step even eoff m i' j' n) := by
  unfold Down2.processBlockAligned Down2.processBlockAlignedMem
  refine Follows.bind (R := fun s t : Nat × Buf F => s.1 = t.1 ∧ OutPart m0 l ooff s.2 t.2) ?_ fun s t hs => ?_
  · split
    · refine Follows.whileF _ (fun s t hs => by simp only [hs.1]) ?_ n _ _ ⟨rfl, h⟩
      rintro ⟨s, o⟩ ⟨_, m⟩ ⟨rfl, hs⟩
      exact (d.four_mem hb ha step even _ hs (by simp only; omega) (by simp only; omega)).bind fun _ _ h => Follows.ok ⟨rfl, h⟩
    · exact Follows.ok ⟨rfl, h⟩
  · obtain ⟨s, o⟩ := s
    obtain ⟨t, m⟩ := t
    obtain ⟨rfl, hs⟩ := hs
    refine Follows.bind (R := fun s t : Nat × Buf F => s.1 = t.1 ∧ OutPart m0 l ooff s.2 t.2) ?_ fun s t hs => Follows.ok hs.2
    refine Follows.whileF _ (fun s t hs => by simp only [hs.1]) ?_ n _ _ ⟨rfl, hs⟩
    rintro ⟨s, o⟩ ⟨_, m⟩ ⟨rfl, hs⟩
    exact ((hs.other hb ha).downSample d step even _ (by simp only; omega)).bindEq fun _ => (hs.wr (by simp only; omega) _).bind fun _ _ h =>
      Follows.ok ⟨rfl, h⟩

theorem Down2.unaligned_mem (d : Down2 F) (step : Nat) (even : Buf F) (eoff : Nat) {o m : Buf F} (h : OutPart m0 l ooff o m)
    {i i' j j' : Nat} (hi : i' = ioff + i) (hj : j' = ooff + j) (n : Nat) :
    Follows (OutPart m0 l ooff) (d.processBlockUnaligned step even eoff b i o j n) (d.processBlockUnalignedMem step even eoff m i' j' n) := by
  unfold Down2.processBlockUnaligned Down2.processBlockUnalignedMem
  refine Follows.bind (R := fun s t : Nat × Buf F => s.1 = t.1 ∧ OutPart m0 l ooff s.2 t.2) ?_ fun s t hs => ?_
  · split
    · refine Follows.whileF _ (fun s t hs => by simp only [hs.1]) ?_ n _ _ ⟨rfl, h⟩
      rintro ⟨s, o⟩ ⟨_, m⟩ ⟨rfl, hs⟩
      exact ((hs.other hb ha).downSample d step even _ (by simp only; omega)).bindEq fun _ => (hs.wr (by simp only; omega) _).bind fun _ _ h =>
        Follows.ok ⟨rfl, h⟩
    · exact Follows.ok ⟨rfl, h⟩
  · obtain ⟨s, o⟩ := s
    obtain ⟨t, m⟩ := t
    obtain ⟨rfl, hs⟩ := hs
    exact d.aligned_mem hb ha step even _ hs (by simp only; omega) (by simp only; omega) _

theorem Down2.body_mem {st : Stack F} {s t : DownLoop F} (h : DownLoop.Part m0 l ioff ooff s t) :
    Follows (DownLoop.Part m0 l ioff ooff) (Down2.loopBody st b s) (Down2.loopBodyMem st t) := by
  obtain ⟨d, n, i, o, j⟩ := s
  obtain ⟨d', n', i', m, j'⟩ := t
  obtain ⟨rfl, rfl, hi, hj, ho⟩ := h
  simp only at hi hj ho
  unfold Down2.loopBody Down2.loopBodyMem
  simp only
  refine ((ho.other hb ha).deinterleave2 hi _ _).bindEq fun even => (Follows.same _).bindEq fun hEven =>
    ((ho.other hb ha).deinterleave2 (by omega) _ _).bindEq fun hOdd =>
    (Down2.aligned_part (PartOf.self hOdd) d 1 hEven 0 ho rfl hj _).bind fun o m ho => ?_
  refine Follows.bind (R := fun q q' : Buf F × Buf F × Buf F => q.1 = q'.1 ∧ q.2.1 = q'.2.1 ∧ OutPart m0 l ooff q.2.2 q'.2.2) ?_ fun q q' hq => ?_
  · split
    · exact (d.unaligned_mem hb ha 2 even 0 ho (by omega) (by omega) _).bind fun o m ho => (Follows.same _).bindEq fun _ =>
        ((ho.other hb ha).deinterleave2 (by omega) _ _).bindEq fun _ => Follows.ok ⟨rfl, rfl, ho⟩
    · exact (Follows.same _).bindEq fun _ => (Follows.same _).bindEq fun _ => Follows.ok ⟨rfl, rfl, ho⟩
  · obtain ⟨q1, q2, q3⟩ := q
    obtain ⟨q1', q2', q3'⟩ := q'
    obtain ⟨rfl, rfl, hq⟩ := hq
    exact Follows.ok ⟨rfl, rfl, by simp only; omega, by simp only; omega, hq⟩

theorem Down2.block_mem (st : Stack F) (d : Down2 F) {o m : Buf F} (h : OutPart m0 l ooff o m) {i i' j j' : Nat}
    (hi : i' = ioff + i) (hj : j' = ooff + j) (n : Nat) :
    Follows (fun q q' => q.1 = q'.1 ∧ OutPart m0 l ooff q.2 q'.2) (d.processBlock st b i n o j) (d.processBlockMem st m i' n j') := by
  unfold Down2.processBlock Down2.processBlockMem
  split
  · exact Follows.ok ⟨rfl, h⟩
  · refine Follows.bind (Follows.whileF (DownLoop.Part m0 l ioff ooff) (fun s t hs => by simp only [hs.n]) (fun s t hs => Down2.body_mem hb ha hs) n
      { d := d, n := n, ioff := i, output := o, ooff := j } { d := d, n := n, ioff := i', output := m, ooff := j' } ⟨rfl, rfl, hi, hj, h⟩)
      fun s t hs => Follows.ok ⟨hs.d, hs.output⟩

variable [One F] [Sub F]

theorem FpuFilter.up_mem (bld : Build) (f : FpuFilter F) {o m : Buf F} (h : OutPart m0 l ooff o m) {i i' j j' : Nat}
    (hi : i' = ioff + i) (hj : j' = ooff + j) (n : Nat) (hin : i + n ≤ b.len) (hout : j + n ≤ l) :
    Follows (fun q q' => q.1 = q'.1 ∧ OutPart m0 l ooff q.2 q'.2) (f.upBlock bld b i n o j) (f.upBlockMem bld m i' n j') := by
  unfold FpuFilter.upBlock FpuFilter.upBlockMem doWhileN
  have hA : bld.assert (j' ≥ i' + n || i' ≥ j' + n) = .ok () := assert_of (by unfold Apart at ha; simp only [Bool.or_eq_true, decide_eq_true_eq]; omega)
  rw [hA, ok_bind]
  refine (Follows.same _).bindEq fun _ => Follows.forN _ ?_ ⟨rfl, h⟩
  rintro k - ⟨f, o⟩ ⟨_, m⟩ ⟨rfl, h⟩
  exact ((h.other hb ha).rd (by omega)).bindEq fun _ => (Follows.same _).bindEq fun _ => (h.wr (by omega) _).bind fun _ _ h =>
    (h.wr (by omega) _).bind fun _ _ h => Follows.ok ⟨rfl, h⟩

theorem FpuFilter.down_mem (bld : Build) (f : FpuFilter F) {o m : Buf F} (h : OutPart m0 l ooff o m) {i i' j j' : Nat}
    (hi : i' = ioff + i) (hj : j' = ooff + j) (n : Nat) (hin : i + n * 2 ≤ b.len) (hout : j ≤ l) :
    Follows (fun q q' => q.1 = q'.1 ∧ OutPart m0 l ooff q.2 q'.2) (f.downBlock bld b i n o j) (f.downBlockMem bld m i' n j') := by
  unfold FpuFilter.downBlock FpuFilter.downBlockMem doWhileN
  have hA : bld.assert (j' ≤ i' || j' ≥ i' + n * 2) = .ok () := assert_of (by unfold Apart at ha; simp only [Bool.or_eq_true, decide_eq_true_eq]; omega)
  rw [hA, ok_bind]
  refine (Follows.same _).bindEq fun _ => Follows.forN _ ?_ ⟨rfl, h⟩
  rintro k - ⟨f, o⟩ ⟨_, m⟩ ⟨rfl, h⟩
  exact ((h.other hb ha).rd (by omega)).bindEq fun _ => ((h.other hb ha).rd (by omega)).bindEq fun _ => (Follows.same _).bindEq fun _ =>
    (h.wr (by omega) _).bind fun _ _ h => Follows.ok ⟨rfl, h⟩

theorem SseFilter.up_mem (bld : Build) (f : SseFilter F) {o m : Buf F} (h : OutPart m0 l ooff o m) {i i' j j' : Nat}
    (hi : i' = ioff + i) (hj : j' = ooff + j) (n : Nat) (hin : i + n ≤ b.len) (hout : j + n ≤ l) :
    Follows (fun q q' => q.1 = q'.1 ∧ OutPart m0 l ooff q.2 q'.2) (f.upBlock bld b i n o j) (f.upBlockMem bld m i' n j') := by
  unfold SseFilter.upBlock SseFilter.upBlockMem
  have hA : bld.assert (j' ≥ i' + n || i' ≥ j' + n) = .ok () := assert_of (by unfold Apart at ha; simp only [Bool.or_eq_true, decide_eq_true_eq]; omega)
  rw [hA, ok_bind]
  refine (Follows.same _).bindEq fun _ => Follows.forN _ ?_ ⟨rfl, h⟩
  rintro k - ⟨f, o⟩ ⟨_, m⟩ ⟨rfl, h⟩
  exact ((h.other hb ha).rd (by omega)).bindEq fun _ => (Follows.same _).bindEq fun _ => (h.wr (by omega) _).bind fun _ _ h =>
    (h.wr (by omega) _).bind fun _ _ h => Follows.ok ⟨rfl, h⟩

theorem SseFilter.down_mem (bld : Build) (f : SseFilter F) {o m : Buf F} (h : OutPart m0 l ooff o m) {i i' j j' : Nat}
    (hi : i' = ioff + i) (hj : j' = ooff + j) (n : Nat) (hin : i + n * 2 ≤ b.len) (hout : j ≤ l) :
    Follows (fun q q' => q.1 = q'.1 ∧ OutPart m0 l ooff q.2 q'.2) (f.downBlock bld b i n o j) (f.downBlockMem bld m i' n j') := by
  unfold SseFilter.downBlock SseFilter.downBlockMem
  have hA : bld.assert (j' ≤ i' || j' ≥ i' + n * 2) = .ok () := assert_of (by unfold Apart at ha; simp only [Bool.or_eq_true, decide_eq_true_eq]; omega)
  rw [hA, ok_bind]
  refine (Follows.same _).bindEq fun _ => Follows.forN _ ?_ ⟨rfl, h⟩
  rintro k - ⟨f, o⟩ ⟨_, m⟩ ⟨rfl, h⟩
  exact ((h.other hb ha).ld4u (by omega)).bindEq fun _ => (Follows.same _).bindEq fun _ => (h.wr (by omega) _).bind fun _ _ h =>
    Follows.ok ⟨rfl, h⟩

theorem Impl.block_mem (bld : Build) (st : Stack F) (f : Impl F) {o m : Buf F} (h : OutPart m0 l ooff o m) (n : Nat)
    (hin : n ≤ b.len) (hout : f.goesUp = true → n ≤ l) :
    Follows (fun q q' => q.1 = q'.1 ∧ OutPart m0 l ooff q.2 q'.2) (f.processBlock bld st b 0 n o 0) (f.processBlockMem bld st m ioff n ooff) := by
  cases f with
  | firUp u => exact (u.block_mem hb ha h rfl rfl n).bind fun q q' hq => Follows.ok ⟨by rw [hq.1], hq.2⟩
  | firDown d => exact (d.block_mem hb ha st h rfl rfl n).bind fun q q' hq => Follows.ok ⟨by rw [hq.1], hq.2⟩
  | iirUp f dl =>
    exact (f.up_mem hb ha bld h rfl rfl n (by omega) (by have := hout rfl; omega)).bind fun q q' hq => Follows.ok ⟨by rw [hq.1], hq.2⟩
  | iirDown f dl => exact (f.down_mem hb ha bld h rfl rfl _ (by omega) (by omega)).bind fun q q' hq => Follows.ok ⟨by rw [hq.1], hq.2⟩
  | iirUpSse f dl =>
    exact (f.up_mem hb ha bld h rfl rfl n (by omega) (by have := hout rfl; omega)).bind fun q q' hq => Follows.ok ⟨by rw [hq.1], hq.2⟩
  | iirDownSse f dl => exact (f.down_mem hb ha bld h rfl rfl _ (by omega) (by omega)).bind fun q q' hq => Follows.ok ⟨by rw [hq.1], hq.2⟩

end one

/-! ## The resampler -/

/-- Loop states of `process_block` with two arrays, and with two parts of one array. -/
structure RLoop.Part (m0 : Buf F) (l a c : Nat) (s t : RLoop F) : Prop where
  r : s.r = t.r
  n : s.n = t.n
  ioff : t.ioff = a + s.ioff
  ooff : t.ooff = c + s.ooff
  output : OutPart m0 l c s.output t.output

section resampler
variable [Zero F] [One F] [Add F] [Sub F] [Mul F] [Sample F] {b m0 : Buf F} {ioff l ooff : Nat} (hb : PartOf b m0 ioff)
  (ha : Apart ioff b.len ooff l)
include hb ha

theorem Resampler.body_shared (bld : Build) (st : Stack F) {s t : RLoop F} (h : RLoop.Part m0 l ioff ooff s t) :
    Follows (RLoop.Part m0 l ioff ooff) (Resampler.loopBody bld st b s) (Resampler.loopBody bld st t.output t) := by
  obtain ⟨r, n, i, o, j⟩ := s
  obtain ⟨_, _, i', m, j'⟩ := t
  obtain ⟨rfl, rfl, hi, hj, ho⟩ := h
  simp only at hi hj ho
  have hin := ho.other hb ha
  have one (f : Impl F) (tmp : Buf F) (k : Nat) : Follows (fun q q' => q.1 = q'.1 ∧ PartOf q.2 q'.2 0)
      (f.processBlock bld st b i k tmp 0) (f.processBlock bld st m i' k tmp 0) :=
    (f.block_part hin bld st (OutPart.init (PartOf.self tmp)) hi rfl k).mono fun q q' h => ⟨h.1, h.2.part⟩
  have mid (f : Impl F) {x x' : Buf F} (hx : PartOf x x' 0) (tmp : Buf F) (k : Nat) : Follows (fun q q' => q.1 = q'.1 ∧ PartOf q.2 q'.2 0)
      (f.processBlock bld st x 0 k tmp 0) (f.processBlock bld st x' 0 k tmp 0) :=
    (f.block_part hx bld st (OutPart.init (PartOf.self tmp)) rfl rfl k).mono fun q q' h => ⟨h.1, h.2.part⟩
  have last (f : Impl F) {x x' : Buf F} (hx : PartOf x x' 0) (k : Nat) : Follows (fun q q' => q.1 = q'.1 ∧ OutPart m0 l ooff q.2 q'.2)
      (f.processBlock bld st x 0 k o j) (f.processBlock bld st x' 0 k m j') := f.block_part hx bld st ho rfl hj k
  unfold Resampler.loopBody
  simp only
  cases r.mode <;> simp only
  all_goals
    split
    · refine (Follows.same _).bindEq fun f => (one f _ _).bind fun q q' hq => (Follows.same _).bindEq fun f => (last f hq.2 _).bind fun p p' hp =>
        Follows.ok ⟨by simp only [hq.1, hp.1], rfl, by simp only; omega, by simp only; omega, hp.2⟩
    · refine (Follows.same _).bindEq fun f => (one f _ _).bind fun q q' hq => (Follows.same _).bindEq fun f => (mid f hq.2 _ _).bind fun z z' hz =>
        (Follows.same _).bindEq fun f => (last f hz.2 _).bind fun p p' hp =>
        Follows.ok ⟨by simp only [hq.1, hz.1, hp.1], rfl, by simp only; omega, by simp only; omega, hp.2⟩

theorem Resampler.shared_follows (bld : Build) (st : Stack F) (r : Resampler F) {o : Buf F} (h : OutPart m0 l ooff o m0) (n : Nat)
    (hin : n ≤ b.len) (hout : ∀ f, r.ratio = 2 → r.implX2 = some f → f.goesUp = true → n ≤ l) :
    Follows (fun q q' => q.1 = q'.1 ∧ OutPart m0 l ooff q.2 q'.2) (r.processBlock bld st b n o) (r.processShared bld st m0 ioff n ooff) := by
  unfold Resampler.processBlock Resampler.processShared
  split
  · rename_i h2
    cases e : r.implX2 with
    | none => exact fun a ha => by simp [deref] at ha
    | some f =>
      simp only [deref, pure_eq_ok, ok_bind]
      exact (f.block_mem hb ha bld st h n hin (hout f h2 e)).bind fun q q' hq => Follows.ok ⟨by rw [hq.1], hq.2⟩
  · split
    · refine Follows.bind (R := OutPart m0 l ooff) (Follows.forN _ (fun k _ s t hs => ?_) h) fun s t hs => Follows.ok ⟨rfl, hs⟩
      exact ((hs.other hb ha).rd (by omega)).bindEq fun _ => hs.wr (by omega) _
    · exact Follows.bind (Follows.whileF (RLoop.Part m0 l ioff ooff) (fun s t hs => by simp only [hs.n])
        (fun s t hs => Resampler.body_shared hb ha bld st hs) n
        { r := r, n := n, ioff := 0, output := o, ooff := 0 } { r := r, n := n, ioff := ioff, output := m0, ooff := ooff } ⟨rfl, rfl, rfl, rfl, h⟩)
        fun s t hs => Follows.ok ⟨hs.r, hs.output⟩

end resampler

end Panda
