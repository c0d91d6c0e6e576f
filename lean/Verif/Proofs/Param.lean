import Verif.Proofs.Hoare
import Verif.Model.Session

/-!
# The code treats samples as opaque values

Two runs of any function of the model, one with samples of type `A`, one with samples of type `B`, whose data are related
by a relation `ρ` that is compatible with the arithmetic operations: the runs take the same course (same undefined
behaviour, if any) and produce related data. (Logical relation / parametricity.)
-/

set_option linter.unusedSectionVars false

namespace Panda

/-- `ρ` is compatible with the operations of the sample types. -/
structure Compat {A B : Type} [Zero A] [One A] [Add A] [Sub A] [Mul A] [Sample A] [Zero B] [One B] [Add B] [Sub B] [Mul B]
    [Sample B] (ρ : A → B → Prop) : Prop where
  zero : ρ 0 0
  one : ρ 1 1
  add : ∀ {a b a' b'}, ρ a b → ρ a' b' → ρ (a + a') (b + b')
  sub : ∀ {a b a' b'}, ρ a b → ρ a' b' → ρ (a - a') (b - b')
  mul : ∀ {a b a' b'}, ρ a b → ρ a' b' → ρ (a * a') (b * b')
  half : ρ Sample.half Sample.half
  ofDouble : ∀ q, ρ (Sample.ofDouble q) (Sample.ofDouble q)

/-- Both succeed with related values, or both fail in the same way. -/
def RR {α β : Type} (R : α → β → Prop) : Res α → Res β → Prop
  | .ok a, .ok b => R a b
  | .error e, .error e' => e = e'
  | _, _ => False

theorem RR.bind {α β α' β' : Type} {R : α → β → Prop} {S : α' → β' → Prop} {r : Res α} {s : Res β} {f : α → Res α'}
    {g : β → Res β'} (h : RR R r s) (hf : ∀ a b, R a b → RR S (f a) (g b)) : RR S (r >>= f) (s >>= g) := by
  cases r <;> cases s
  · exact h
  · exact h.elim
  · exact h.elim
  · exact hf _ _ h

theorem RR.ok {α β : Type} {R : α → β → Prop} {a : α} {b : β} (h : R a b) : RR R (.ok a) (.ok b) := h

theorem RR.pure {α β : Type} {R : α → β → Prop} {a : α} {b : β} (h : R a b) :
    RR R (Pure.pure a : Res α) (Pure.pure b : Res β) := h

theorem RR.mono {α β : Type} {R S : α → β → Prop} {r : Res α} {s : Res β} (h : RR R r s) (hRS : ∀ a b, R a b → S a b) :
    RR S r s := by
  cases r <;> cases s
  · exact h
  · exact h.elim
  · exact h.elim
  · exact hRS _ _ h

theorem RR.forN {α β : Type} {R : α → β → Prop} {f : Nat → α → Res α} {g : Nat → β → Res β}
    (h : ∀ i a b, R a b → RR R (f i a) (g i b)) {n : Nat} {s : α} {t : β} (h0 : R s t) :
    RR R (forN f n s) (forN g n t) := by
  induction n with
  | zero => exact h0
  | succ n ih => exact ih.bind (h n)

theorem RR.whileF {α β : Type} {R : α → β → Prop} {c : α → Bool} {d : β → Bool} {f : α → Res α} {g : β → Res β}
    (hc : ∀ a b, R a b → c a = d b) (h : ∀ a b, R a b → RR R (f a) (g b)) {n : Nat} {s : α} {t : β} (h0 : R s t) :
    RR R (whileF c f n s) (whileF d g n t) := by
  induction n generalizing s t with
  | zero =>
    unfold Panda.whileF
    rw [hc _ _ h0]
    cases d t
    · exact h0
    · exact (rfl : UB.nonterm = UB.nonterm)
  | succ n ih =>
    unfold Panda.whileF
    rw [hc _ _ h0]
    cases d t
    · exact h0
    · exact (h _ _ h0).bind fun a b hab => ih hab

theorem RR.ite {α β : Type} {R : α → β → Prop} {p q : Prop} [Decidable p] [Decidable q] {r r' : Res α} {s s' : Res β}
    (hpq : p ↔ q) (h : p → RR R r s) (h' : ¬ p → RR R r' s') : RR R (if p then r else r') (if q then s else s') := by
  by_cases hp : p
  · rw [if_pos hp, if_pos (hpq.1 hp)]
    exact h hp
  · rw [if_neg hp, if_neg (fun hq => hp (hpq.2 hq))]
    exact h' hp

/-- Related pairs. -/
def PR {α β α' β' : Type} (R : α → β → Prop) (S : α' → β' → Prop) (p : α × α') (q : β × β') : Prop :=
  R p.1 q.1 ∧ S p.2 q.2

/-- Same address, same length, related contents. -/
structure BufRel {A B : Type} (ρ : A → B → Prop) (b : Buf A) (c : Buf B) : Prop where
  addr : c.addr = b.addr
  len : c.len = b.len
  get : ∀ i < b.len, ρ (b.get i) (c.get i)

/-- Related vectors. -/
structure V4Rel {A B : Type} (ρ : A → B → Prop) (v : V4 A) (w : V4 B) : Prop where
  x0 : ρ v.x0 w.x0
  x1 : ρ v.x1 w.x1
  x2 : ρ v.x2 w.x2
  x3 : ρ v.x3 w.x3

section buf
variable {A B : Type} {ρ : A → B → Prop} {b : Buf A} {c : Buf B}

theorem BufRel.rd (h : BufRel ρ b c) (i : Nat) : RR ρ (b.rd i) (c.rd i) := by
  unfold Buf.rd
  rw [h.len]
  by_cases hi : i < b.len
  · rw [if_pos hi, if_pos hi]; exact h.get i hi
  · rw [if_neg hi, if_neg hi]; exact (rfl : UB.oobRead = UB.oobRead)

theorem BufRel.upd (h : BufRel ρ b c) (i : Nat) {x : A} {y : B} (hxy : ρ x y) : BufRel ρ (b.upd i x) (c.upd i y) := by
  refine ⟨h.addr, h.len, fun j hj => ?_⟩
  simp only [Buf.upd]
  split
  · exact hxy
  · exact h.get j hj

theorem BufRel.wr (h : BufRel ρ b c) (i : Nat) {x : A} {y : B} (hxy : ρ x y) :
    RR (BufRel ρ) (b.wr i x) (c.wr i y) := by
  unfold Buf.wr
  rw [h.len]
  by_cases hi : i < b.len
  · rw [if_pos hi, if_pos hi]; exact h.upd i hxy
  · rw [if_neg hi, if_neg hi]; exact (rfl : UB.oobWrite = UB.oobWrite)

theorem BufRel.ld4u (h : BufRel ρ b c) (i : Nat) : RR (V4Rel ρ) (b.ld4u i) (c.ld4u i) := by
  unfold Buf.ld4u
  refine (h.rd _).bind fun _ _ h0 => (h.rd _).bind fun _ _ h1 => (h.rd _).bind fun _ _ h2 => (h.rd _).bind fun _ _ h3 => ?_
  exact RR.ok ⟨h0, h1, h2, h3⟩

theorem BufRel.ld4a (h : BufRel ρ b c) (i : Nat) : RR (V4Rel ρ) (b.ld4a i) (c.ld4a i) := by
  unfold Buf.ld4a
  rw [h.addr]
  refine RR.ite Iff.rfl (fun _ => ?_) (fun _ => (rfl : UB.misaligned = UB.misaligned))
  exact h.ld4u i

end buf

variable {A B : Type} [Zero A] [One A] [Add A] [Sub A] [Mul A] [Sample A] [Zero B] [One B] [Add B] [Sub B] [Mul B] [Sample B]
variable {ρ : A → B → Prop}

/-! ## FIR -/

theorem firProcessOneSample_rel (H : Compat ρ) {x : Buf A} {x' : Buf B} (hx : BufRel ρ x x') {t : Buf A} {t' : Buf B}
    (ht : BufRel ρ t t') (off order : Nat) :
    RR ρ (firProcessOneSample x off t order) (firProcessOneSample x' off t' order) := by
  unfold firProcessOneSample
  refine RR.forN (fun i a b h => ?_) H.zero
  exact (hx.rd _).bind fun _ _ h1 => (ht.rd _).bind fun _ _ h2 => RR.ok (H.add h (H.mul h1 h2))

theorem V4Rel.mul (H : Compat ρ) {v w : V4 A} {v' w' : V4 B} (h : V4Rel ρ v v') (h' : V4Rel ρ w w') :
    V4Rel ρ (v.mul w) (v'.mul w') :=
  ⟨H.mul h.x0 h'.x0, H.mul h.x1 h'.x1, H.mul h.x2 h'.x2, H.mul h.x3 h'.x3⟩

theorem V4Rel.add (H : Compat ρ) {v w : V4 A} {v' w' : V4 B} (h : V4Rel ρ v v') (h' : V4Rel ρ w w') :
    V4Rel ρ (v.add w) (v'.add w') :=
  ⟨H.add h.x0 h'.x0, H.add h.x1 h'.x1, H.add h.x2 h'.x2, H.add h.x3 h'.x3⟩

theorem V4Rel.hsum (H : Compat ρ) {v : V4 A} {v' : V4 B} (h : V4Rel ρ v v') : ρ v.hsum v'.hsum :=
  H.add (H.add (H.add h.x0 h.x1) h.x2) h.x3

theorem firSseAcc_rel (H : Compat ρ) {x : Buf A} {x' : Buf B} (hx : BufRel ρ x x') {t : Buf A} {t' : Buf B}
    (ht : BufRel ρ t t') (off order k : Nat) :
    RR (V4Rel ρ) (firSseAcc x off t order k) (firSseAcc x' off t' order k) := by
  unfold firSseAcc
  refine (hx.ld4a _).bind fun _ _ h1 => (ht.ld4a _).bind fun _ _ h2 => ?_
  refine RR.forN (fun i a b h => ?_) (h1.mul H h2)
  exact (hx.ld4a _).bind fun _ _ h1 => (ht.ld4a _).bind fun _ _ h2 => RR.ok (h.add H (h1.mul H h2))

theorem firProcess4SamplesSse_rel (H : Compat ρ) {x : Buf A} {x' : Buf B} (hx : BufRel ρ x x') {t : Buf A} {t' : Buf B}
    (ht : BufRel ρ t t') (off order : Nat) :
    RR (V4Rel ρ) (firProcess4SamplesSse x off t order) (firProcess4SamplesSse x' off t' order) := by
  unfold firProcess4SamplesSse
  refine (firSseAcc_rel H hx ht _ _ _).bind fun _ _ h0 => (firSseAcc_rel H hx ht _ _ _).bind fun _ _ h1 =>
    (firSseAcc_rel H hx ht _ _ _).bind fun _ _ h2 => (firSseAcc_rel H hx ht _ _ _).bind fun _ _ h3 => ?_
  exact RR.ok ⟨h0.hsum H, h1.hsum H, h2.hsum H, h3.hsum H⟩

theorem firComputeSseTaps_rel (H : Compat ρ) {t : Buf A} {t' : Buf B} (ht : BufRel ρ t t') (addr : Nat) :
    RR (BufRel ρ) (firComputeSseTaps addr t) (firComputeSseTaps addr t') := by
  unfold firComputeSseTaps
  simp only [ht.len]
  refine RR.forN (fun j a b h => RR.forN (fun i a b h => ?_) h) ⟨rfl, rfl, fun _ _ => H.zero⟩
  exact (ht.rd _).bind fun _ _ h1 => h.wr _ h1

theorem copyN_rel {s d : Buf A} {s' d' : Buf B} (hs : BufRel ρ s s') (hd : BufRel ρ d d') (soff n doff : Nat) :
    RR (BufRel ρ) (copyN s soff n d doff) (copyN s' soff n d' doff) := by
  unfold copyN
  refine RR.forN (fun i a b h => ?_) hd
  exact (hs.rd _).bind fun _ _ h1 => h.wr _ h1

theorem deinterleave2_rel {s d : Buf A} {s' d' : Buf B} (hs : BufRel ρ s s') (hd : BufRel ρ d d') (soff n doff : Nat) :
    RR (BufRel ρ) (deinterleave2 s soff n d doff) (deinterleave2 s' soff n d' doff) := by
  unfold deinterleave2
  refine RR.forN (fun i a b h => ?_) hd
  exact (hs.rd _).bind fun _ _ h1 => h.wr _ h1

theorem memmoveDown_rel {b : Buf A} {b' : Buf B} (h : BufRel ρ b b') (src n : Nat) :
    RR (BufRel ρ) (memmoveDown b src n) (memmoveDown b' src n) := by
  unfold memmoveDown
  rw [h.len]
  refine RR.ite Iff.rfl (fun h1 => RR.ite Iff.rfl (fun h2 => ?_) fun _ => (rfl : UB.oobWrite = UB.oobWrite))
    fun _ => (rfl : UB.oobRead = UB.oobRead)
  refine RR.ok ⟨h.addr, rfl, fun i hi => ?_⟩
  simp only at hi ⊢
  split
  · exact h.get _ (by omega)
  · exact h.get _ hi

/-- Related `Upsampler2` objects. -/
structure Up2Rel (ρ : A → B → Prop) (u : Up2 A) (v : Up2 B) : Prop where
  order : v.order = u.order
  useSse : v.useSse = u.useSse
  taps : BufRel ρ u.taps v.taps
  history : BufRel ρ u.history v.history
  sseTaps : BufRel ρ u.sseTaps v.sseTaps

theorem Up2.process4SamplesAligned_rel (H : Compat ρ) {u : Up2 A} {v : Up2 B} (hu : Up2Rel ρ u v) {x : Buf A} {x' : Buf B}
    (hx : BufRel ρ x x') {o : Buf A} {o' : Buf B} (ho : BufRel ρ o o') (ioff ooff : Nat) :
    RR (BufRel ρ) (u.process4SamplesAligned x ioff o ooff) (v.process4SamplesAligned x' ioff o' ooff) := by
  unfold Up2.process4SamplesAligned
  rw [hu.order]
  refine (hx.rd _).bind fun _ _ h => (ho.wr _ h).bind fun _ _ ho => ?_
  refine (hx.rd _).bind fun _ _ h => (ho.wr _ h).bind fun _ _ ho => ?_
  refine (hx.rd _).bind fun _ _ h => (ho.wr _ h).bind fun _ _ ho => ?_
  refine (hx.rd _).bind fun _ _ h => (ho.wr _ h).bind fun _ _ ho => ?_
  refine (firProcess4SamplesSse_rel H hx hu.sseTaps _ _).bind fun _ _ hv => ?_
  exact (ho.wr _ hv.x0).bind fun _ _ ho => (ho.wr _ hv.x1).bind fun _ _ ho => (ho.wr _ hv.x2).bind fun _ _ ho => ho.wr _ hv.x3

theorem Up2.processSampleUnaligned_rel (H : Compat ρ) {u : Up2 A} {v : Up2 B} (hu : Up2Rel ρ u v) {x : Buf A} {x' : Buf B}
    (hx : BufRel ρ x x') {o : Buf A} {o' : Buf B} (ho : BufRel ρ o o') (ioff ooff : Nat) :
    RR (BufRel ρ) (u.processSampleUnaligned x ioff o ooff) (v.processSampleUnaligned x' ioff o' ooff) := by
  unfold Up2.processSampleUnaligned
  rw [hu.order]
  refine (firProcessOneSample_rel H hx hu.taps _ _).bind fun _ _ h => (ho.wr _ h).bind fun _ _ ho => ?_
  exact (hx.rd _).bind fun _ _ h => ho.wr _ h

/-- Equal counters and related buffers. -/
abbrev CntRel (ρ : A → B → Prop) : Nat × Buf A → Nat × Buf B → Prop := PR Eq (BufRel ρ)

theorem Up2.processBlockAligned_rel (H : Compat ρ) {u : Up2 A} {v : Up2 B} (hu : Up2Rel ρ u v) {x : Buf A} {x' : Buf B}
    (hx : BufRel ρ x x') {o : Buf A} {o' : Buf B} (ho : BufRel ρ o o') (ioff n ooff : Nat) :
    RR (BufRel ρ) (u.processBlockAligned x ioff n o ooff) (v.processBlockAligned x' ioff n o' ooff) := by
  unfold Up2.processBlockAligned
  refine RR.bind (R := CntRel ρ) ?_ ?_
  · refine RR.ite (by rw [hu.useSse]) (fun _ => ?_) fun _ => RR.ok ⟨rfl, ho⟩
    refine RR.whileF ?_ ?_ ⟨rfl, ho⟩
    · rintro ⟨i, a⟩ ⟨j, b⟩ ⟨hij, -⟩
      cases hij; rfl
    · rintro ⟨i, a⟩ ⟨j, b⟩ ⟨hij, hab⟩
      cases hij
      exact (Up2.process4SamplesAligned_rel H hu hx hab _ _).bind fun _ _ h => RR.ok ⟨rfl, h⟩
  · rintro ⟨i, a⟩ ⟨j, b⟩ ⟨hij, hab⟩
    cases hij
    refine RR.bind (R := CntRel ρ) ?_ fun _ _ h => RR.ok h.2
    refine RR.whileF ?_ ?_ ⟨rfl, hab⟩
    · rintro ⟨i, a⟩ ⟨j, b⟩ ⟨hij, -⟩
      cases hij; rfl
    · rintro ⟨i, a⟩ ⟨j, b⟩ ⟨hij, hab⟩
      cases hij
      exact (Up2.processSampleUnaligned_rel H hu hx hab _ _).bind fun _ _ h => RR.ok ⟨rfl, h⟩

theorem Up2.processBlockUnaligned_rel (H : Compat ρ) {u : Up2 A} {v : Up2 B} (hu : Up2Rel ρ u v) {x : Buf A} {x' : Buf B}
    (hx : BufRel ρ x x') {o : Buf A} {o' : Buf B} (ho : BufRel ρ o o') (ioff n ooff : Nat) :
    RR (BufRel ρ) (u.processBlockUnaligned x ioff n o ooff) (v.processBlockUnaligned x' ioff n o' ooff) := by
  unfold Up2.processBlockUnaligned
  refine RR.bind (R := CntRel ρ) ?_ ?_
  · refine RR.ite (by rw [hu.useSse]) (fun _ => ?_) fun _ => RR.ok ⟨rfl, ho⟩
    refine RR.whileF ?_ ?_ ⟨rfl, ho⟩
    · rintro ⟨i, a⟩ ⟨j, b⟩ ⟨hij, -⟩
      cases hij
      simp only [hx.addr]
    · rintro ⟨i, a⟩ ⟨j, b⟩ ⟨hij, hab⟩
      cases hij
      exact (Up2.processSampleUnaligned_rel H hu hx hab _ _).bind fun _ _ h => RR.ok ⟨rfl, h⟩
  · rintro ⟨i, a⟩ ⟨j, b⟩ ⟨hij, hab⟩
    cases hij
    exact Up2.processBlockAligned_rel H hu hx hab _ _ _

theorem Up2.processBlock_rel (H : Compat ρ) {u : Up2 A} {v : Up2 B} (hu : Up2Rel ρ u v) {x : Buf A} {x' : Buf B}
    (hx : BufRel ρ x x') {o : Buf A} {o' : Buf B} (ho : BufRel ρ o o') (ioff n ooff : Nat) :
    RR (PR (Up2Rel ρ) (BufRel ρ)) (u.processBlock x ioff n o ooff) (v.processBlock x' ioff n o' ooff) := by
  unfold Up2.processBlock
  rw [hu.order]
  refine (copyN_rel hx hu.history _ _ _).bind fun _ _ hh => ?_
  refine (Up2.processBlockAligned_rel H hu hh ho _ _ _).bind fun _ _ ho => ?_
  refine RR.ite Iff.rfl (fun _ => ?_) (fun _ => ?_)
  · refine (Up2.processBlockUnaligned_rel H hu hx ho _ _ _).bind fun _ _ ho => ?_
    refine (copyN_rel hx hh _ _ _).bind fun _ _ hh => ?_
    exact RR.ok ⟨⟨rfl, hu.useSse, hu.taps, hh, hu.sseTaps⟩, ho⟩
  · refine (memmoveDown_rel hh _ _).bind fun _ _ hh => ?_
    exact RR.ok ⟨⟨rfl, hu.useSse, hu.taps, hh, hu.sseTaps⟩, ho⟩

theorem Up2.reset_rel (H : Compat ρ) {u : Up2 A} {v : Up2 B} (hu : Up2Rel ρ u v) : Up2Rel ρ u.reset v.reset :=
  ⟨hu.order, hu.useSse, hu.taps, ⟨hu.history.addr, hu.history.len, fun _ _ => H.zero⟩, hu.sseTaps⟩

/-- Related `Downsampler2` objects. -/
structure Down2Rel (ρ : A → B → Prop) (u : Down2 A) (v : Down2 B) : Prop where
  order : v.order = u.order
  useSse : v.useSse = u.useSse
  taps : BufRel ρ u.taps v.taps
  historyEven : BufRel ρ u.historyEven v.historyEven
  historyOdd : BufRel ρ u.historyOdd v.historyOdd
  sseTaps : BufRel ρ u.sseTaps v.sseTaps

theorem Down2.process4SamplesAligned_rel (H : Compat ρ) {u : Down2 A} {v : Down2 B} (hu : Down2Rel ρ u v) {x : Buf A}
    {x' : Buf B} (hx : BufRel ρ x x') {y : Buf A} {y' : Buf B} (hy : BufRel ρ y y') {o : Buf A} {o' : Buf B}
    (ho : BufRel ρ o o') (step eoff doff ooff : Nat) :
    RR (BufRel ρ) (u.process4SamplesAligned step x eoff y doff o ooff) (v.process4SamplesAligned step x' eoff y' doff o' ooff) := by
  unfold Down2.process4SamplesAligned
  rw [hu.order]
  refine (firProcess4SamplesSse_rel H hx hu.sseTaps _ _).bind fun _ _ hv => ?_
  refine (ho.wr _ hv.x0).bind fun _ _ ho => (ho.wr _ hv.x1).bind fun _ _ ho => (ho.wr _ hv.x2).bind fun _ _ ho =>
    (ho.wr _ hv.x3).bind fun _ _ ho => ?_
  refine (ho.rd _).bind fun _ _ h1 => (hy.rd _).bind fun _ _ h2 => (ho.wr _ (H.add h1 (H.mul H.half h2))).bind fun _ _ ho => ?_
  refine (ho.rd _).bind fun _ _ h1 => (hy.rd _).bind fun _ _ h2 => (ho.wr _ (H.add h1 (H.mul H.half h2))).bind fun _ _ ho => ?_
  refine (ho.rd _).bind fun _ _ h1 => (hy.rd _).bind fun _ _ h2 => (ho.wr _ (H.add h1 (H.mul H.half h2))).bind fun _ _ ho => ?_
  exact (ho.rd _).bind fun _ _ h1 => (hy.rd _).bind fun _ _ h2 => ho.wr _ (H.add h1 (H.mul H.half h2))

theorem Down2.processSampleUnaligned_rel (H : Compat ρ) {u : Down2 A} {v : Down2 B} (hu : Down2Rel ρ u v) {x : Buf A}
    {x' : Buf B} (hx : BufRel ρ x x') {y : Buf A} {y' : Buf B} (hy : BufRel ρ y y') (step eoff doff : Nat) :
    RR ρ (u.processSampleUnaligned step x eoff y doff) (v.processSampleUnaligned step x' eoff y' doff) := by
  unfold Down2.processSampleUnaligned
  rw [hu.order]
  exact (firProcessOneSample_rel H hx hu.taps _ _).bind fun _ _ h1 => (hy.rd _).bind fun _ _ h2 =>
    RR.ok (H.add h1 (H.mul H.half h2))

theorem Down2.processBlockAligned_rel (H : Compat ρ) {u : Down2 A} {v : Down2 B} (hu : Down2Rel ρ u v) {x : Buf A}
    {x' : Buf B} (hx : BufRel ρ x x') {y : Buf A} {y' : Buf B} (hy : BufRel ρ y y') {o : Buf A} {o' : Buf B}
    (ho : BufRel ρ o o') (step eoff doff ooff n : Nat) :
    RR (BufRel ρ) (u.processBlockAligned step x eoff y doff o ooff n) (v.processBlockAligned step x' eoff y' doff o' ooff n) := by
  unfold Down2.processBlockAligned
  refine RR.bind (R := CntRel ρ) ?_ ?_
  · refine RR.ite (by rw [hu.useSse]) (fun _ => ?_) fun _ => RR.ok ⟨rfl, ho⟩
    refine RR.whileF ?_ ?_ ⟨rfl, ho⟩
    · rintro ⟨i, a⟩ ⟨j, b⟩ ⟨hij, -⟩
      cases hij; rfl
    · rintro ⟨i, a⟩ ⟨j, b⟩ ⟨hij, hab⟩
      cases hij
      exact (Down2.process4SamplesAligned_rel H hu hx hy hab _ _ _ _).bind fun _ _ h => RR.ok ⟨rfl, h⟩
  · rintro ⟨i, a⟩ ⟨j, b⟩ ⟨hij, hab⟩
    cases hij
    refine RR.bind (R := CntRel ρ) ?_ fun _ _ h => RR.ok h.2
    refine RR.whileF ?_ ?_ ⟨rfl, hab⟩
    · rintro ⟨i, a⟩ ⟨j, b⟩ ⟨hij, -⟩
      cases hij; rfl
    · rintro ⟨i, a⟩ ⟨j, b⟩ ⟨hij, hab⟩
      cases hij
      exact (Down2.processSampleUnaligned_rel H hu hx hy _ _ _).bind fun _ _ h => (hab.wr _ h).bind fun _ _ h => RR.ok ⟨rfl, h⟩

theorem Down2.processBlockUnaligned_rel (H : Compat ρ) {u : Down2 A} {v : Down2 B} (hu : Down2Rel ρ u v) {x : Buf A}
    {x' : Buf B} (hx : BufRel ρ x x') {y : Buf A} {y' : Buf B} (hy : BufRel ρ y y') {o : Buf A} {o' : Buf B}
    (ho : BufRel ρ o o') (step eoff doff ooff n : Nat) :
    RR (BufRel ρ) (u.processBlockUnaligned step x eoff y doff o ooff n)
      (v.processBlockUnaligned step x' eoff y' doff o' ooff n) := by
  unfold Down2.processBlockUnaligned
  refine RR.bind (R := CntRel ρ) ?_ ?_
  · refine RR.ite (by rw [hu.useSse]) (fun _ => ?_) fun _ => RR.ok ⟨rfl, ho⟩
    refine RR.whileF ?_ ?_ ⟨rfl, ho⟩
    · rintro ⟨i, a⟩ ⟨j, b⟩ ⟨hij, -⟩
      cases hij
      simp only [hx.addr]
    · rintro ⟨i, a⟩ ⟨j, b⟩ ⟨hij, hab⟩
      cases hij
      exact (Down2.processSampleUnaligned_rel H hu hx hy _ _ _).bind fun _ _ h => (hab.wr _ h).bind fun _ _ h => RR.ok ⟨rfl, h⟩
  · rintro ⟨i, a⟩ ⟨j, b⟩ ⟨hij, hab⟩
    cases hij
    exact Down2.processBlockAligned_rel H hu hx hy hab _ _ _ _ _

/-- Same addresses, related garbage. -/
structure StackRel (ρ : A → B → Prop) (s : Stack A) (t : Stack B) : Prop where
  block16 : t.block16 = s.block16
  tmpAddr : t.tmpAddr = s.tmpAddr
  tmp2Addr : t.tmp2Addr = s.tmp2Addr
  junk : ∀ i, ρ (s.junk i) (t.junk i)

structure DownLoopRel (ρ : A → B → Prop) (s : DownLoop A) (t : DownLoop B) : Prop where
  d : Down2Rel ρ s.d t.d
  n : t.n = s.n
  ioff : t.ioff = s.ioff
  output : BufRel ρ s.output t.output
  ooff : t.ooff = s.ooff

theorem Down2.loopBody_rel (H : Compat ρ) {st : Stack A} {st' : Stack B} (hst : StackRel ρ st st') {x : Buf A} {x' : Buf B}
    (hx : BufRel ρ x x') {s : DownLoop A} {t : DownLoop B} (h : DownLoopRel ρ s t) :
    RR (DownLoopRel ρ) (Down2.loopBody st x s) (Down2.loopBody st' x' t) := by
  unfold Down2.loopBody
  simp only [h.n, h.ioff, h.ooff, h.d.order, hst.block16]
  refine (deinterleave2_rel hx ⟨rfl, rfl, fun i _ => hst.junk i⟩ _ _ _).bind fun _ _ he => ?_
  refine (copyN_rel he h.d.historyEven _ _ _).bind fun _ _ hhe => ?_
  refine (deinterleave2_rel hx h.d.historyOdd _ _ _).bind fun _ _ hho => ?_
  refine (Down2.processBlockAligned_rel H h.d hhe hho h.output _ _ _ _ _).bind fun _ _ ho => ?_
  refine RR.bind (R := PR (BufRel ρ) (PR (BufRel ρ) (BufRel ρ))) ?_ ?_
  · refine RR.ite Iff.rfl (fun _ => ?_) (fun _ => ?_)
    · refine (Down2.processBlockUnaligned_rel H h.d he hx ho _ _ _ _ _).bind fun _ _ ho => ?_
      refine (copyN_rel he hhe _ _ _).bind fun _ _ hhe => ?_
      refine (deinterleave2_rel hx hho _ _ _).bind fun _ _ hho => ?_
      exact RR.ok ⟨hhe, hho, ho⟩
    · refine (memmoveDown_rel hhe _ _).bind fun _ _ hhe => ?_
      refine (memmoveDown_rel hho _ _).bind fun _ _ hho => ?_
      exact RR.ok ⟨hhe, hho, ho⟩
  · rintro ⟨a, b, c⟩ ⟨a', b', c'⟩ ⟨h1, h2, h3⟩
    exact RR.ok ⟨⟨rfl, h.d.useSse, h.d.taps, h1, h2, h.d.sseTaps⟩, rfl, rfl, h3, rfl⟩

theorem Down2.processBlock_rel (H : Compat ρ) {st : Stack A} {st' : Stack B} (hst : StackRel ρ st st') {u : Down2 A}
    {v : Down2 B} (hu : Down2Rel ρ u v) {x : Buf A} {x' : Buf B} (hx : BufRel ρ x x') {o : Buf A} {o' : Buf B}
    (ho : BufRel ρ o o') (ioff n ooff : Nat) :
    RR (PR (Down2Rel ρ) (BufRel ρ)) (u.processBlock st x ioff n o ooff) (v.processBlock st' x' ioff n o' ooff) := by
  unfold Down2.processBlock
  refine RR.ite Iff.rfl (fun _ => RR.ok ⟨hu, ho⟩) (fun _ => ?_)
  refine RR.bind (R := DownLoopRel ρ) ?_ fun _ _ h => RR.ok ⟨h.d, h.output⟩
  refine RR.whileF ?_ (fun a b h => Down2.loopBody_rel H hst hx h) ⟨hu, rfl, rfl, ho, rfl⟩
  intro a b h
  simp only [h.n]

theorem Down2.reset_rel (H : Compat ρ) {u : Down2 A} {v : Down2 B} (hu : Down2Rel ρ u v) : Down2Rel ρ u.reset v.reset :=
  ⟨hu.order, hu.useSse, hu.taps, ⟨hu.historyEven.addr, hu.historyEven.len, fun _ _ => H.zero⟩,
    ⟨hu.historyOdd.addr, hu.historyOdd.len, fun _ _ => H.zero⟩, hu.sseTaps⟩

/-! ## IIR -/

structure FpuRel (ρ : A → B → Prop) (f : FpuFilter A) (g : FpuFilter B) : Prop where
  nbrCoefs : g.nbrCoefs = f.nbrCoefs
  coef : BufRel ρ f.coef g.coef
  mem : BufRel ρ f.mem g.mem

theorem FpuFilter.new_rel (H : Compat ρ) {c : Buf A} {c' : Buf B} (hc : BufRel ρ c c') :
    RR (FpuRel ρ) (FpuFilter.new c) (FpuFilter.new c') := by
  unfold FpuFilter.new
  simp only [hc.len]
  refine RR.bind (R := BufRel ρ) ?_ fun _ _ h => RR.ok ⟨rfl, h, ⟨rfl, rfl, fun _ _ => H.zero⟩⟩
  refine RR.forN (fun i a b h => ?_) ⟨rfl, rfl, fun _ _ => H.zero⟩
  exact (hc.rd _).bind fun _ _ h1 => h.wr _ h1

theorem stageProcFpuPos_rel (H : Compat ρ) {c : Buf A} {c' : Buf B} (hc : BufRel ρ c c') (nc : Nat) :
    ∀ (rem : Nat) {x y : A} {x' y' : B} {m : Buf A} {m' : Buf B}, ρ x x' → ρ y y' → BufRel ρ m m' →
      RR (PR ρ (PR ρ (BufRel ρ))) (stageProcFpuPos nc c rem x y m) (stageProcFpuPos nc c' rem x' y' m')
  | 0, _, _, _, _, _, _, hx, hy, hm => by
    unfold stageProcFpuPos
    exact (hm.wr _ hx).bind fun _ _ hm => (hm.wr _ hy).bind fun _ _ hm => RR.ok ⟨hx, hy, hm⟩
  | 1, _, _, _, _, _, _, hx, hy, hm => by
    unfold stageProcFpuPos
    refine (hm.rd _).bind fun _ _ h1 => (hc.rd _).bind fun _ _ h2 => (hm.rd _).bind fun _ _ h3 => ?_
    have ht := H.add (H.mul (H.sub hx h1) h2) h3
    exact (hm.wr _ hx).bind fun _ _ hm => (hm.wr _ hy).bind fun _ _ hm => (hm.wr _ ht).bind fun _ _ hm => RR.ok ⟨ht, hy, hm⟩
  | rem + 2, _, _, _, _, _, _, hx, hy, hm => by
    unfold stageProcFpuPos
    refine (hm.rd _).bind fun _ _ h1 => (hc.rd _).bind fun _ _ h2 => (hm.rd _).bind fun _ _ h3 => ?_
    have ht := H.add (H.mul (H.sub hx h1) h2) h3
    refine (hm.rd _).bind fun _ _ h1 => (hc.rd _).bind fun _ _ h2 => (hm.rd _).bind fun _ _ h3 => ?_
    have ht' := H.add (H.mul (H.sub hy h1) h2) h3
    refine (hm.wr _ hx).bind fun _ _ hm => (hm.wr _ hy).bind fun _ _ hm => ?_
    exact stageProcFpuPos_rel H hc nc rem ht ht' hm

theorem assert_rel (bld : Build) (c : Bool) : RR (fun _ _ => True) (bld.assert c) (bld.assert c) := by
  cases h : bld.assert c
  · rfl
  · trivial

theorem FpuFilter.upBlock_rel (H : Compat ρ) (bld : Build) {f : FpuFilter A} {g : FpuFilter B} (hf : FpuRel ρ f g) {x : Buf A}
    {x' : Buf B} (hx : BufRel ρ x x') {o : Buf A} {o' : Buf B} (ho : BufRel ρ o o') (ioff n ooff : Nat) :
    RR (PR (FpuRel ρ) (BufRel ρ)) (f.upBlock bld x ioff n o ooff) (g.upBlock bld x' ioff n o' ooff) := by
  unfold FpuFilter.upBlock doWhileN
  refine (assert_rel bld _).bind fun _ _ _ => ?_
  refine RR.forN ?_ ⟨hf, ho⟩
  rintro i ⟨f, a⟩ ⟨g, b⟩ ⟨hf, ho⟩
  refine (hx.rd _).bind fun _ _ h => ?_
  refine RR.bind (R := PR ρ (PR ρ (FpuRel ρ))) ?_ ?_
  · unfold FpuFilter.upSample
    simp only
    rw [hf.nbrCoefs]
    refine (stageProcFpuPos_rel H hf.coef _ _ h h hf.mem).bind ?_
    rintro ⟨_, _, _⟩ ⟨_, _, _⟩ ⟨h1, h2, h3⟩
    exact RR.ok ⟨h1, h2, ⟨rfl, hf.coef, h3⟩⟩
  · rintro ⟨_, _, _⟩ ⟨_, _, _⟩ ⟨h1, h2, h3⟩
    exact (BufRel.wr ho _ h1).bind fun _ _ ho => (BufRel.wr ho _ h2).bind fun _ _ ho => RR.ok ⟨h3, ho⟩

theorem FpuFilter.downBlock_rel (H : Compat ρ) (bld : Build) {f : FpuFilter A} {g : FpuFilter B} (hf : FpuRel ρ f g)
    {x : Buf A} {x' : Buf B} (hx : BufRel ρ x x') {o : Buf A} {o' : Buf B} (ho : BufRel ρ o o') (ioff n ooff : Nat) :
    RR (PR (FpuRel ρ) (BufRel ρ)) (f.downBlock bld x ioff n o ooff) (g.downBlock bld x' ioff n o' ooff) := by
  unfold FpuFilter.downBlock doWhileN
  refine (assert_rel bld _).bind fun _ _ _ => ?_
  refine RR.forN ?_ ⟨hf, ho⟩
  rintro i ⟨f, a⟩ ⟨g, b⟩ ⟨hf, ho⟩
  refine (hx.rd _).bind fun _ _ h1 => (hx.rd _).bind fun _ _ h0 => ?_
  refine RR.bind (R := PR ρ (FpuRel ρ)) ?_ ?_
  · unfold FpuFilter.downSample
    simp only
    rw [hf.nbrCoefs]
    refine (stageProcFpuPos_rel H hf.coef _ _ h1 h0 hf.mem).bind ?_
    rintro ⟨_, _, _⟩ ⟨_, _, _⟩ ⟨h1, h2, h3⟩
    exact RR.ok ⟨H.mul H.half (H.add h1 h2), ⟨rfl, hf.coef, h3⟩⟩
  · rintro ⟨_, _⟩ ⟨_, _⟩ ⟨h1, h3⟩
    exact (BufRel.wr ho _ h1).bind fun _ _ ho => RR.ok ⟨h3, ho⟩

theorem FpuFilter.clearBuffers_rel (H : Compat ρ) {f : FpuFilter A} {g : FpuFilter B} (hf : FpuRel ρ f g) :
    RR (FpuRel ρ) f.clearBuffers g.clearBuffers := by
  unfold FpuFilter.clearBuffers
  rw [hf.nbrCoefs]
  refine RR.bind (R := BufRel ρ) ?_ fun _ _ h => RR.ok ⟨rfl, hf.coef, h⟩
  exact RR.forN (fun i a b h => h.wr _ H.zero) hf.mem

structure SseRel (ρ : A → B → Prop) (f : SseFilter A) (g : SseFilter B) : Prop where
  nbrCoefs : g.nbrCoefs = f.nbrCoefs
  addr : g.addr = f.addr
  coef : BufRel (V4Rel ρ) f.coef g.coef
  mem : BufRel (V4Rel ρ) f.mem g.mem

theorem ldStage_rel {m : Buf (V4 A)} {m' : Buf (V4 B)} (hm : BufRel (V4Rel ρ) m m') (addr i : Nat) :
    RR (V4Rel ρ) (ldStage addr m i) (ldStage addr m' i) := by
  unfold ldStage
  exact RR.ite Iff.rfl (fun _ => hm.rd _) fun _ => (rfl : UB.misaligned = UB.misaligned)

theorem stStage_rel {m : Buf (V4 A)} {m' : Buf (V4 B)} (hm : BufRel (V4Rel ρ) m m') (addr i : Nat) {v : V4 A} {w : V4 B}
    (h : V4Rel ρ v w) : RR (BufRel (V4Rel ρ)) (stStage addr m i v) (stStage addr m' i w) := by
  unfold stStage
  exact RR.ite Iff.rfl (fun _ => hm.wr _ h) fun _ => (rfl : UB.misaligned = UB.misaligned)

theorem V4Rel.set {v : V4 A} {w : V4 B} (h : V4Rel ρ v w) (pos : Nat) {x : A} {y : B} (hx : ρ x y) :
    V4Rel ρ (v.set pos x) (w.set pos y) := by
  unfold V4.set
  split
  · exact ⟨hx, h.x1, h.x2, h.x3⟩
  · exact ⟨h.x0, hx, h.x2, h.x3⟩

theorem SseFilter.new_rel (H : Compat ρ) (addr : Nat) {c : Buf A} {c' : Buf B} (hc : BufRel ρ c c') :
    RR (SseRel ρ) (SseFilter.new addr c) (SseFilter.new addr c') := by
  unfold SseFilter.new
  simp only [hc.len]
  have hz : V4Rel ρ (⟨0, 0, 0, 0⟩ : V4 A) (⟨0, 0, 0, 0⟩ : V4 B) := ⟨H.zero, H.zero, H.zero, H.zero⟩
  refine RR.bind (R := BufRel (V4Rel ρ)) ?_ fun _ _ h => ?_
  · refine RR.forN (R := BufRel (V4Rel ρ)) (fun i a b h => stStage_rel h addr i hz) ?_
    exact ⟨rfl, rfl, fun _ _ => hz⟩
  refine RR.bind (R := BufRel (V4Rel ρ)) ?_ fun _ _ h => ?_
  · refine RR.ite Iff.rfl (fun _ => ?_) fun _ => RR.ok h
    exact (h.rd _).bind fun _ _ hv => h.wr _ (hv.set 0 H.one)
  refine RR.bind (R := BufRel (V4Rel ρ)) ?_ fun _ _ hm => ?_
  · refine RR.forN (R := BufRel (V4Rel ρ)) (fun i a b h => stStage_rel h addr i hz) ?_
    exact ⟨rfl, rfl, fun _ _ => hz⟩
  refine RR.bind (R := BufRel (V4Rel ρ)) ?_ fun _ _ h => RR.ok ⟨rfl, rfl, h, hm⟩
  refine RR.forN (fun i a b h => ?_) h
  exact (h.rd _).bind fun _ _ hv => (hc.rd _).bind fun _ _ hx => h.wr _ (hv.set _ hx)

theorem V4Rel.stage (H : Compat ρ) {x y c z : V4 A} {x' y' c' z' : V4 B} (hx : V4Rel ρ x x') (hy : V4Rel ρ y y')
    (hc : V4Rel ρ c c') (hz : V4Rel ρ z z') : V4Rel ρ (x.stage y c z) (x'.stage y' c' z') :=
  ⟨H.add (H.mul (H.sub hx.x0 hy.x0) hc.x0) hz.x0, H.add (H.mul (H.sub hx.x1 hy.x1) hc.x1) hz.x1,
   H.add (H.mul (H.sub hx.x2 hy.x2) hc.x2) hz.x2, H.add (H.mul (H.sub hx.x3 hy.x3) hc.x3) hz.x3⟩

theorem stageProcSsePosRec_rel (H : Compat ρ) (addr : Nat) {c : Buf (V4 A)} {c' : Buf (V4 B)} (hc : BufRel (V4Rel ρ) c c')
    (cur : Nat) {x : V4 A} {x' : V4 B} (hx : V4Rel ρ x x') {m : Buf (V4 A)} {m' : Buf (V4 B)} (hm : BufRel (V4Rel ρ) m m') :
    RR (PR (V4Rel ρ) (BufRel (V4Rel ρ))) (stageProcSsePosRec addr c cur x m) (stageProcSsePosRec addr c' cur x' m') := by
  induction cur with
  | zero => exact ⟨hx, hm⟩
  | succ cur ih =>
    unfold stageProcSsePosRec
    refine ih.bind ?_
    rintro ⟨_, _⟩ ⟨_, _⟩ ⟨hx, hm⟩
    refine (ldStage_rel hm _ _).bind fun _ _ ht => (stStage_rel hm _ _ hx).bind fun _ _ hm => ?_
    exact (ldStage_rel hm _ _).bind fun _ _ hy => (ldStage_rel hc _ _).bind fun _ _ hc => RR.ok ⟨V4Rel.stage H hx hy hc ht, hm⟩

theorem stageProcSsePos_rel (H : Compat ρ) (addr : Nat) {c : Buf (V4 A)} {c' : Buf (V4 B)} (hc : BufRel (V4Rel ρ) c c')
    (cur : Nat) {x : V4 A} {x' : V4 B} (hx : V4Rel ρ x x') {m : Buf (V4 A)} {m' : Buf (V4 B)} (hm : BufRel (V4Rel ρ) m m') :
    RR (PR (V4Rel ρ) (BufRel (V4Rel ρ))) (stageProcSsePos addr c cur x m) (stageProcSsePos addr c' cur x' m') := by
  unfold stageProcSsePos
  refine (stageProcSsePosRec_rel H addr hc cur hx hm).bind ?_
  rintro ⟨_, _⟩ ⟨_, _⟩ ⟨hx, hm⟩
  exact (stStage_rel hm _ _ hx).bind fun _ _ hm => RR.ok ⟨hx, hm⟩

theorem SseFilter.upBlock_rel (H : Compat ρ) (bld : Build) {f : SseFilter A} {g : SseFilter B} (hf : SseRel ρ f g) {x : Buf A}
    {x' : Buf B} (hx : BufRel ρ x x') {o : Buf A} {o' : Buf B} (ho : BufRel ρ o o') (ioff n ooff : Nat) :
    RR (PR (SseRel ρ) (BufRel ρ)) (f.upBlock bld x ioff n o ooff) (g.upBlock bld x' ioff n o' ooff) := by
  unfold SseFilter.upBlock
  refine (assert_rel bld _).bind fun _ _ _ => ?_
  refine RR.forN ?_ ⟨hf, ho⟩
  rintro i ⟨f, a⟩ ⟨g, b⟩ ⟨hf, ho⟩
  refine (hx.rd _).bind fun _ _ h => ?_
  simp only
  rw [hf.nbrCoefs, hf.addr]
  refine (stageProcSsePos_rel H _ hf.coef _ ⟨h, h, h, h⟩ hf.mem).bind ?_
  rintro ⟨_, _⟩ ⟨_, _⟩ ⟨hv, hm⟩
  refine (BufRel.wr ho _ hv.x1).bind fun _ _ ho => (BufRel.wr ho _ hv.x0).bind fun _ _ ho => ?_
  exact RR.ok ⟨⟨rfl, rfl, hf.coef, hm⟩, ho⟩

theorem SseFilter.downBlock_rel (H : Compat ρ) (bld : Build) {f : SseFilter A} {g : SseFilter B} (hf : SseRel ρ f g)
    {x : Buf A} {x' : Buf B} (hx : BufRel ρ x x') {o : Buf A} {o' : Buf B} (ho : BufRel ρ o o') (ioff n ooff : Nat) :
    RR (PR (SseRel ρ) (BufRel ρ)) (f.downBlock bld x ioff n o ooff) (g.downBlock bld x' ioff n o' ooff) := by
  unfold SseFilter.downBlock
  refine (assert_rel bld _).bind fun _ _ _ => ?_
  refine RR.forN ?_ ⟨hf, ho⟩
  rintro i ⟨f, a⟩ ⟨g, b⟩ ⟨hf, ho⟩
  refine (hx.ld4u _).bind fun _ _ h => ?_
  simp only
  rw [hf.nbrCoefs, hf.addr]
  refine (stageProcSsePos_rel H _ hf.coef _ h hf.mem).bind ?_
  rintro ⟨_, _⟩ ⟨_, _⟩ ⟨hv, hm⟩
  refine (BufRel.wr ho _ (H.mul (H.add hv.x0 hv.x1) H.half)).bind fun _ _ ho => ?_
  exact RR.ok ⟨⟨rfl, rfl, hf.coef, hm⟩, ho⟩

theorem SseFilter.clearBuffers_rel (H : Compat ρ) {f : SseFilter A} {g : SseFilter B} (hf : SseRel ρ f g) :
    RR (SseRel ρ) f.clearBuffers g.clearBuffers := by
  unfold SseFilter.clearBuffers
  rw [hf.nbrCoefs, hf.addr]
  refine RR.bind (R := BufRel (V4Rel ρ)) ?_ fun _ _ h => RR.ok ⟨rfl, rfl, hf.coef, h⟩
  exact RR.forN (fun i a b h => stStage_rel h _ _ ⟨H.zero, H.zero, H.zero, H.zero⟩) hf.mem

/-! ## Stages and resamplers -/

/-- Related implementation objects. -/
def ImplRel (ρ : A → B → Prop) : Impl A → Impl B → Prop
  | .firUp u, .firUp v => Up2Rel ρ u v
  | .firDown u, .firDown v => Down2Rel ρ u v
  | .iirUp f d, .iirUp g e => FpuRel ρ f g ∧ d = e
  | .iirDown f d, .iirDown g e => FpuRel ρ f g ∧ d = e
  | .iirUpSse f d, .iirUpSse g e => SseRel ρ f g ∧ d = e
  | .iirDownSse f d, .iirDownSse g e => SseRel ρ f g ∧ d = e
  | _, _ => False

theorem Impl.processBlock_rel (H : Compat ρ) (bld : Build) {st : Stack A} {st' : Stack B} (hst : StackRel ρ st st')
    {i : Impl A} {j : Impl B} (hi : ImplRel ρ i j) {x : Buf A} {x' : Buf B} (hx : BufRel ρ x x') {o : Buf A} {o' : Buf B}
    (ho : BufRel ρ o o') (ioff n ooff : Nat) :
    RR (PR (ImplRel ρ) (BufRel ρ)) (i.processBlock bld st x ioff n o ooff) (j.processBlock bld st' x' ioff n o' ooff) := by
  cases i <;> cases j <;> first | exact hi.elim | skip
  · exact (Up2.processBlock_rel H hi hx ho _ _ _).bind fun _ _ h => RR.ok h
  · exact (Down2.processBlock_rel H hst hi hx ho _ _ _).bind fun _ _ h => RR.ok h
  · exact (FpuFilter.upBlock_rel H bld hi.1 hx ho _ _ _).bind fun _ _ h => RR.ok ⟨⟨h.1, hi.2⟩, h.2⟩
  · exact (FpuFilter.downBlock_rel H bld hi.1 hx ho _ _ _).bind fun _ _ h => RR.ok ⟨⟨h.1, hi.2⟩, h.2⟩
  · exact (SseFilter.upBlock_rel H bld hi.1 hx ho _ _ _).bind fun _ _ h => RR.ok ⟨⟨h.1, hi.2⟩, h.2⟩
  · exact (SseFilter.downBlock_rel H bld hi.1 hx ho _ _ _).bind fun _ _ h => RR.ok ⟨⟨h.1, hi.2⟩, h.2⟩

theorem Impl.reset_rel (H : Compat ρ) {i : Impl A} {j : Impl B} (hi : ImplRel ρ i j) :
    RR (ImplRel ρ) i.reset j.reset := by
  cases i <;> cases j <;> first | exact hi.elim | skip
  · exact Up2.reset_rel H hi
  · exact Down2.reset_rel H hi
  · exact (FpuFilter.clearBuffers_rel H hi.1).bind fun _ _ h => RR.ok ⟨h, hi.2⟩
  · exact (FpuFilter.clearBuffers_rel H hi.1).bind fun _ _ h => RR.ok ⟨h, hi.2⟩
  · exact (SseFilter.clearBuffers_rel H hi.1).bind fun _ _ h => RR.ok ⟨h, hi.2⟩
  · exact (SseFilter.clearBuffers_rel H hi.1).bind fun _ _ h => RR.ok ⟨h, hi.2⟩

theorem ofList_rel {l : List A} {m : List B} (hl : m.length = l.length) (h0 : ∀ i (h : i < l.length), ρ l[i] (m[i]'(by omega)))
    (addr : Nat) : BufRel ρ (Buf.ofList addr 0 l) (Buf.ofList addr 0 m) := by
  refine ⟨rfl, hl, fun i hi => ?_⟩
  have hi' : i < l.length := hi
  have := h0 i hi'
  simp only [Buf.ofList, List.getD_eq_getElem?_getD, List.getElem?_eq_getElem hi',
    List.getElem?_eq_getElem (show i < m.length by omega), Option.getD_some]
  exact this

theorem firTaps_rel (H : Compat ρ) (d : List Dec) (s : Rat) :
    BufRel ρ (Buf.ofList 0 0 (firTaps d s : List A)) (Buf.ofList 0 0 (firTaps d s : List B)) := by
  refine ofList_rel (by simp [firTaps]) ?_ 0
  intro i h
  simp only [firTaps, List.getElem_map]
  exact H.ofDouble _

/-- Both null or both related objects. -/
def OptRel (ρ : A → B → Prop) : Option (Impl A) → Option (Impl B) → Prop
  | none, none => True
  | some i, some j => ImplRel ρ i j
  | _, _ => False

theorem Up2.new_rel (H : Compat ρ) (al : Alloc) (k : Nat) (useSse : Bool) (d : List Dec) (s : Rat) :
    RR (Up2Rel ρ) (Up2.new al k useSse (firTaps d s : List A)) (Up2.new al k useSse (firTaps d s : List B)) := by
  unfold Up2.new
  have hl : (firTaps d s : List B).length = (firTaps d s : List A).length := by simp [firTaps]
  simp only [hl]
  refine (firComputeSseTaps_rel H (firTaps_rel H d s) _).bind fun _ _ h => ?_
  exact RR.ok ⟨rfl, rfl, firTaps_rel H d s, ⟨rfl, rfl, fun _ _ => H.zero⟩, h⟩

theorem Down2.new_rel (H : Compat ρ) (al : Alloc) (k : Nat) (useSse : Bool) (d : List Dec) (s : Rat) :
    RR (Down2Rel ρ) (Down2.new al k useSse (firTaps d s : List A)) (Down2.new al k useSse (firTaps d s : List B)) := by
  unfold Down2.new
  have hl : (firTaps d s : List B).length = (firTaps d s : List A).length := by simp [firTaps]
  simp only [hl]
  refine (firComputeSseTaps_rel H (firTaps_rel H d s) _).bind fun _ _ h => ?_
  exact RR.ok ⟨rfl, rfl, firTaps_rel H d s, ⟨rfl, rfl, fun _ _ => H.zero⟩, ⟨rfl, rfl, fun _ _ => H.zero⟩, h⟩

theorem createImplIirWithCoeffs_rel (H : Compat ρ) (bld : Build) (al : Alloc) (k : Nat) (useSse : Bool) (mode : Mode)
    (cs : List Dec) (gd : Dec) :
    RR (ImplRel ρ) (createImplIirWithCoeffs (F := A) bld al k useSse mode cs gd)
      (createImplIirWithCoeffs (F := B) bld al k useSse mode cs gd) := by
  have hc : BufRel ρ (Buf.ofList 0 0 (cs.map fun c => (Sample.ofDouble c.toRat : A)))
      (Buf.ofList 0 0 (cs.map fun c => (Sample.ofDouble c.toRat : B))) := by
    refine ofList_rel (by simp) ?_ 0
    intro i h
    simp only [List.getElem_map]
    exact H.ofDouble _
  unfold createImplIirWithCoeffs
  refine RR.ite Iff.rfl (fun _ => ?_) (fun _ => ?_)
  · refine (SseFilter.new_rel H _ hc).bind fun _ _ h => ?_
    cases mode <;> exact RR.ok ⟨h, rfl⟩
  · refine (FpuFilter.new_rel H hc).bind fun _ _ h => ?_
    cases mode <;> exact RR.ok ⟨h, rfl⟩

theorem initStage_rel (H : Compat ρ) (bld : Build) (al : Alloc) (mode : Mode) (ratio precision : Nat) (useSse : Bool)
    (filter : Filter) (k stageRatio : Nat) :
    RR (OptRel ρ) (initStage (F := A) bld al mode ratio precision useSse filter k stageRatio)
      (initStage (F := B) bld al mode ratio precision useSse filter k stageRatio) := by
  unfold initStage
  refine RR.ite Iff.rfl (fun _ => RR.ok trivial) (fun _ => ?_)
  cases filter
  · simp only [createImplIir]
    cases iirTable stageRatio precision with
    | none => exact RR.ok trivial
    | some t => exact (createImplIirWithCoeffs_rel H _ _ _ _ _ _ _).bind fun _ _ h => RR.ok h
  · simp only [createImpl]
    cases firTable stageRatio precision with
    | none => exact RR.ok trivial
    | some t =>
      cases mode
      · exact (Up2.new_rel H _ _ _ _ _).bind fun _ _ h => RR.ok h
      · exact (Down2.new_rel H _ _ _ _ _).bind fun _ _ h => RR.ok h

/-- Related resamplers. -/
structure ResRel (ρ : A → B → Prop) (r : Resampler A) (s : Resampler B) : Prop where
  x2 : OptRel ρ r.implX2 s.implX2
  x4 : OptRel ρ r.implX4 s.implX4
  x8 : OptRel ρ r.implX8 s.implX8
  ratio : s.ratio = r.ratio
  mode : s.mode = r.mode

theorem Config.new_rel (H : Compat ρ) (cfg : Config) : RR (ResRel ρ) (cfg.new (F := A)) (cfg.new (F := B)) := by
  unfold Config.new Resampler.new
  exact (initStage_rel H _ _ _ _ _ _ _ _ _).bind fun _ _ h2 => (initStage_rel H _ _ _ _ _ _ _ _ _).bind fun _ _ h4 =>
    (initStage_rel H _ _ _ _ _ _ _ _ _).bind fun _ _ h8 => RR.ok ⟨h2, h4, h8, rfl, rfl⟩

theorem deref_rel {p : Option (Impl A)} {q : Option (Impl B)} (h : OptRel ρ p q) : RR (ImplRel ρ) (deref p) (deref q) := by
  cases p <;> cases q
  · exact (rfl : UB.nullDeref = UB.nullDeref)
  · exact h.elim
  · exact h.elim
  · exact h

structure RLoopRel (ρ : A → B → Prop) (s : RLoop A) (t : RLoop B) : Prop where
  r : ResRel ρ s.r t.r
  n : t.n = s.n
  ioff : t.ioff = s.ioff
  output : BufRel ρ s.output t.output
  ooff : t.ooff = s.ooff

theorem Resampler.loopBody_rel (H : Compat ρ) (bld : Build) {st : Stack A} {st' : Stack B} (hst : StackRel ρ st st')
    {x : Buf A} {x' : Buf B} (hx : BufRel ρ x x') {s : RLoop A} {t : RLoop B} (h : RLoopRel ρ s t) :
    RR (RLoopRel ρ) (Resampler.loopBody bld st x s) (Resampler.loopBody bld st' x' t) := by
  unfold Resampler.loopBody
  have ht : BufRel ρ { addr := st.tmpAddr, len := 1024 * 4, get := st.junk } { addr := st.tmpAddr, len := 1024 * 4, get := st'.junk } :=
    ⟨rfl, rfl, fun i _ => hst.junk i⟩
  have ht2 : BufRel ρ { addr := st.tmp2Addr, len := 1024 * 4, get := st.junk }
      { addr := st.tmp2Addr, len := 1024 * 4, get := st'.junk } := ⟨rfl, rfl, fun i _ => hst.junk i⟩
  simp only [h.n, h.ioff, h.ooff, h.r.mode, h.r.ratio, hst.tmpAddr, hst.tmp2Addr]
  cases s.r.mode
  · refine RR.ite Iff.rfl (fun _ => ?_) (fun _ => ?_)
    · refine (deref_rel h.r.x2).bind fun _ _ hi => (Impl.processBlock_rel H bld hst hi hx ht _ _ _).bind fun _ _ h2 => ?_
      refine (deref_rel h.r.x4).bind fun _ _ hi => (Impl.processBlock_rel H bld hst hi h2.2 h.output _ _ _).bind fun _ _ h4 => ?_
      exact RR.ok ⟨⟨h2.1, h4.1, h.r.x8, rfl, rfl⟩, rfl, rfl, h4.2, rfl⟩
    · refine (deref_rel h.r.x2).bind fun _ _ hi => (Impl.processBlock_rel H bld hst hi hx ht _ _ _).bind fun _ _ h2 => ?_
      refine (deref_rel h.r.x4).bind fun _ _ hi => (Impl.processBlock_rel H bld hst hi h2.2 ht2 _ _ _).bind fun _ _ h4 => ?_
      refine (deref_rel h.r.x8).bind fun _ _ hi => (Impl.processBlock_rel H bld hst hi h4.2 h.output _ _ _).bind fun _ _ h8 => ?_
      exact RR.ok ⟨⟨h2.1, h4.1, h8.1, rfl, rfl⟩, rfl, rfl, h8.2, rfl⟩
  · refine RR.ite Iff.rfl (fun _ => ?_) (fun _ => ?_)
    · refine (deref_rel h.r.x4).bind fun _ _ hi => (Impl.processBlock_rel H bld hst hi hx ht _ _ _).bind fun _ _ h4 => ?_
      refine (deref_rel h.r.x2).bind fun _ _ hi => (Impl.processBlock_rel H bld hst hi h4.2 h.output _ _ _).bind fun _ _ h2 => ?_
      exact RR.ok ⟨⟨h2.1, h4.1, h.r.x8, rfl, rfl⟩, rfl, rfl, h2.2, rfl⟩
    · refine (deref_rel h.r.x8).bind fun _ _ hi => (Impl.processBlock_rel H bld hst hi hx ht _ _ _).bind fun _ _ h8 => ?_
      refine (deref_rel h.r.x4).bind fun _ _ hi => (Impl.processBlock_rel H bld hst hi h8.2 ht2 _ _ _).bind fun _ _ h4 => ?_
      refine (deref_rel h.r.x2).bind fun _ _ hi => (Impl.processBlock_rel H bld hst hi h4.2 h.output _ _ _).bind fun _ _ h2 => ?_
      exact RR.ok ⟨⟨h2.1, h4.1, h8.1, rfl, rfl⟩, rfl, rfl, h2.2, rfl⟩

theorem Resampler.processBlock_rel (H : Compat ρ) (bld : Build) {st : Stack A} {st' : Stack B} (hst : StackRel ρ st st')
    {r : Resampler A} {s : Resampler B} (h : ResRel ρ r s) {x : Buf A} {x' : Buf B} (hx : BufRel ρ x x') {o : Buf A}
    {o' : Buf B} (ho : BufRel ρ o o') (n : Nat) :
    RR (PR (ResRel ρ) (BufRel ρ)) (r.processBlock bld st x n o) (s.processBlock bld st' x' n o') := by
  unfold Resampler.processBlock
  rw [h.ratio]
  refine RR.ite Iff.rfl (fun _ => ?_) (fun _ => RR.ite Iff.rfl (fun _ => ?_) (fun _ => ?_))
  · refine (deref_rel h.x2).bind fun _ _ hi => (Impl.processBlock_rel H bld hst hi hx ho _ _ _).bind fun _ _ h2 => ?_
    exact RR.ok ⟨⟨h2.1, h.x4, h.x8, rfl, h.mode⟩, h2.2⟩
  · exact (copyN_rel hx ho _ _ _).bind fun _ _ ho => RR.ok ⟨h, ho⟩
  · refine RR.bind (R := RLoopRel ρ) ?_ fun _ _ h => RR.ok ⟨h.r, h.output⟩
    refine RR.whileF ?_ (fun a b h => Resampler.loopBody_rel H bld hst hx h) ⟨h, rfl, rfl, ho, rfl⟩
    intro a b h
    simp only [h.n]

theorem resetStage_rel (H : Compat ρ) (c : Bool) {p : Option (Impl A)} {q : Option (Impl B)} (h : OptRel ρ p q) :
    RR (OptRel ρ) (resetStage c p) (resetStage c q) := by
  unfold resetStage
  refine RR.ite Iff.rfl (fun _ => ?_) fun _ => RR.ok h
  exact (deref_rel h).bind fun _ _ h => (Impl.reset_rel H h).bind fun _ _ h => RR.ok h

theorem Resampler.reset_rel (H : Compat ρ) {r : Resampler A} {s : Resampler B} (h : ResRel ρ r s) :
    RR (ResRel ρ) r.reset s.reset := by
  unfold Resampler.reset
  rw [h.ratio]
  exact (resetStage_rel H _ h.x2).bind fun _ _ h2 => (resetStage_rel H _ h.x4).bind fun _ _ h4 =>
    (resetStage_rel H _ h.x8).bind fun _ _ h8 => RR.ok ⟨h2, h4, h8, rfl, h.mode⟩

/-- Calls with the same sizes and addresses and related data. -/
structure CallRel (ρ : A → B → Prop) (c : Call A) (d : Call B) : Prop where
  st : StackRel ρ c.st d.st
  input : BufRel ρ c.input d.input
  n : d.n = c.n
  output : BufRel ρ c.output d.output

/-- Related operations. -/
def OpRel (ρ : A → B → Prop) : Op A → Op B → Prop
  | .process c, .process d => CallRel ρ c d
  | .reset, .reset => True
  | _, _ => False

/-- Related lists. -/
inductive ListRel {α β : Type} (R : α → β → Prop) : List α → List β → Prop where
  | nil : ListRel R [] []
  | cons {a b l m} : R a b → ListRel R l m → ListRel R (a :: l) (b :: m)

/-- Related results. -/
def OutRel (ρ : A → B → Prop) : Option (Buf A) → Option (Buf B) → Prop
  | some b, some c => BufRel ρ b c
  | none, none => True
  | _, _ => False

theorem Resampler.runOps_rel (H : Compat ρ) (bld : Build) {r : Resampler A} {s : Resampler B} (h : ResRel ρ r s)
    {ops : List (Op A)} {ops' : List (Op B)} (ho : ListRel (OpRel ρ) ops ops') :
    RR (PR (ResRel ρ) (ListRel (OutRel ρ))) (r.runOps bld ops) (s.runOps bld ops') := by
  induction ho generalizing r s with
  | nil => exact RR.ok ⟨h, .nil⟩
  | @cons a b l m hab _ ih =>
    cases a <;> cases b <;> first | exact hab.elim | skip
    · rename_i c d
      have hcd : CallRel ρ c d := hab
      unfold Resampler.runOps
      rw [hcd.n]
      refine (Resampler.processBlock_rel H bld hcd.st h hcd.input hcd.output _).bind ?_
      rintro ⟨_, _⟩ ⟨_, _⟩ ⟨h1, h2⟩
      refine (ih h1).bind ?_
      rintro ⟨_, _⟩ ⟨_, _⟩ ⟨h3, h4⟩
      exact RR.ok ⟨h3, .cons h2 h4⟩
    · unfold Resampler.runOps
      refine (Resampler.reset_rel H h).bind fun _ _ h1 => (ih h1).bind ?_
      rintro ⟨_, _⟩ ⟨_, _⟩ ⟨h3, h4⟩
      exact RR.ok ⟨h3, .cons trivial h4⟩

theorem Config.session_rel (H : Compat ρ) (cfg : Config) {ops : List (Op A)} {ops' : List (Op B)}
    (ho : ListRel (OpRel ρ) ops ops') :
    RR (PR (ResRel ρ) (ListRel (OutRel ρ))) (cfg.session ops) (cfg.session ops') := by
  unfold Config.session
  exact (Config.new_rel H cfg).bind fun _ _ h => Resampler.runOps_rel H _ h ho

end Panda
