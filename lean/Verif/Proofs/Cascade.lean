import Verif.Proofs.Stage

/-!
# `Resampler2::process_block`: cascades of stages
-/

set_option linter.unusedSectionVars false

namespace Panda

variable {F : Type} [Zero F] [One F] [Add F] [Sub F] [Mul F] [Sample F]

/-- The stages signal passes through, in this order. -/
def Resampler.path (r : Resampler F) : List (Option (Impl F)) :=
  match r.mode with
  | .up =>
    if r.ratio = 1 then [] else if r.ratio = 2 then [r.implX2] else if r.ratio = 4 then [r.implX2, r.implX4]
    else [r.implX2, r.implX4, r.implX8]
  | .down =>
    if r.ratio = 1 then [] else if r.ratio = 2 then [r.implX2] else if r.ratio = 4 then [r.implX4, r.implX2]
    else [r.implX8, r.implX4, r.implX2]

/-- The stages `ss` are implemented by the objects `is`; they have consumed `xs` and produced `zs`. -/
def ChainInv : List (Stage F) → List (Option (Impl F)) → List F → List F → Prop
  | [], [], xs, zs => zs = xs
  | s :: ss, some i :: is, xs, zs => ∃ ys, i.Inv s xs ∧ s.Rel xs ys ∧ ChainInv ss is ys zs
  | _, _, _, _ => False

theorem ChainInv.rel {ss : List (Stage F)} {is : List (Option (Impl F))} {xs zs : List F} (h : ChainInv ss is xs zs) :
    CascadeRel ss xs zs := by
  induction ss generalizing is xs with
  | nil =>
    cases is with
    | nil => exact h
    | cons => exact h.elim
  | cons s ss ih =>
    cases is with
    | nil => exact h.elim
    | cons i is =>
      cases i with
      | none => exact h.elim
      | some i =>
        obtain ⟨ys, _, h2, h3⟩ := h
        exact ⟨ys, h2, ih h3⟩

/-- Direction of a stage. -/
def Stage.isUp : Stage F → Bool
  | .firUp _ _ | .iirUp _ _ => true
  | .firDown _ _ | .iirDown _ _ => false

theorem Stage.up_facts {s : Stage F} (h : s.isUp = true) (bld : Build) (n : Nat) :
    s.outLen n = 2 * n ∧ s.slack n = 0 ∧ (0 < n → n < 2 ^ 31 → s.inOk bld n) := by
  cases s <;> simp_all [isUp, outLen, slack, inOk]

theorem Stage.down_facts {s : Stage F} (h : s.isUp = false) (bld : Build) (n : Nat) :
    s.outLen n = n / 2 ∧ s.slack n ≤ 2 ∧ (0 < n → n % 2 = 0 → s.inOk bld n) := by
  cases s with
  | firUp => simp [isUp] at h
  | iirUp => simp [isUp] at h
  | firDown v t => simp_all [outLen, slack, inOk]
  | iirDown v c =>
    cases v
    · simp_all [outLen, slack, inOk]
    · simp only [outLen, slack, inOk, true_and]
      refine ⟨?_, fun h1 h2 => ⟨h2, Or.inr h1⟩⟩
      split <;> omega

/-- Optional stages evolve. -/
def OptEvolves : Option (Impl F) → Option (Impl F) → Prop
  | none, none => True
  | some a, some b => a.Evolves b
  | _, _ => False

theorem OptEvolves.refl (p : Option (Impl F)) : OptEvolves p p := by
  cases p
  · trivial
  · exact Impl.Evolves.refl _

theorem OptEvolves.trans {a b c : Option (Impl F)} (h1 : OptEvolves a b) (h2 : OptEvolves b c) : OptEvolves a c := by
  cases a <;> cases b <;> cases c <;> first | exact h1.elim | exact h2.elim | trivial | exact Impl.Evolves.trans h1 h2

/-- `r` is `r0` after some calls of `process_block`. -/
structure Resampler.Evolves (r0 r : Resampler F) : Prop where
  x2 : OptEvolves r0.implX2 r.implX2
  x4 : OptEvolves r0.implX4 r.implX4
  x8 : OptEvolves r0.implX8 r.implX8
  ratio : r.ratio = r0.ratio
  mode : r.mode = r0.mode
  precision : r.precision = r0.precision
  useSse : r.useSseIfAvailable = r0.useSseIfAvailable
  filter : r.filter = r0.filter

theorem Resampler.Evolves.refl (r : Resampler F) : r.Evolves r :=
  ⟨OptEvolves.refl _, OptEvolves.refl _, OptEvolves.refl _, rfl, rfl, rfl, rfl, rfl⟩

theorem Resampler.Evolves.trans {a b c : Resampler F} (h1 : a.Evolves b) (h2 : b.Evolves c) : a.Evolves c :=
  ⟨h1.x2.trans h2.x2, h1.x4.trans h2.x4, h1.x8.trans h2.x8, h2.ratio.trans h1.ratio, h2.mode.trans h1.mode,
    h2.precision.trans h1.precision, h2.useSse.trans h1.useSse, h2.filter.trans h1.filter⟩

/-- What a (sub)block of a whole resampler achieves. -/
structure Resampler.Post (ss : List (Stage F)) (r : Resampler F) (xs zs c : List F) (output : Buf F) (ooff olen : Nat)
    (r' : Resampler F) (o' : Buf F) : Prop where
  inv : ChainInv ss r'.path (xs ++ c) (zs ++ o'.slice ooff olen)
  evolves : r.Evolves r'
  len : o'.len = output.len
  addr : o'.addr = output.addr
  frame : ∀ j, j < ooff ∨ ooff + olen ≤ j → o'.get j = output.get j

theorem Buf.slice_seq {b : Buf F} {off n : Nat} (k : Nat) (h : k < (b.slice off n).length) :
    b.get (off + k) = seq (b.slice off n) k := by
  rw [Buf.seq_slice (by simpa using h)]

/-- Two stages in sequence, as used by `loopBody`. -/
theorem casc2 {bld : Build} {st : Stack F} {sA sB : Stage F} {iA iB : Impl F} {xs ys zs c : List F}
    (hA : iA.Inv sA xs) (rA : sA.Rel xs ys) (hB : iB.Inv sB ys) (rB : sB.Rel ys zs)
    {input tmp output : Buf F} {ioff ooff nB : Nat}
    (okA : sA.inOk bld c.length) (hin : ioff + c.length + sA.slack c.length ≤ input.len)
    (hc : ∀ k < c.length, input.get (ioff + k) = seq c k)
    (hnB : nB = sA.outLen c.length) (okB : sB.inOk bld nB) (htmp : nB + sB.slack nB ≤ tmp.len)
    (hout : ooff + sB.outLen nB ≤ output.len)
    {α : Type} {k : Impl F × Buf F → Impl F × Buf F → Res α} {Q : α → Prop}
    (hk : ∀ a t b o mid, a.Inv sA (xs ++ c) → sA.Rel (xs ++ c) (ys ++ mid) → b.Inv sB (ys ++ mid) →
      sB.Rel (ys ++ mid) (zs ++ o.slice ooff (sB.outLen nB)) → iA.Evolves a → iB.Evolves b → o.len = output.len →
      o.addr = output.addr → (∀ j, j < ooff ∨ ooff + sB.outLen nB ≤ j → o.get j = output.get j) → Sat (k (a, t) (b, o)) Q) :
    Sat (do
      let p ← iA.processBlock bld st input ioff c.length tmp 0
      let q ← iB.processBlock bld st p.2 0 nB output ooff
      k p q) Q := by
  refine sat_bind (Impl.processBlock_sat hA okA hin hc (by omega)) ?_
  rintro ⟨a, t⟩ pa
  simp only
  have hl : (t.slice 0 nB).length = nB := by simp
  have := Impl.processBlock_sat (c := t.slice 0 nB) (bld := bld) (st := st) (input := t) (output := output) (ioff := 0)
    (ooff := ooff) hB (by rwa [hl]) (by rw [hl, pa.len]; simpa using htmp)
    (fun k hk => by rw [← Buf.slice_seq _ hk]) (by rwa [hl])
  rw [hl] at this
  refine sat_bind this ?_
  rintro ⟨b, o⟩ pb
  have he := pb.ext _ rB
  have hf := pb.frame
  rw [hl] at he hf
  refine hk a t b o (t.slice 0 nB) pa.inv ?_ pb.inv he pa.evolves pb.evolves pb.len pb.addr hf
  have := pa.ext _ rA
  rwa [← hnB] at this

/-- Three stages in sequence. -/
theorem casc3 {bld : Build} {st : Stack F} {sA sB sC : Stage F} {iA iB iC : Impl F} {xs ys zs ws c : List F}
    (hA : iA.Inv sA xs) (rA : sA.Rel xs ys) (hB : iB.Inv sB ys) (rB : sB.Rel ys zs)
    (hC : iC.Inv sC zs) (rC : sC.Rel zs ws)
    {input tmp tmp2 output : Buf F} {ioff ooff nB nC : Nat}
    (okA : sA.inOk bld c.length) (hin : ioff + c.length + sA.slack c.length ≤ input.len)
    (hc : ∀ k < c.length, input.get (ioff + k) = seq c k)
    (hnB : nB = sA.outLen c.length) (okB : sB.inOk bld nB) (htmp : nB + sB.slack nB ≤ tmp.len)
    (hnC : nC = sB.outLen nB) (okC : sC.inOk bld nC) (htmp2 : nC + sC.slack nC ≤ tmp2.len)
    (hout : ooff + sC.outLen nC ≤ output.len)
    {α : Type} {k : Impl F × Buf F → Impl F × Buf F → Impl F × Buf F → Res α} {Q : α → Prop}
    (hk : ∀ a t b t2 d o mid mid2, a.Inv sA (xs ++ c) → sA.Rel (xs ++ c) (ys ++ mid) → b.Inv sB (ys ++ mid) →
      sB.Rel (ys ++ mid) (zs ++ mid2) → d.Inv sC (zs ++ mid2) → sC.Rel (zs ++ mid2) (ws ++ o.slice ooff (sC.outLen nC)) →
      iA.Evolves a → iB.Evolves b → iC.Evolves d → o.len = output.len →
      o.addr = output.addr → (∀ j, j < ooff ∨ ooff + sC.outLen nC ≤ j → o.get j = output.get j) → Sat (k (a, t) (b, t2) (d, o)) Q) :
    Sat (do
      let p ← iA.processBlock bld st input ioff c.length tmp 0
      let q ← iB.processBlock bld st p.2 0 nB tmp2 0
      let w ← iC.processBlock bld st q.2 0 nC output ooff
      k p q w) Q := by
  refine sat_bind (Impl.processBlock_sat hA okA hin hc (by omega)) ?_
  rintro ⟨a, t⟩ pa
  simp only
  have hl : (t.slice 0 nB).length = nB := by simp
  have := Impl.processBlock_sat (c := t.slice 0 nB) (bld := bld) (st := st) (input := t) (output := tmp2) (ioff := 0)
    (ooff := 0) hB (by rwa [hl]) (by rw [hl, pa.len]; simpa using htmp)
    (fun k hk => by rw [← Buf.slice_seq _ hk]) (by rw [hl]; omega)
  rw [hl] at this
  refine sat_bind this ?_
  rintro ⟨b, t2⟩ pb
  simp only
  have hl2 : (t2.slice 0 nC).length = nC := by simp
  have := Impl.processBlock_sat (c := t2.slice 0 nC) (bld := bld) (st := st) (input := t2) (output := output) (ioff := 0)
    (ooff := ooff) hC (by rwa [hl2]) (by rw [hl2, pb.len]; simpa using htmp2)
    (fun k hk => by rw [← Buf.slice_seq _ hk]) (by rwa [hl2])
  rw [hl2] at this
  refine sat_bind this ?_
  rintro ⟨d, o⟩ pd
  have he := pd.ext _ rC
  have hf := pd.frame
  rw [hl2] at he hf
  refine hk a t b t2 d o (t.slice 0 nB) (t2.slice 0 nC) pa.inv ?_ pb.inv ?_ pd.inv he pa.evolves pb.evolves pd.evolves
    pd.len pd.addr hf
  · have := pa.ext _ rA
    rwa [← hnB] at this
  · have := pb.ext _ rB
    rwa [hl, ← hnC] at this

/-- Destructuring a two-stage cascade. -/
theorem ChainInv.two {ss : List (Stage F)} {p q : Option (Impl F)} {xs zs : List F} (h : ChainInv ss [p, q] xs zs) :
    ∃ sA sB a b ys, ss = [sA, sB] ∧ p = some a ∧ q = some b ∧ a.Inv sA xs ∧ sA.Rel xs ys ∧ b.Inv sB ys ∧
      sB.Rel ys zs := by
  match ss, p, q, h with
  | [sA, sB], some a, some b, ⟨ys, h1, h2, zs', h3, h4, h5⟩ =>
    have : zs = zs' := h5
    subst this
    exact ⟨sA, sB, a, b, ys, rfl, rfl, rfl, h1, h2, h3, h4⟩
  | [], _, _, h => exact h.elim
  | [_], some _, _, ⟨_, _, _, h⟩ => exact h.elim
  | [_], none, _, h => exact h.elim
  | _ :: _ :: _, none, _, h => exact h.elim
  | _ :: _ :: _, some _, none, ⟨_, _, _, h⟩ => exact h.elim
  | _ :: _ :: _ :: _, some _, some _, ⟨_, _, _, _, _, _, h⟩ => exact h.elim

/-- Destructuring a three-stage cascade. -/
theorem ChainInv.three {ss : List (Stage F)} {p q w : Option (Impl F)} {xs ws : List F}
    (h : ChainInv ss [p, q, w] xs ws) :
    ∃ sA sB sC a b d ys zs, ss = [sA, sB, sC] ∧ p = some a ∧ q = some b ∧ w = some d ∧ a.Inv sA xs ∧ sA.Rel xs ys ∧
      b.Inv sB ys ∧ sB.Rel ys zs ∧ d.Inv sC zs ∧ sC.Rel zs ws := by
  match ss, p, h with
  | [], _, h => exact h.elim
  | _ :: _, none, h => exact h.elim
  | sA :: ss, some a, ⟨ys, h1, h2, h3⟩ =>
    obtain ⟨sB, sC, b, d, zs, rfl, rfl, rfl, h4, h5, h6, h7⟩ := ChainInv.two h3
    exact ⟨sA, sB, sC, a, b, d, ys, zs, rfl, rfl, rfl, rfl, h1, h2, h4, h5, h6, h7⟩

/-- Destructuring a single stage. -/
theorem ChainInv.one {ss : List (Stage F)} {p : Option (Impl F)} {xs zs : List F} (h : ChainInv ss [p] xs zs) :
    ∃ sA a, ss = [sA] ∧ p = some a ∧ a.Inv sA xs ∧ sA.Rel xs zs := by
  match ss, p, h with
  | [], _, h => exact h.elim
  | _ :: _, none, h => exact h.elim
  | [sA], some a, ⟨ys, h1, h2, h3⟩ =>
    have : zs = ys := h3
    subst this
    exact ⟨sA, a, rfl, rfl, h1, h2⟩
  | _ :: _ :: _, some _, ⟨_, _, _, h⟩ => exact h.elim

/-- Number of output samples for `n` input samples. -/
def Resampler.outLen (r : Resampler F) (n : Nat) : Nat :=
  match r.mode with
  | .up => n * r.ratio
  | .down => n / r.ratio

/-- All stages have the direction of the resampler. -/
def DirOk (mode : Mode) (ss : List (Stage F)) : Prop := ∀ s ∈ ss, s.isUp = (mode == .up)

theorem loopBody_up_sat {bld : Build} {st : Stack F} {ss : List (Stage F)} {xs zs c : List F} {input : Buf F}
    {s : RLoop F} (hm : s.r.mode = .up) (hr : s.r.ratio = 4 ∨ s.r.ratio = 8) (hd : DirOk .up ss)
    (h : ChainInv ss s.r.path xs zs) (hlen : c.length = min 1024 s.n) (hpos : 0 < s.n)
    (hin : s.ioff + c.length ≤ input.len) (hc : ∀ k < c.length, input.get (s.ioff + k) = seq c k)
    (hout : s.ooff + s.r.outLen c.length ≤ s.output.len) :
    Sat (Resampler.loopBody bld st input s) (fun s' =>
      Resampler.Post ss s.r xs zs c s.output s.ooff (s.r.outLen c.length) s'.r s'.output ∧
      s'.n = s.n - c.length ∧ s'.ioff = s.ioff + c.length ∧ s'.ooff = s.ooff + s.r.outLen c.length) := by
  unfold Resampler.loopBody
  simp only [hm]
  rw [← hlen]
  simp only [Resampler.outLen, hm] at hout ⊢
  rcases hr with hr | hr
  · rw [if_pos hr]
    simp only [Resampler.path, hm, hr] at h
    rw [if_neg (by decide), if_neg (by decide), if_pos trivial] at h
    obtain ⟨sA, sB, a, b, ys, rfl, e2, e4, hA, rA, hB, rB⟩ := h.two
    have fA := Stage.up_facts (hd sA (by simp)) bld
    have fB := Stage.up_facts (hd sB (by simp)) bld
    rw [e2, e4]
    simp only [deref, pure_eq_ok, ok_bind]
    rw [hr] at hout
    refine casc2 (nB := c.length * 2) (tmp := ⟨st.tmpAddr, 1024 * 4, st.junk⟩) (output := s.output) (ooff := s.ooff) hA rA hB rB ((fA _).2.2 (by omega) (by omega)) (by rw [(fA _).2.1]; omega) hc
      (by rw [(fA _).1]; omega) ((fB _).2.2 (by omega) (by omega)) (by rw [(fB _).2.1]; simp only; omega)
      (by rw [(fB _).1]; omega) ?_
    intro a' t' b' o mid i1 r1 i2 r2 v1 v2 hl ha hf
    rw [(fB _).1, show 2 * (c.length * 2) = c.length * 4 by omega] at r2 hf
    refine sat_ok ⟨⟨?_, ?_, hl, ha, ?_⟩, rfl, rfl, ?_⟩
    · simp only [Resampler.path, hr]
      rw [if_neg (by decide), if_neg (by decide), if_pos trivial]
      exact ⟨_, i1, r1, _, i2, r2, rfl⟩
    · refine ⟨?_, ?_, OptEvolves.refl _, rfl, hm.symm, rfl, rfl, rfl⟩
      · rw [e2]; exact v1
      · rw [e4]; exact v2
    · rwa [hr]
    · simp only
      rw [hr, u32_of_lt (by omega)]
  · rw [if_neg (by omega)]
    simp only [Resampler.path, hm, hr] at h
    rw [if_neg (by decide), if_neg (by decide), if_neg (by decide)] at h
    obtain ⟨sA, sB, sC, a, b, d, ys, ws, rfl, e2, e4, e8, hA, rA, hB, rB, hC, rC⟩ := h.three
    have fA := Stage.up_facts (hd sA (by simp)) bld
    have fB := Stage.up_facts (hd sB (by simp)) bld
    have fC := Stage.up_facts (hd sC (by simp)) bld
    rw [e2, e4, e8]
    simp only [deref, pure_eq_ok, ok_bind]
    rw [hr] at hout
    refine casc3 (nB := c.length * 2) (nC := c.length * 4) (tmp := ⟨st.tmpAddr, 1024 * 4, st.junk⟩)
      (tmp2 := ⟨st.tmp2Addr, 1024 * 4, st.junk⟩) (output := s.output) (ooff := s.ooff) hA rA hB rB hC rC ((fA _).2.2 (by omega) (by omega)) (by rw [(fA _).2.1]; omega) hc
      (by rw [(fA _).1]; omega) ((fB _).2.2 (by omega) (by omega)) (by rw [(fB _).2.1]; simp only; omega)
      (by rw [(fB _).1]; omega) ((fC _).2.2 (by omega) (by omega)) (by rw [(fC _).2.1]; simp only; omega)
      (by rw [(fC _).1]; omega) ?_
    intro a' t' b' t2' d' o mid mid2 i1 r1 i2 r2 i3 r3 v1 v2 v3 hl ha hf
    rw [(fC _).1, show 2 * (c.length * 4) = c.length * 8 by omega] at r3 hf
    refine sat_ok ⟨⟨?_, ?_, hl, ha, ?_⟩, rfl, rfl, ?_⟩
    · simp only [Resampler.path, hr]
      rw [if_neg (by decide), if_neg (by decide), if_neg (by decide)]
      exact ⟨_, i1, r1, _, i2, r2, _, i3, r3, rfl⟩
    · refine ⟨?_, ?_, ?_, rfl, hm.symm, rfl, rfl, rfl⟩
      · rw [e2]; exact v1
      · rw [e4]; exact v2
      · rw [e8]; exact v3
    · rwa [hr]
    · simp only
      rw [hr, u32_of_lt (by omega)]

theorem loopBody_down_sat {bld : Build} {st : Stack F} {ss : List (Stage F)} {xs zs c : List F} {input : Buf F}
    {s : RLoop F} (hm : s.r.mode = .down) (hr : s.r.ratio = 4 ∨ s.r.ratio = 8) (hd : DirOk .down ss)
    (h : ChainInv ss s.r.path xs zs) (hlen : c.length = min 1024 s.n) (hpos : 0 < s.n) (hmul : s.n % s.r.ratio = 0)
    (hin : ∀ s0 ∈ ss, s.ioff + c.length + s0.slack c.length ≤ input.len)
    (hc : ∀ k < c.length, input.get (s.ioff + k) = seq c k)
    (hout : s.ooff + s.r.outLen c.length ≤ s.output.len) :
    Sat (Resampler.loopBody bld st input s) (fun s' =>
      Resampler.Post ss s.r xs zs c s.output s.ooff (s.r.outLen c.length) s'.r s'.output ∧
      s'.n = s.n - c.length ∧ s'.ioff = s.ioff + c.length ∧ s'.ooff = s.ooff + s.r.outLen c.length) := by
  unfold Resampler.loopBody
  simp only [hm]
  rw [← hlen]
  simp only [Resampler.outLen, hm] at hout ⊢
  rcases hr with hr | hr
  · rw [if_pos hr]
    simp only [Resampler.path, hm, hr] at h
    rw [if_neg (by decide), if_neg (by decide), if_pos trivial] at h
    obtain ⟨sA, sB, a, b, ys, rfl, e4, e2, hA, rA, hB, rB⟩ := h.two
    have fA := Stage.down_facts (hd sA (by simp)) bld
    have fB := Stage.down_facts (hd sB (by simp)) bld
    have hinA := hin sA (by simp)
    rw [e2, e4]
    simp only [deref, pure_eq_ok, ok_bind]
    rw [hr] at hout hmul
    have hlB := (fB (c.length / 2)).2.1
    refine casc2 (nB := c.length / 2) (tmp := ⟨st.tmpAddr, 1024 * 4, st.junk⟩) (output := s.output) (ooff := s.ooff) hA rA hB rB ((fA _).2.2 (by omega) (by omega)) hinA hc
      (by rw [(fA _).1]) ((fB _).2.2 (by omega) (by omega)) (by simp only; omega)
      (by rw [(fB _).1]; omega) ?_
    intro a' t' b' o mid i1 r1 i2 r2 v1 v2 hl ha hf
    rw [(fB _).1, show c.length / 2 / 2 = c.length / 4 by omega] at r2 hf
    refine sat_ok ⟨⟨?_, ?_, hl, ha, ?_⟩, rfl, rfl, ?_⟩
    · simp only [Resampler.path, hr]
      rw [if_neg (by decide), if_neg (by decide), if_pos trivial]
      exact ⟨_, i1, r1, _, i2, r2, rfl⟩
    · refine ⟨?_, ?_, OptEvolves.refl _, rfl, hm.symm, rfl, rfl, rfl⟩
      · rw [e2]; exact v2
      · rw [e4]; exact v1
    · rwa [hr]
    · rfl
  · rw [if_neg (by omega)]
    simp only [Resampler.path, hm, hr] at h
    rw [if_neg (by decide), if_neg (by decide), if_neg (by decide)] at h
    obtain ⟨sA, sB, sC, a, b, d, ys, ws, rfl, e8, e4, e2, hA, rA, hB, rB, hC, rC⟩ := h.three
    have fA := Stage.down_facts (hd sA (by simp)) bld
    have fB := Stage.down_facts (hd sB (by simp)) bld
    have fC := Stage.down_facts (hd sC (by simp)) bld
    have hinA := hin sA (by simp)
    rw [e2, e4, e8]
    simp only [deref, pure_eq_ok, ok_bind]
    rw [hr] at hout hmul
    have hlB := (fB (c.length / 2)).2.1
    have hlC := (fC (c.length / 4)).2.1
    refine casc3 (nB := c.length / 2) (nC := c.length / 4) (tmp := ⟨st.tmpAddr, 1024 * 4, st.junk⟩)
      (tmp2 := ⟨st.tmp2Addr, 1024 * 4, st.junk⟩) (output := s.output) (ooff := s.ooff) hA rA hB rB hC rC ((fA _).2.2 (by omega) (by omega)) hinA hc
      (by rw [(fA _).1]) ((fB _).2.2 (by omega) (by omega)) (by simp only; omega)
      (by rw [(fB _).1]; omega) ((fC _).2.2 (by omega) (by omega)) (by simp only; omega)
      (by rw [(fC _).1]; omega) ?_
    intro a' t' b' t2' d' o mid mid2 i1 r1 i2 r2 i3 r3 v1 v2 v3 hl ha hf
    rw [(fC _).1, show c.length / 4 / 2 = c.length / 8 by omega] at r3 hf
    refine sat_ok ⟨⟨?_, ?_, hl, ha, ?_⟩, rfl, rfl, ?_⟩
    · simp only [Resampler.path, hr]
      rw [if_neg (by decide), if_neg (by decide), if_neg (by decide)]
      exact ⟨_, i1, r1, _, i2, r2, _, i3, r3, rfl⟩
    · refine ⟨?_, ?_, ?_, rfl, hm.symm, rfl, rfl, rfl⟩
      · rw [e2]; exact v3
      · rw [e4]; exact v2
      · rw [e8]; exact v1
    · rwa [hr]
    · rfl

/-- Block sizes and buffer sizes for which a call of `process_block` is fine (`ss`: the stages). -/
structure Resampler.CallOk (bld : Build) (r : Resampler F) (ss : List (Stage F)) (n ilen olen : Nat) : Prop where
  uint : n < 2 ^ 32
  input : n ≤ ilen
  slack : ∀ s ∈ ss, n + s.slack n ≤ ilen
  output : r.outLen n ≤ olen
  mul : r.mode = .down → n % r.ratio = 0
  two : r.ratio = 2 → ∀ s ∈ ss, s.inOk bld n

theorem Buf.slice_append {o o' : Buf F} {a b : Nat} (h : ∀ j < a, o'.get j = o.get j) :
    o.slice 0 a ++ o'.slice a b = o'.slice 0 (a + b) := by
  unfold Buf.slice
  rw [List.range_add, List.map_append, List.map_map]
  congr 1
  · apply List.map_congr_left
    intro i hi
    simp only [Nat.zero_add]
    exact (h i (by simpa using hi)).symm
  · apply List.map_congr_left
    intro i hi
    simp

/-- Invariant of the loop over blocks of 1024 samples (ratios 4 and 8) after some iterations. -/
def Resampler.LoopInv (ss : List (Stage F)) (r : Resampler F) (xs zs c : List F) (output : Buf F) (s : RLoop F) : Prop :=
  ∃ m ≤ c.length, s.n = c.length - m ∧ s.ioff = m ∧ s.ooff = r.outLen m ∧ (r.mode = .down → m % r.ratio = 0) ∧
    Resampler.Post ss r xs zs (c.take m) output 0 (r.outLen m) s.r s.output

theorem Resampler.LoopInv.init {ss : List (Stage F)} {r : Resampler F} {xs zs c : List F} {output : Buf F} (h : ChainInv ss r.path xs zs) :
    Resampler.LoopInv ss r xs zs c output { r := r, n := c.length, ioff := 0, output := output, ooff := 0 } := by
  have : r.outLen 0 = 0 := by unfold Resampler.outLen; cases r.mode <;> simp
  refine ⟨0, Nat.zero_le _, rfl, rfl, this.symm, fun _ => by simp, ?_, Resampler.Evolves.refl r, rfl, rfl, fun _ _ => rfl⟩
  rw [this]
  simpa [Buf.slice] using h

theorem Resampler.LoopInv.step {bld : Build} {st : Stack F} {ss : List (Stage F)} {r : Resampler F} {xs zs c : List F}
    {input output : Buf F} (hr : r.ratio = 4 ∨ r.ratio = 8) (hd : DirOk r.mode ss)
    (hok : r.CallOk bld ss c.length input.len output.len) (hc : ∀ k < c.length, input.get k = seq c k) {s : RLoop F}
    (h : Resampler.LoopInv ss r xs zs c output s) (hcond : s.n ≠ 0) :
    Sat (Resampler.loopBody bld st input s) (fun s' => Resampler.LoopInv ss r xs zs c output s' ∧ s'.n < s.n) := by
  have hout := hok.output
  have hil := hok.input
  obtain ⟨m, hm, hn, hio, hoo, hmod, hP⟩ := h
  have hmode := hP.evolves.mode
  have hratio := hP.evolves.ratio
  have hlen : ((c.drop m).take (min 1024 s.n)).length = min 1024 s.n := by
    simp; omega
  have hget : ∀ k < ((c.drop m).take (min 1024 s.n)).length,
      input.get (s.ioff + k) = seq ((c.drop m).take (min 1024 s.n)) k := by
    intro k hk
    rw [hlen] at hk
    rw [hio, hc _ (by omega)]
    simp only [seq, List.getD_eq_getElem?_getD]
    rw [List.getElem?_take, if_pos hk, List.getElem?_drop]
  have hol : r.outLen m + r.outLen (min 1024 s.n) = r.outLen (m + min 1024 s.n) ∧
      r.outLen (m + min 1024 s.n) ≤ r.outLen c.length := by
    unfold Resampler.outLen
    cases hmo : r.mode
    · simp only
      exact ⟨(Nat.add_mul _ _ _).symm, Nat.mul_le_mul_right _ (by omega)⟩
    · simp only
      have h1 := hmod hmo
      have h2 := hok.mul hmo
      rcases hr with hr | hr <;> rw [hr] at h1 h2 ⊢ <;> omega
  have hsol : s.r.outLen (min 1024 s.n) = r.outLen (min 1024 s.n) := by
    unfold Resampler.outLen
    rw [hmode, hratio]
  have key : Sat (Resampler.loopBody bld st input s) (fun s' =>
      Resampler.Post ss s.r (xs ++ c.take m) (zs ++ s.output.slice 0 (r.outLen m))
        ((c.drop m).take (min 1024 s.n)) s.output s.ooff (s.r.outLen (min 1024 s.n)) s'.r s'.output ∧
      s'.n = s.n - min 1024 s.n ∧ s'.ioff = s.ioff + min 1024 s.n ∧
      s'.ooff = s.ooff + s.r.outLen (min 1024 s.n)) := by
    cases hmo : r.mode
    · rw [hmo] at hd
      have := loopBody_up_sat (bld := bld) (st := st) (s := s) (input := input) (c := (c.drop m).take (min 1024 s.n))
        (hmode.trans hmo) (by rw [hratio]; exact hr) hd hP.inv hlen (by omega) (by rw [hlen]; omega) hget
        (by rw [hlen, hsol, hP.len]; omega)
      rwa [hlen] at this
    · rw [hmo] at hd
      have hmul := hok.mul hmo
      have hmod' := hmod hmo
      have := loopBody_down_sat (bld := bld) (st := st) (s := s) (input := input)
        (c := (c.drop m).take (min 1024 s.n))
        (hmode.trans hmo) (by rw [hratio]; exact hr) hd hP.inv hlen (by omega)
        (by rw [hratio, hn]; rcases hr with hr | hr <;> rw [hr] at hmod' hmul ⊢ <;> omega)
        (by
          intro s0 hs0
          have h1 := hok.slack s0 hs0
          have h2 : s0.slack (min 1024 s.n) ≤ s0.slack c.length := by
            unfold Stage.slack
            split
            · rw [if_neg (by omega), if_neg (by omega)]; exact Nat.le_refl _
            · exact Nat.le_refl _
          rw [hlen]
          omega)
        hget (by rw [hlen, hsol, hP.len]; omega)
      rwa [hlen] at this
  refine sat_mono key ?_
  rintro s' ⟨hP', hn', hio', hoo'⟩
  rw [hsol] at hP' hoo'
  refine ⟨⟨m + min 1024 s.n, by omega, by omega, by omega, by omega, ?_, ?_⟩, by omega⟩
  · intro hmo
    have h1 := hmod hmo
    have h2 := hok.mul hmo
    rcases hr with hr | hr <;> rw [hr] at h1 h2 ⊢ <;> omega
  · have hinv := hP'.inv
    rw [List.append_assoc, List.append_assoc, ← List.take_add, hoo,
      Buf.slice_append fun j hj => hP'.frame j (Or.inl (by omega)), hol.1] at hinv
    refine ⟨hinv, hP.evolves.trans hP'.evolves, hP'.len.trans hP.len, hP'.addr.trans hP.addr, ?_⟩
    intro j hj
    rw [hP'.frame j (by omega), hP.frame j (by omega)]

/-- **One call of `Resampler2::process_block`** for ratio 1, 2, 4, 8. -/
theorem Resampler.processBlock_sat {bld : Build} {st : Stack F} {ss : List (Stage F)} {r : Resampler F}
    {xs zs c : List F} {input output : Buf F} (hr : r.ratio = 1 ∨ r.ratio = 2 ∨ r.ratio = 4 ∨ r.ratio = 8)
    (hd : DirOk r.mode ss) (h : ChainInv ss r.path xs zs)
    (hok : r.CallOk bld ss c.length input.len output.len) (hc : ∀ k < c.length, input.get k = seq c k) :
    Sat (r.processBlock bld st input c.length output) (fun q =>
      Resampler.Post ss r xs zs c output 0 (r.outLen c.length) q.1 q.2) := by
  have hout := hok.output
  have hil := hok.input
  unfold Resampler.processBlock
  rcases hr with hr | hr | hr
  · rw [if_neg (by omega), if_pos hr]
    have hol : r.outLen c.length = c.length := by
      unfold Resampler.outLen; cases r.mode <;> simp [hr]
    rw [hol] at hout ⊢
    refine sat_bind (copyN_sat (src := input) (dst := output) (soff := 0) (doff := 0) (by omega) (by omega)) ?_
    rintro o ⟨ol, oa, og, of⟩
    have hp : r.path = [] := by
      unfold Resampler.path; cases r.mode <;> simp [hr]
    refine sat_ok ⟨?_, Resampler.Evolves.refl r, ol, oa, fun j hj => of j (by omega)⟩
    rw [hp] at h ⊢
    have hs : o.slice 0 c.length = c := by
      apply List.ext_getElem?
      intro i
      by_cases hi : i < c.length
      · have := og i hi
        simp only [Nat.zero_add, hc i hi, seq] at this
        simp [Buf.slice, hi, this]
      · rw [List.getElem?_eq_none (by simpa using hi), List.getElem?_eq_none (by omega)]
    rw [hs]
    match ss, h with
    | [], h =>
      have : zs = xs := h
      subst this
      exact rfl
  · rw [if_pos hr]
    have hp : r.path = [r.implX2] := by
      unfold Resampler.path; cases r.mode <;> simp [hr]
    rw [hp] at h
    obtain ⟨sA, a, rfl, e2, hA, rA⟩ := h.one
    have hol : r.outLen c.length = sA.outLen c.length := by
      have := hd sA (by simp)
      unfold Resampler.outLen
      cases hmode : r.mode
      · rw [hmode] at this
        rw [(Stage.up_facts this bld _).1, hr]
        simp only; omega
      · rw [hmode] at this
        rw [(Stage.down_facts this bld _).1, hr]
    rw [hol] at hout ⊢
    rw [e2]
    simp only [deref, pure_eq_ok, ok_bind]
    refine sat_bind (Impl.processBlock_sat hA (hok.two hr sA (by simp)) ?_
      (by simpa using hc) (by simpa using hout)) ?_
    · have := hok.slack sA (by simp)
      omega
    · rintro ⟨b, o⟩ pb
      refine sat_ok ⟨?_, ⟨?_, OptEvolves.refl _, OptEvolves.refl _, rfl, rfl, rfl, rfl, rfl⟩, pb.len, pb.addr, pb.frame⟩
      · have : ({ r with implX2 := some b } : Resampler F).path = [some b] := by
          unfold Resampler.path; cases r.mode <;> simp [hr]
        rw [this]
        exact ⟨_, pb.inv, pb.ext _ rA, rfl⟩
      · rw [e2]; exact pb.evolves
  · rw [if_neg (by omega), if_neg (by omega)]
    refine sat_bind (sat_whileF (Resampler.LoopInv ss r xs zs c output) (fun s => s.n) (Resampler.LoopInv.init h) (Nat.le_refl _)
      fun s hs hcond => hs.step hr hd hok hc (by simpa using hcond)) ?_
    · rintro s ⟨⟨m, hm, hn, hio, hoo, hmod, hP⟩, hcond⟩
      simp at hcond
      obtain rfl : m = c.length := by omega
      rw [List.take_length] at hP
      exact sat_ok hP

end Panda
