import Verif.Proofs.Hoare
import Verif.Model.Session

/-!
# Facts about every successful run, whatever the arguments

Partial correctness: if a function returns at all, the configuration of the object is unchanged. No assumption on
buffers, sizes or the state.
-/

set_option linter.unusedSectionVars false

namespace Panda

variable {F : Type} [Zero F] [One F] [Add F] [Sub F] [Mul F] [Sample F]

theorem bind_ok_iff {α β : Type} {r : Res α} {f : α → Res β} {b : β} :
    (r >>= f) = .ok b ↔ ∃ a, r = .ok a ∧ f a = .ok b := by
  cases r with
  | ok a => simp
  | error e => simp

theorem forN_inv {σ : Type} {body : Nat → σ → Res σ} (I : σ → Prop)
    (h : ∀ i s s', I s → body i s = .ok s' → I s') {n : Nat} {s s' : σ} (h0 : I s) (hr : forN body n s = .ok s') : I s' := by
  induction n generalizing s' with
  | zero => cases hr; exact h0
  | succ n ih =>
    obtain ⟨a, ha, hb⟩ := bind_ok_iff.1 hr
    exact h n a s' (ih ha) hb

theorem whileF_inv {σ : Type} {cond : σ → Bool} {body : σ → Res σ} (I : σ → Prop)
    (h : ∀ s s', I s → body s = .ok s' → I s') {fuel : Nat} {s s' : σ} (h0 : I s)
    (hr : whileF cond body fuel s = .ok s') : I s' := by
  induction fuel generalizing s with
  | zero =>
    unfold whileF at hr
    split at hr
    · cases hr
    · cases hr; exact h0
  | succ n ih =>
    unfold whileF at hr
    split at hr
    · obtain ⟨a, ha, hb⟩ := bind_ok_iff.1 hr
      exact ih (h s a h0 ha) hb
    · cases hr; exact h0

/-- SameCfg template arguments and coefficients. -/
def Up2.SameCfg (a b : Up2 F) : Prop :=
  b.order = a.order ∧ b.useSse = a.useSse ∧ b.taps = a.taps ∧ b.sseTaps = a.sseTaps

def Down2.SameCfg (a b : Down2 F) : Prop :=
  b.order = a.order ∧ b.useSse = a.useSse ∧ b.taps = a.taps ∧ b.sseTaps = a.sseTaps

def FpuFilter.SameCfg (a b : FpuFilter F) : Prop := b.nbrCoefs = a.nbrCoefs ∧ b.coef = a.coef

def SseFilter.SameCfg (a b : SseFilter F) : Prop := b.nbrCoefs = a.nbrCoefs ∧ b.coef = a.coef ∧ b.addr = a.addr

/-- SameCfg class, template arguments, coefficients and delay. -/
def Impl.SameCfg : Impl F → Impl F → Prop
  | .firUp a, .firUp b => a.SameCfg b
  | .firDown a, .firDown b => a.SameCfg b
  | .iirUp a d, .iirUp b e => a.SameCfg b ∧ d = e
  | .iirDown a d, .iirDown b e => a.SameCfg b ∧ d = e
  | .iirUpSse a d, .iirUpSse b e => a.SameCfg b ∧ d = e
  | .iirDownSse a d, .iirDownSse b e => a.SameCfg b ∧ d = e
  | _, _ => False

theorem Up2.processBlock_same {u u' : Up2 F} {input : Buf F} {ioff n : Nat} {output o : Buf F} {ooff : Nat}
    (h : u.processBlock input ioff n output ooff = .ok (u', o)) : u.SameCfg u' := by
  unfold Up2.processBlock at h
  obtain ⟨_, -, h⟩ := bind_ok_iff.1 h
  obtain ⟨_, -, h⟩ := bind_ok_iff.1 h
  split at h
  · obtain ⟨_, -, h⟩ := bind_ok_iff.1 h
    obtain ⟨_, -, h⟩ := bind_ok_iff.1 h
    cases h; exact ⟨rfl, rfl, rfl, rfl⟩
  · obtain ⟨_, -, h⟩ := bind_ok_iff.1 h
    cases h; exact ⟨rfl, rfl, rfl, rfl⟩

theorem Down2.loopBody_same {st : Stack F} {input : Buf F} {s s' : DownLoop F}
    (h : Down2.loopBody st input s = .ok s') : s.d.SameCfg s'.d := by
  unfold Down2.loopBody at h
  obtain ⟨_, -, h⟩ := bind_ok_iff.1 h
  obtain ⟨_, -, h⟩ := bind_ok_iff.1 h
  obtain ⟨_, -, h⟩ := bind_ok_iff.1 h
  obtain ⟨_, -, h⟩ := bind_ok_iff.1 h
  obtain ⟨_, -, h⟩ := bind_ok_iff.1 h
  cases h; exact ⟨rfl, rfl, rfl, rfl⟩

theorem Down2.SameCfg.trans {a b c : Down2 F} (h : a.SameCfg b) (h' : b.SameCfg c) : a.SameCfg c :=
  ⟨h'.1.trans h.1, h'.2.1.trans h.2.1, h'.2.2.1.trans h.2.2.1, h'.2.2.2.trans h.2.2.2⟩

theorem Down2.processBlock_same {st : Stack F} {d d' : Down2 F} {input : Buf F} {ioff n : Nat} {output o : Buf F}
    {ooff : Nat} (h : d.processBlock st input ioff n output ooff = .ok (d', o)) : d.SameCfg d' := by
  unfold Down2.processBlock at h
  split at h
  · cases h; exact ⟨rfl, rfl, rfl, rfl⟩
  · obtain ⟨s, hs, h⟩ := bind_ok_iff.1 h
    cases h
    exact whileF_inv (fun s => d.SameCfg s.d) (fun s s' h1 h2 => h1.trans (Down2.loopBody_same h2))
      ⟨rfl, rfl, rfl, rfl⟩ hs

theorem FpuFilter.SameCfg.trans {a b c : FpuFilter F} (h : a.SameCfg b) (h' : b.SameCfg c) : a.SameCfg c :=
  ⟨h'.1.trans h.1, h'.2.trans h.2⟩

theorem SseFilter.SameCfg.trans {a b c : SseFilter F} (h : a.SameCfg b) (h' : b.SameCfg c) : a.SameCfg c :=
  ⟨h'.1.trans h.1, h'.2.1.trans h.2.1, h'.2.2.trans h.2.2⟩

theorem FpuFilter.upBlock_same {bld : Build} {f f' : FpuFilter F} {input : Buf F} {ioff n : Nat} {output o : Buf F}
    {ooff : Nat} (h : f.upBlock bld input ioff n output ooff = .ok (f', o)) : f.SameCfg f' := by
  unfold FpuFilter.upBlock at h
  obtain ⟨_, -, h⟩ := bind_ok_iff.1 h
  refine forN_inv (fun s : FpuFilter F × Buf F => f.SameCfg s.1) ?_ ⟨rfl, rfl⟩ h
  intro i s s' h1 h2
  obtain ⟨_, -, h2⟩ := bind_ok_iff.1 h2
  obtain ⟨⟨_, _, g⟩, hg, h2⟩ := bind_ok_iff.1 h2
  obtain ⟨_, -, h2⟩ := bind_ok_iff.1 h2
  obtain ⟨_, -, h2⟩ := bind_ok_iff.1 h2
  cases h2
  unfold FpuFilter.upSample at hg
  obtain ⟨_, -, hg⟩ := bind_ok_iff.1 hg
  cases hg
  exact h1

theorem FpuFilter.downBlock_same {bld : Build} {f f' : FpuFilter F} {input : Buf F} {ioff n : Nat} {output o : Buf F}
    {ooff : Nat} (h : f.downBlock bld input ioff n output ooff = .ok (f', o)) : f.SameCfg f' := by
  unfold FpuFilter.downBlock at h
  obtain ⟨_, -, h⟩ := bind_ok_iff.1 h
  refine forN_inv (fun s : FpuFilter F × Buf F => f.SameCfg s.1) ?_ ⟨rfl, rfl⟩ h
  intro i s s' h1 h2
  obtain ⟨_, -, h2⟩ := bind_ok_iff.1 h2
  obtain ⟨_, -, h2⟩ := bind_ok_iff.1 h2
  obtain ⟨⟨_, g⟩, hg, h2⟩ := bind_ok_iff.1 h2
  obtain ⟨_, -, h2⟩ := bind_ok_iff.1 h2
  cases h2
  unfold FpuFilter.downSample at hg
  obtain ⟨_, -, hg⟩ := bind_ok_iff.1 hg
  cases hg
  exact h1

theorem SseFilter.upBlock_same {bld : Build} {f f' : SseFilter F} {input : Buf F} {ioff n : Nat} {output o : Buf F}
    {ooff : Nat} (h : f.upBlock bld input ioff n output ooff = .ok (f', o)) : f.SameCfg f' := by
  unfold SseFilter.upBlock at h
  obtain ⟨_, -, h⟩ := bind_ok_iff.1 h
  refine forN_inv (fun s : SseFilter F × Buf F => f.SameCfg s.1) ?_ ⟨rfl, rfl, rfl⟩ h
  intro i s s' h1 h2
  obtain ⟨_, -, h2⟩ := bind_ok_iff.1 h2
  obtain ⟨_, -, h2⟩ := bind_ok_iff.1 h2
  obtain ⟨_, -, h2⟩ := bind_ok_iff.1 h2
  obtain ⟨_, -, h2⟩ := bind_ok_iff.1 h2
  cases h2
  exact h1

theorem SseFilter.downBlock_same {bld : Build} {f f' : SseFilter F} {input : Buf F} {ioff n : Nat} {output o : Buf F}
    {ooff : Nat} (h : f.downBlock bld input ioff n output ooff = .ok (f', o)) : f.SameCfg f' := by
  unfold SseFilter.downBlock at h
  obtain ⟨_, -, h⟩ := bind_ok_iff.1 h
  refine forN_inv (fun s : SseFilter F × Buf F => f.SameCfg s.1) ?_ ⟨rfl, rfl, rfl⟩ h
  intro i s s' h1 h2
  obtain ⟨_, -, h2⟩ := bind_ok_iff.1 h2
  obtain ⟨_, -, h2⟩ := bind_ok_iff.1 h2
  obtain ⟨_, -, h2⟩ := bind_ok_iff.1 h2
  cases h2
  exact h1

theorem Impl.processBlock_same {bld : Build} {st : Stack F} {i i' : Impl F} {input : Buf F} {ioff n : Nat}
    {output o : Buf F} {ooff : Nat} (h : i.processBlock bld st input ioff n output ooff = .ok (i', o)) : i.SameCfg i' := by
  unfold Impl.processBlock at h
  cases i <;> obtain ⟨⟨_, _⟩, hq, h⟩ := bind_ok_iff.1 h <;> cases h
  · exact Up2.processBlock_same hq
  · exact Down2.processBlock_same hq
  · exact ⟨FpuFilter.upBlock_same hq, rfl⟩
  · exact ⟨FpuFilter.downBlock_same hq, rfl⟩
  · exact ⟨SseFilter.upBlock_same hq, rfl⟩
  · exact ⟨SseFilter.downBlock_same hq, rfl⟩

theorem Impl.reset_same {i i' : Impl F} (h : i.reset = .ok i') : i.SameCfg i' := by
  unfold Impl.reset at h
  cases i
  · cases h; exact ⟨rfl, rfl, rfl, rfl⟩
  · cases h; exact ⟨rfl, rfl, rfl, rfl⟩
  all_goals
    obtain ⟨f, hf, h⟩ := bind_ok_iff.1 h
    cases h
    obtain ⟨_, -, hf⟩ := bind_ok_iff.1 hf
    cases hf
  · exact ⟨⟨rfl, rfl⟩, rfl⟩
  · exact ⟨⟨rfl, rfl⟩, rfl⟩
  · exact ⟨⟨rfl, rfl, rfl⟩, rfl⟩
  · exact ⟨⟨rfl, rfl, rfl⟩, rfl⟩

theorem Impl.SameCfg.refl (i : Impl F) : i.SameCfg i := by
  cases i <;> simp [Impl.SameCfg, Up2.SameCfg, Down2.SameCfg, FpuFilter.SameCfg, SseFilter.SameCfg]

theorem Impl.SameCfg.trans {a b c : Impl F} (h : a.SameCfg b) (h' : b.SameCfg c) : a.SameCfg c := by
  cases a <;> cases b <;> first | exact h.elim | skip
  all_goals cases c <;> first | exact h'.elim | skip
  · exact ⟨h'.1.trans h.1, h'.2.1.trans h.2.1, h'.2.2.1.trans h.2.2.1, h'.2.2.2.trans h.2.2.2⟩
  · exact Down2.SameCfg.trans h h'
  · exact ⟨FpuFilter.SameCfg.trans h.1 h'.1, h.2.trans h'.2⟩
  · exact ⟨FpuFilter.SameCfg.trans h.1 h'.1, h.2.trans h'.2⟩
  · exact ⟨SseFilter.SameCfg.trans h.1 h'.1, h.2.trans h'.2⟩
  · exact ⟨SseFilter.SameCfg.trans h.1 h'.1, h.2.trans h'.2⟩

theorem Impl.SameCfg.order {a b : Impl F} (h : a.SameCfg b) : b.order = a.order := by
  cases a <;> cases b <;> first | exact h.elim | skip
  all_goals simp_all [Impl.order, Impl.SameCfg, Up2.SameCfg, Down2.SameCfg, FpuFilter.SameCfg, SseFilter.SameCfg]

theorem Impl.SameCfg.delay {a b : Impl F} (h : a.SameCfg b) : b.delay = a.delay := by
  cases a <;> cases b <;> first | exact h.elim | skip
  all_goals simp_all [Impl.delay, Impl.SameCfg, Up2.SameCfg, Down2.SameCfg, FpuFilter.SameCfg, SseFilter.SameCfg]

theorem Impl.SameCfg.sseEnabled {a b : Impl F} (h : a.SameCfg b) : b.sseEnabled = a.sseEnabled := by
  cases a <;> cases b <;> first | exact h.elim | skip
  all_goals simp_all [Impl.sseEnabled, Impl.SameCfg, Up2.SameCfg, Down2.SameCfg, FpuFilter.SameCfg, SseFilter.SameCfg]

/-- Equal or both absent. -/
def OptSameCfg (p q : Option (Impl F)) : Prop :=
  match p, q with
  | none, none => True
  | some a, some b => a.SameCfg b
  | _, _ => False

theorem OptSameCfg.refl (p : Option (Impl F)) : OptSameCfg p p := by
  cases p
  · trivial
  · exact Impl.SameCfg.refl _

theorem OptSameCfg.trans {p q s : Option (Impl F)} (h : OptSameCfg p q) (h' : OptSameCfg q s) : OptSameCfg p s := by
  cases p <;> cases q <;> cases s <;> first | exact h.elim | exact h'.elim | trivial | exact Impl.SameCfg.trans h h'

/-- The same object up to the filter memories. -/
structure Resampler.SameCfg (a b : Resampler F) : Prop where
  x2 : OptSameCfg a.implX2 b.implX2
  x4 : OptSameCfg a.implX4 b.implX4
  x8 : OptSameCfg a.implX8 b.implX8
  ratio : b.ratio = a.ratio
  mode : b.mode = a.mode

theorem Resampler.SameCfg.refl (a : Resampler F) : a.SameCfg a := ⟨.refl _, .refl _, .refl _, rfl, rfl⟩

theorem Resampler.SameCfg.trans {a b c : Resampler F} (h : a.SameCfg b) (h' : b.SameCfg c) : a.SameCfg c :=
  ⟨h.x2.trans h'.x2, h.x4.trans h'.x4, h.x8.trans h'.x8, h'.ratio.trans h.ratio, h'.mode.trans h.mode⟩

theorem stage_same {bld : Build} {st : Stack F} {p : Option (Impl F)} {i i' : Impl F} {input : Buf F} {ioff n : Nat}
    {output o : Buf F} {ooff : Nat} (hp : deref p = .ok i)
    (h : i.processBlock bld st input ioff n output ooff = .ok (i', o)) : OptSameCfg p (some i') := by
  cases p with
  | none => cases hp
  | some j =>
    cases hp
    exact Impl.processBlock_same h

theorem Resampler.loopBody_same {bld : Build} {st : Stack F} {input : Buf F} {s s' : RLoop F}
    (h : Resampler.loopBody bld st input s = .ok s') : s.r.SameCfg s'.r := by
  unfold Resampler.loopBody at h
  simp only at h
  split at h <;> split at h
  · obtain ⟨_, d2, h⟩ := bind_ok_iff.1 h
    obtain ⟨⟨_, _⟩, p2, h⟩ := bind_ok_iff.1 h
    obtain ⟨_, d4, h⟩ := bind_ok_iff.1 h
    obtain ⟨⟨_, _⟩, p4, h⟩ := bind_ok_iff.1 h
    cases h
    exact ⟨stage_same d2 p2, stage_same d4 p4, .refl _, rfl, rfl⟩
  · obtain ⟨_, d2, h⟩ := bind_ok_iff.1 h
    obtain ⟨⟨_, _⟩, p2, h⟩ := bind_ok_iff.1 h
    obtain ⟨_, d4, h⟩ := bind_ok_iff.1 h
    obtain ⟨⟨_, _⟩, p4, h⟩ := bind_ok_iff.1 h
    obtain ⟨_, d8, h⟩ := bind_ok_iff.1 h
    obtain ⟨⟨_, _⟩, p8, h⟩ := bind_ok_iff.1 h
    cases h
    exact ⟨stage_same d2 p2, stage_same d4 p4, stage_same d8 p8, rfl, rfl⟩
  · obtain ⟨_, d2, h⟩ := bind_ok_iff.1 h
    obtain ⟨⟨_, _⟩, p2, h⟩ := bind_ok_iff.1 h
    obtain ⟨_, d4, h⟩ := bind_ok_iff.1 h
    obtain ⟨⟨_, _⟩, p4, h⟩ := bind_ok_iff.1 h
    cases h
    exact ⟨stage_same d4 p4, stage_same d2 p2, .refl _, rfl, rfl⟩
  · obtain ⟨_, d2, h⟩ := bind_ok_iff.1 h
    obtain ⟨⟨_, _⟩, p2, h⟩ := bind_ok_iff.1 h
    obtain ⟨_, d4, h⟩ := bind_ok_iff.1 h
    obtain ⟨⟨_, _⟩, p4, h⟩ := bind_ok_iff.1 h
    obtain ⟨_, d8, h⟩ := bind_ok_iff.1 h
    obtain ⟨⟨_, _⟩, p8, h⟩ := bind_ok_iff.1 h
    cases h
    exact ⟨stage_same d8 p8, stage_same d4 p4, stage_same d2 p2, rfl, rfl⟩

theorem Resampler.processBlock_same {bld : Build} {st : Stack F} {r r' : Resampler F} {input : Buf F} {n : Nat}
    {output o : Buf F} (h : r.processBlock bld st input n output = .ok (r', o)) : r.SameCfg r' := by
  unfold Resampler.processBlock at h
  split at h
  · obtain ⟨_, d2, h⟩ := bind_ok_iff.1 h
    obtain ⟨⟨_, _⟩, p2, h⟩ := bind_ok_iff.1 h
    cases h
    exact ⟨stage_same d2 p2, .refl _, .refl _, rfl, rfl⟩
  · split at h
    · obtain ⟨_, _, h⟩ := bind_ok_iff.1 h
      cases h
      exact .refl _
    · obtain ⟨s, hs, h⟩ := bind_ok_iff.1 h
      cases h
      exact whileF_inv (fun s => r.SameCfg s.r) (fun s s' h1 h2 => h1.trans (Resampler.loopBody_same h2)) (.refl r) hs

theorem resetStage_same {c : Bool} {p q : Option (Impl F)} (h : resetStage c p = .ok q) : OptSameCfg p q := by
  unfold resetStage at h
  split at h
  · obtain ⟨i, hd, h⟩ := bind_ok_iff.1 h
    obtain ⟨j, hj, h⟩ := bind_ok_iff.1 h
    cases h
    cases p with
    | none => cases hd
    | some k =>
      cases hd
      exact Impl.reset_same hj
  · cases h
    exact .refl _

theorem Resampler.reset_same {r r' : Resampler F} (h : r.reset = .ok r') : r.SameCfg r' := by
  unfold Resampler.reset at h
  obtain ⟨_, h2, h⟩ := bind_ok_iff.1 h
  obtain ⟨_, h4, h⟩ := bind_ok_iff.1 h
  obtain ⟨_, h8, h⟩ := bind_ok_iff.1 h
  cases h
  exact ⟨resetStage_same h2, resetStage_same h4, resetStage_same h8, rfl, rfl⟩

theorem Resampler.runOps_same {bld : Build} {r r' : Resampler F} {ops : List (Op F)} {os : List (Option (Buf F))}
    (h : r.runOps bld ops = .ok (r', os)) : r.SameCfg r' := by
  induction ops generalizing r os with
  | nil => cases h; exact .refl _
  | cons op ops ih =>
    cases op with
    | process c =>
      unfold Resampler.runOps at h
      obtain ⟨⟨_, _⟩, h1, h⟩ := bind_ok_iff.1 h
      obtain ⟨⟨_, _⟩, h2, h⟩ := bind_ok_iff.1 h
      cases h
      exact (Resampler.processBlock_same h1).trans (ih h2)
    | reset =>
      unfold Resampler.runOps at h
      obtain ⟨_, h1, h⟩ := bind_ok_iff.1 h
      obtain ⟨⟨_, _⟩, h2, h⟩ := bind_ok_iff.1 h
      cases h
      exact (Resampler.reset_same h1).trans (ih h2)

theorem OptSameCfg.deref {α : Type} {p q : Option (Impl F)} (h : OptSameCfg p q) {f : Impl F → Res α}
    (hf : ∀ a b : Impl F, a.SameCfg b → f b = f a) : (deref q >>= f) = (deref p >>= f) := by
  cases p <;> cases q
  · rfl
  · exact h.elim
  · exact h.elim
  · exact hf _ _ h

theorem Resampler.SameCfg.order {a b : Resampler F} (h : a.SameCfg b) : b.order = a.order :=
  h.x2.deref fun _ _ h => by rw [h.order]

theorem Resampler.SameCfg.sseEnabled {a b : Resampler F} (h : a.SameCfg b) : b.sseEnabled = a.sseEnabled :=
  h.x2.deref fun _ _ h => by rw [h.sseEnabled]

theorem OptSameCfg.delay {α : Type} {p q : Option (Impl F)} (h : OptSameCfg p q) (f : Rat → Res α) :
    (Panda.deref q >>= fun i => f i.delay) = (Panda.deref p >>= fun i => f i.delay) :=
  h.deref fun _ _ h => by rw [h.delay]

theorem Resampler.SameCfg.delay {a b : Resampler F} (h : a.SameCfg b) : b.delay = a.delay := by
  unfold Resampler.delay
  rw [h.mode, h.ratio]
  cases a.mode
  · simp only [pure_eq_ok]
    rw [h.x2.delay (fun x => (.ok (0 + x) : Res Rat))]
    congr 1; funext d
    rw [h.x4.delay (fun x => (.ok (d + (d + x)) : Res Rat))]
    congr 1; funext d
    rw [h.x8.delay (fun x => (.ok (d + (d + x)) : Res Rat))]
  · simp only [pure_eq_ok]
    rw [h.x2.delay (fun x => (.ok (0 + x) : Res Rat))]
    congr 1; funext d
    rw [h.x4.delay (fun x => (.ok (d + x / 2) : Res Rat))]
    congr 1; funext d
    rw [h.x8.delay (fun x => (.ok (d + x / 4) : Res Rat))]

end Panda
