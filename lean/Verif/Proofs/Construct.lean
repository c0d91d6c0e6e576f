import Verif.Spec.Config
import Verif.Proofs.Cascade

/-!
# Constructors establish the invariant; `reset` restores the constructed object
-/

set_option linter.unusedSectionVars false

namespace Panda

variable {F : Type} [Zero F] [One F] [Add F] [Sub F] [Mul F] [Sample F]

theorem aaAlign_mod (p : Nat) : aaAlign p % 64 = 0 := by
  unfold aaAlign
  split <;> omega

theorem padded_nil (O k : Nat) (x : Nat → F) (hx : ∀ i, x i = 0) : padded O x k = 0 := by
  unfold padded
  split
  · rfl
  · exact hx _

/-- What a freshly constructed (or reset) stage satisfies. -/
structure Impl.Fresh (s : Stage F) (i : Impl F) : Prop where
  inv : i.Inv s []
  reset : i.reset = .ok i

theorem Up2.new_sat (al : Alloc) (k : Nat) (sse : Bool) {t : List F} (h2 : 2 ≤ t.length) (hlt : t.length < 2 ^ 30) :
    Sat (Up2.new al k sse t) (fun u => (Impl.firUp u).Fresh (.firUp sse t) ∧ u.order = t.length ∧ u.useSse = sse) := by
  unfold Up2.new
  refine sat_bind (firComputeSseTaps_sat _ _) ?_
  rintro s ⟨ha, hs⟩
  refine sat_ok ⟨⟨⟨⟨h2, hlt, rfl, rfl, ?_, ?_, hs⟩, rfl, rfl, rfl, ?_⟩, rfl⟩, rfl, rfl⟩
  · have := aaAlign_mod (al.malloc (4 * k)); simp only; omega
  · have := aaAlign_mod (al.malloc (4 * k + 1)); simp only [ha]; omega
  · intro j _
    exact (padded_nil _ _ _ fun i => seq_nil i).symm

theorem Down2.new_sat (al : Alloc) (k : Nat) (sse : Bool) {t : List F} (h2 : 2 ≤ t.length) (hlt : t.length < 2 ^ 30) :
    Sat (Down2.new al k sse t)
      (fun d => (Impl.firDown d).Fresh (.firDown sse t) ∧ d.order = t.length ∧ d.useSse = sse) := by
  unfold Down2.new
  refine sat_bind (firComputeSseTaps_sat _ _) ?_
  rintro s ⟨ha, hs⟩
  refine sat_ok ⟨⟨⟨⟨h2, hlt, rfl, rfl, ?_, rfl, ?_, hs⟩, rfl, rfl, rfl, rfl, ?_, ?_⟩, rfl⟩, rfl, rfl⟩
  · have := aaAlign_mod (al.malloc (4 * k)); simp only; omega
  · have := aaAlign_mod (al.malloc (4 * k + 2)); simp only [ha]; omega
  · intro j _
    exact (padded_nil _ _ _ fun i => seq_nil _).symm
  · intro j _
    exact (padded_nil _ _ _ fun i => seq_nil _).symm

theorem ofList_len (l : List F) : (Buf.ofList 0 0 l).len = l.length := rfl

theorem ofList_get (l : List F) : (Buf.ofList 0 0 l).get = seq l := rfl

theorem FpuFilter.reset_fresh {f : FpuFilter F} {nc : Nat} {c : Nat → F} (hw : f.Wf nc c) (h : ∀ i, f.mem.get i = 0) :
    f.clearBuffers = .ok f := by
  rw [FpuFilter.clearBuffers_eq hw]
  rcases f with ⟨n, co, ⟨a, l, g⟩⟩
  have : g = fun _ => 0 := funext h
  subst this
  rfl

theorem SseFilter.reset_fresh {f : SseFilter F} {nc : Nat} {c : Nat → F} (hw : f.Wf nc c)
    (h : ∀ i, f.mem.get i = ⟨0, 0, 0, 0⟩) : f.clearBuffers = .ok f := by
  rw [SseFilter.clearBuffers_eq hw]
  rcases f with ⟨n, ad, co, ⟨a, l, g⟩⟩
  have : g = fun _ => ⟨0, 0, 0, 0⟩ := funext h
  subst this
  rfl

theorem FpuFilter.new_fresh {cs : List F} (h : 0 < cs.length) :
    Sat (FpuFilter.new (Buf.ofList 0 0 cs)) (fun f => ∀ dl, (Impl.iirUp f dl).Fresh (.iirUp false cs) ∧
      (Impl.iirDown f dl).Fresh (.iirDown false cs) ∧ f.nbrCoefs = cs.length) := by
  refine sat_mono (FpuFilter.new_sat (by rwa [ofList_len])) ?_
  rintro f ⟨hw, hz, hm⟩ dl
  rw [ofList_len, ofList_get] at hw
  rw [ofList_len] at hm
  have hr := FpuFilter.reset_fresh hw hz
  refine ⟨⟨⟨hw, hm _ _ _⟩, ?_⟩, ⟨⟨hw, rfl, by rw [List.length_nil, Nat.zero_div]; exact hm _ _ _⟩, ?_⟩, hw.nc_eq⟩
  · simp only [Impl.reset, hr, ok_bind, pure_eq_ok]
  · simp only [Impl.reset, hr, ok_bind, pure_eq_ok]

theorem SseFilter.new_fresh {cs : List F} {a : Nat} (h : 0 < cs.length) :
    Sat (SseFilter.new (16 * a) (Buf.ofList 0 0 cs)) (fun f => ∀ dl, (Impl.iirUpSse f dl).Fresh (.iirUp true cs) ∧
      (Impl.iirDownSse f dl).Fresh (.iirDown true cs) ∧ f.nbrCoefs = cs.length) := by
  refine sat_mono (SseFilter.new_sat (by omega) (by rwa [ofList_len])) ?_
  rintro f ⟨hw, hz, hm⟩ dl
  rw [ofList_len, ofList_get] at hw
  rw [ofList_len] at hm
  have hr := SseFilter.reset_fresh hw hz
  refine ⟨⟨⟨hw, hm _ _ _ _⟩, ?_⟩, ⟨⟨hw, rfl, by rw [List.length_nil, Nat.zero_div]; exact hm _ _ _ _⟩, ?_⟩, hw.nc_eq⟩
  · simp only [Impl.reset, hr, ok_bind, pure_eq_ok]
  · simp only [Impl.reset, hr, ok_bind, pure_eq_ok]

/-! ## All configurations -/

/-- Case distinction over a table written as `if ... then some a else ...`. -/
theorem ite_some {α : Type} {P : α → Prop} {c : Prop} [Decidable c] {a t : α} {e : Option α} (ha : P a)
    (he : e = some t → P t) : (if c then some a else e) = some t → P t := by
  intro h
  by_cases hc : c
  · rw [if_pos hc] at h
    cases h
    exact ha
  · rw [if_neg hc] at h
    exact he h

theorem firTable_length {k p : Nat} {t : List Dec} (h : firTable k p = some t) :
    2 ≤ t.length ∧ t.length ≤ 52 ∧ t.length % 2 = 0 := by
  revert h
  unfold firTable
  repeat refine ite_some (P := fun t : List Dec => 2 ≤ t.length ∧ t.length ≤ 52 ∧ t.length % 2 = 0) (by decide) ?_
  intro h
  cases h

theorem iirTable_length {k p : Nat} {t : List Dec × Dec} (h : iirTable k p = some t) :
    0 < t.1.length ∧ t.1.length ≤ 14 := by
  revert h
  unfold iirTable
  repeat refine ite_some (P := fun t : List Dec × Dec => 0 < t.1.length ∧ t.1.length ≤ 14) (by decide) ?_
  intro h
  cases h

/-- `delay()` of a stage: for FIR determined by the order, for IIR by the group delay constant. -/
def Config.stageDelay (cfg : Config) (k : Nat) : Rat :=
  match cfg.filter, cfg.mode with
  | .fir, .up => (((firTable k cfg.precision).getD []).length - 1 : Nat)
  | .fir, .down => ((((firTable k cfg.precision).getD []).length / 2 : Nat) : Rat) - 1 / 2
  | .iir, .up => (((iirTable k cfg.precision).getD ([], ⟨0, 0⟩)).2).toRat
  | .iir, .down => ((((iirTable k cfg.precision).getD ([], ⟨0, 0⟩)).2).toRat - 1) / 2

/-- `order()` of a stage. -/
def Config.stageOrder (cfg : Config) (k : Nat) : Nat :=
  match cfg.filter with
  | .fir => ((firTable k cfg.precision).getD []).length
  | .iir => ((iirTable k cfg.precision).getD ([], ⟨0, 0⟩)).1.length

/-- `sse_enabled()` of a stage. -/
def Config.stageSse (cfg : Config) : Bool :=
  match cfg.filter with
  | .fir => cfg.vec
  | .iir => cfg.iirSse

/-- What `init_stage` should deliver. -/
def Config.StageOk (cfg : Config) (k : Nat) (p : Option (Impl F)) : Prop :=
  ∃ i s, p = some i ∧ cfg.stage k = [s] ∧ i.Fresh s ∧ s.isUp = (cfg.mode == .up) ∧ i.order = cfg.stageOrder k ∧
    i.delay = cfg.stageDelay k ∧ i.sseEnabled = cfg.stageSse

theorem initStage_ok {cfg : Config} {n k : Nat} (hk : k ≤ cfg.ratio)
    (hfir : cfg.filter = .fir → (firTable k cfg.precision).isSome)
    (hiir : cfg.filter = .iir → (iirTable k cfg.precision).isSome) :
    Sat (initStage (F := F) cfg.bld cfg.al cfg.mode cfg.ratio cfg.precision cfg.useSse cfg.filter n k)
      (cfg.StageOk k) := by
  unfold initStage
  rw [if_neg (by omega)]
  cases hf : cfg.filter
  · -- IIR
    simp only
    obtain ⟨⟨cs, gd⟩, ht⟩ := Option.isSome_iff_exists.mp (hiir hf)
    have hl := iirTable_length ht
    simp only [createImplIir, ht, createImplIirWithCoeffs]
    have hlen : 0 < (cs.map fun c => (Sample.ofDouble c.toRat : F)).length := by simpa using hl.1
    by_cases hsse : (cfg.bld.sse && cfg.useSse) = true
    · rw [if_pos hsse]
      refine sat_bind (sat_bind (SseFilter.new_fresh (a := cfg.al.new16 n) hlen)
        (Q := fun i => cfg.StageOk k (some i)) ?_) fun i hi => sat_ok hi
      intro f hfr
      cases hm : cfg.mode
      · have := hfr gd.toRat
        refine sat_ok ⟨_, _, rfl, ?_, this.1, ?_, ?_, ?_, ?_⟩
        · simp [Config.stage, hf, hm, ht, Config.iirSse, hsse]
        · simp [Stage.isUp, hm]
        · simp [Impl.order, Config.stageOrder, hf, ht, this.2.2]
        · simp [Impl.delay, Config.stageDelay, hf, ht, hm]
        · simp [Impl.sseEnabled, Config.stageSse, hf, Config.iirSse, hsse]
      · have := hfr ((gd.toRat - 1) / 2)
        refine sat_ok ⟨_, _, rfl, ?_, this.2.1, ?_, ?_, ?_, ?_⟩
        · simp [Config.stage, hf, hm, ht, Config.iirSse, hsse]
        · simp [Stage.isUp, hm]
        · simp [Impl.order, Config.stageOrder, hf, ht, this.2.2]
        · simp [Impl.delay, Config.stageDelay, hf, ht, hm]
        · simp [Impl.sseEnabled, Config.stageSse, hf, Config.iirSse, hsse]
    · rw [if_neg hsse]
      rw [Bool.not_eq_true] at hsse
      refine sat_bind (sat_bind (FpuFilter.new_fresh hlen)
        (Q := fun i => cfg.StageOk k (some i)) ?_) fun i hi => sat_ok hi
      intro f hfr
      cases hm : cfg.mode
      · have := hfr gd.toRat
        refine sat_ok ⟨_, _, rfl, ?_, this.1, ?_, ?_, ?_, ?_⟩
        · simp [Config.stage, hf, hm, ht, Config.iirSse, hsse]
        · simp [Stage.isUp, hm]
        · simp [Impl.order, Config.stageOrder, hf, ht, this.2.2]
        · simp [Impl.delay, Config.stageDelay, hf, ht, hm]
        · simp [Impl.sseEnabled, Config.stageSse, hf, Config.iirSse, hsse]
      · have := hfr ((gd.toRat - 1) / 2)
        refine sat_ok ⟨_, _, rfl, ?_, this.2.1, ?_, ?_, ?_, ?_⟩
        · simp [Config.stage, hf, hm, ht, Config.iirSse, hsse]
        · simp [Stage.isUp, hm]
        · simp [Impl.order, Config.stageOrder, hf, ht, this.2.2]
        · simp [Impl.delay, Config.stageDelay, hf, ht, hm]
        · simp [Impl.sseEnabled, Config.stageSse, hf, Config.iirSse, hsse]
  · -- FIR
    simp only
    obtain ⟨t, ht⟩ := Option.isSome_iff_exists.mp (hfir hf)
    have hl := firTable_length ht
    simp only [createImpl, ht]
    have hlen : ∀ q : Rat, (firTaps (F := F) t q).length = t.length := fun q => by simp [firTaps]
    cases hm : cfg.mode
    · simp only
      refine sat_bind (Up2.new_sat _ _ _ (by rw [hlen]; omega) (by rw [hlen]; omega)) ?_
      rintro u ⟨h1, h2, h3⟩
      refine sat_ok ⟨_, _, rfl, ?_, h1, ?_, ?_, ?_, ?_⟩
      · simp [Config.stage, hf, hm, ht, Config.vec, sseAvailable, firTaps]
      · simp [Stage.isUp, hm]
      · simp [Impl.order, Config.stageOrder, hf, ht, h2, hlen]
      · simp [Impl.delay, Config.stageDelay, hf, ht, hm, h2, hlen]
      · simp [Impl.sseEnabled, Config.stageSse, hf, Config.vec, h3, sseAvailable]
    · simp only
      refine sat_bind (Down2.new_sat _ _ _ (by rw [hlen]; omega) (by rw [hlen]; omega)) ?_
      rintro u ⟨h1, h2, h3⟩
      refine sat_ok ⟨_, _, rfl, ?_, h1, ?_, ?_, ?_, ?_⟩
      · simp [Config.stage, hf, hm, ht, Config.vec, sseAvailable, firTaps]
      · simp [Stage.isUp, hm]
      · simp [Impl.order, Config.stageOrder, hf, ht, h2, hlen]
      · simp [Impl.delay, Config.stageDelay, hf, ht, hm, h2, hlen]
      · simp [Impl.sseEnabled, Config.stageSse, hf, Config.vec, h3, sseAvailable]

theorem tables_exist {p k : Nat} (hk : k ∈ [2, 4, 8]) (hp : p ∈ [1, 8, 12, 16, 20, 24]) :
    (firTable k p).isSome ∧ (p ≠ 1 → (iirTable k p).isSome) := by
  simp only [List.mem_cons, List.not_mem_nil, or_false] at hk hp
  rcases hk with rfl | rfl | rfl <;> rcases hp with rfl | rfl | rfl | rfl | rfl | rfl <;> decide

theorem rel_nil (s : Stage F) : s.Rel [] [] := by
  cases s with
  | firUp v t => exact ⟨rfl, fun m hm => absurd hm (by simp)⟩
  | firDown v t => exact ⟨rfl, fun m hm => absurd hm (by simp)⟩
  | iirUp v t => exact ⟨rfl, fun m hm => absurd hm (by simp)⟩
  | iirDown v t => exact ⟨rfl, fun m hm => absurd hm (by simp)⟩

/-- What the constructor of `Resampler2` establishes. -/
structure Resampler.Fresh (cfg : Config) (r : Resampler F) : Prop where
  inv : ChainInv cfg.stages r.path [] []
  dir : DirOk cfg.mode (cfg.stages (F := F))
  reset : r.reset = .ok r
  ratio : r.ratio = cfg.ratio
  mode : r.mode = cfg.mode
  x2 : if 2 ≤ cfg.ratio then cfg.StageOk 2 r.implX2 else r.implX2 = none
  x4 : if 4 ≤ cfg.ratio then cfg.StageOk 4 r.implX4 else r.implX4 = none
  x8 : if 8 ≤ cfg.ratio then cfg.StageOk 8 r.implX8 else r.implX8 = none

theorem initStage_sat {cfg : Config} (hv : cfg.Valid) {n k : Nat} (hk : k ∈ [2, 4, 8]) :
    Sat (initStage (F := F) cfg.bld cfg.al cfg.mode cfg.ratio cfg.precision cfg.useSse cfg.filter n k)
      (fun p => if k ≤ cfg.ratio then cfg.StageOk k p else p = none) := by
  by_cases h : k ≤ cfg.ratio
  · simp only [if_pos h]
    exact initStage_ok h (fun _ => (tables_exist hk hv.precision).1)
      fun hi => (tables_exist hk hv.precision).2 (hv.iir hi)
  · simp only [if_neg h]
    unfold initStage
    rw [if_pos (by omega)]
    exact sat_ok rfl

theorem Resampler.new_fresh {cfg : Config} (hv : cfg.Valid) : Sat (cfg.new (F := F)) (Resampler.Fresh cfg) := by
  unfold Config.new Resampler.new
  refine sat_bind (initStage_sat hv (by simp)) fun x2 h2 => ?_
  refine sat_bind (initStage_sat hv (by simp)) fun x4 h4 => ?_
  refine sat_bind (initStage_sat hv (by simp)) fun x8 h8 => ?_
  have hr := hv.ratio
  simp only [List.mem_cons, List.not_mem_nil, or_false] at hr
  rcases hr with hr | hr | hr | hr
  · rw [hr, if_neg (by decide)] at h2 h4 h8
    refine sat_ok ⟨?_, ?_, ?_, rfl, rfl, ?_, ?_, ?_⟩
    · simp only [Resampler.path, Config.stages, hr]
      cases cfg.mode <;> exact rfl
    · intro s hs
      simp [Config.stages, hr] at hs
      cases hm : cfg.mode <;> rw [hm] at hs <;> simp at hs
    · simp [Resampler.reset, resetStage, hr]
    · rw [hr]; exact h2
    · rw [hr]; exact h4
    · rw [hr]; exact h8
  · rw [hr] at h2 h4 h8
    rw [if_pos (by decide)] at h2
    rw [if_neg (by decide)] at h4 h8
    obtain ⟨i2, s2, rfl, e2, f2, d2, -⟩ := id h2
    have hs : cfg.stages (F := F) = [s2] := by
      unfold Config.stages
      cases cfg.mode <;> simp [hr, e2]
    refine sat_ok ⟨?_, ?_, ?_, rfl, rfl, ?_, ?_, ?_⟩
    · rw [hs]
      simp only [Resampler.path, hr]
      cases cfg.mode <;> exact ⟨[], f2.inv, rel_nil _, rfl⟩
    · rw [hs]
      intro s hs
      simp only [List.mem_singleton] at hs
      rw [hs]; exact d2
    · simp [Resampler.reset, resetStage, hr, deref, f2.reset]
    · rw [hr]; exact h2
    · rw [hr]; exact h4
    · rw [hr]; exact h8
  · rw [hr] at h2 h4 h8
    rw [if_pos (by decide)] at h2 h4
    rw [if_neg (by decide)] at h8
    obtain ⟨i2, s2, rfl, e2, f2, d2, -⟩ := id h2
    obtain ⟨i4, s4, rfl, e4, f4, d4, -⟩ := id h4
    refine sat_ok ⟨?_, ?_, ?_, rfl, rfl, ?_, ?_, ?_⟩
    · simp only [Resampler.path, hr, Config.stages]
      cases cfg.mode
      · simp [e2, e4]
        exact ⟨[], f2.inv, rel_nil _, [], f4.inv, rel_nil _, rfl⟩
      · simp [e2, e4]
        exact ⟨[], f4.inv, rel_nil _, [], f2.inv, rel_nil _, rfl⟩
    · intro s hs
      have : s = s2 ∨ s = s4 := by
        revert hs
        unfold Config.stages
        cases cfg.mode <;> simp [hr, e2, e4]
        exact Or.symm
      rcases this with rfl | rfl
      · exact d2
      · exact d4
    · simp [Resampler.reset, resetStage, hr, deref, f2.reset, f4.reset]
    · rw [hr]; exact h2
    · rw [hr]; exact h4
    · rw [hr]; exact h8
  · rw [hr] at h2 h4 h8
    rw [if_pos (by decide)] at h2 h4 h8
    obtain ⟨i2, s2, rfl, e2, f2, d2, -⟩ := id h2
    obtain ⟨i4, s4, rfl, e4, f4, d4, -⟩ := id h4
    obtain ⟨i8, s8, rfl, e8, f8, d8, -⟩ := id h8
    refine sat_ok ⟨?_, ?_, ?_, rfl, rfl, ?_, ?_, ?_⟩
    · simp only [Resampler.path, hr, Config.stages]
      cases cfg.mode
      · simp [e2, e4, e8]
        exact ⟨[], f2.inv, rel_nil _, [], f4.inv, rel_nil _, [], f8.inv, rel_nil _, rfl⟩
      · simp [e2, e4, e8]
        exact ⟨[], f8.inv, rel_nil _, [], f4.inv, rel_nil _, [], f2.inv, rel_nil _, rfl⟩
    · intro s hs
      have : s = s2 ∨ s = s4 ∨ s = s8 := by
        revert hs
        unfold Config.stages
        cases cfg.mode <;> simp [hr, e2, e4, e8] <;> grind
      rcases this with rfl | rfl | rfl
      · exact d2
      · exact d4
      · exact d8
    · simp [Resampler.reset, resetStage, hr, deref, f2.reset, f4.reset, f8.reset]
    · rw [hr]; exact h2
    · rw [hr]; exact h4
    · rw [hr]; exact h8

end Panda
