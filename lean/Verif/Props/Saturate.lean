import Verif.Model.TestPrograms
import Verif.Proofs.TestExact
import Verif.Proofs.Func
import Verif.Props.TestPrograms

/-!
# C98: upsampling, a function applied to every sample, downsampling

This is what the library is for (README.md), and what the test programs testsawquality and testdistort do.
-/

set_option linter.unusedSectionVars false

namespace Panda.Tool

open Panda Examples

variable {F : Type} [Zero F] [One F] [Add F] [Sub F] [Mul F] [Sample F]

/-- Two resamplers that belong together. The vectorised IIR downsampler is excluded: it reads behind the end of the array in between (C27). -/
structure SatOk (cu cd : Config) : Prop where
  ups : cu.Valid
  downs : cd.Valid
  up : cu.mode = .up
  down : cd.mode = .down
  ratio : cd.ratio = cu.ratio
  noSse : cd.filter = .iir → cd.iirSse = false

/-- The caller's obligations: arrays that are large enough. The number of samples is limited because the library computes with `uint`; IIR
filters with ratio 2 cannot process zero samples (C28). -/
structure SatCall.Ok (cu cd : Config) (c : SatCall F) : Prop where
  size : c.n * cu.ratio < 2 ^ 31
  inp : c.n ≤ c.inp.len
  out : c.n ≤ c.out.len
  nonempty : cu.filter = .iir ∨ cd.filter = .iir → cu.ratio = 2 → 0 < c.n

/-- The samples passed in. -/
def satIn (cs : List (SatCall F)) : List F := cs.flatMap fun c => (List.range c.n).map c.inp.get

/-- The samples computed. -/
def satOut (cs : List (SatCall F)) (os : List (Buf F)) : List F := (cs.zip os).flatMap fun p => p.2.toList p.1.n

theorem mapBuf_sat (g : F → F) {n : Nat} {b : Buf F} (h : n ≤ b.len) :
    Sat (mapBuf g n b) fun b' => b'.len = b.len ∧ b'.toList n = (b.toList n).map g := by
  refine sat_mono (sat_forN (fun k (b' : Buf F) => b'.len = b.len ∧ (∀ i < k, b'.get i = g (b.get i)) ∧ ∀ i, k ≤ i → b'.get i = b.get i)
    ⟨rfl, by simp, by simp⟩ ?_) ?_
  · rintro i hi b' ⟨h1, h2, h3⟩
    simp only [Buf.rd, Buf.wr, h1, if_pos (show i < b.len by omega), ok_bind]
    refine sat_ok ⟨h1, ?_, ?_⟩
    · intro j hj
      by_cases hji : j = i
      · subst hji
        simp [Buf.upd, h3]
      · simp [Buf.upd, hji, h2 j (by omega)]
    · intro j hj
      simp [Buf.upd, show j ≠ i by omega, h3 j (by omega)]
  · rintro b' ⟨h1, h2, -⟩
    refine ⟨h1, ?_⟩
    simp only [Buf.toList, List.map_map]
    refine List.map_congr_left fun i hi => ?_
    simp [h2 i (List.mem_range.1 hi)]

theorem saturate_sat {cu cd : Config} (hs : SatOk cu cd) (g : F → F) {c : SatCall F} (hc : c.Ok cu cd) {u0 d0 ups downs : Resampler F}
    (hu0 : u0.Fresh cu) (hd0 : d0.Fresh cd) {xs ms zs : List F} (hu : ups.State cu u0 xs ms) (hd : downs.State cd d0 (ms.map g) zs) :
    Sat (saturate cu cd g c.n c.inp c.out c.tmpAddr c.junk c.stk ups downs) fun q =>
      (∃ ms', q.1.State cu u0 (xs ++ (List.range c.n).map c.inp.get) ms' ∧ q.2.1.State cd d0 (ms'.map g) (zs ++ q.2.2.toList c.n)) ∧
      q.2.2.len = c.out.len ∧ ∀ j, c.n ≤ j → q.2.2.get j = c.out.get j := by
  have hr : 0 < cu.ratio := by
    have := hs.ups.ratio
    simp only [List.mem_cons, List.not_mem_nil, or_false] at this
    omega
  have hle : c.n ≤ c.n * cu.ratio := Nat.le_mul_of_pos_right _ hr
  have hsz := hc.size
  have ou : cu.outLen c.n = c.n * cu.ratio := by unfold Config.outLen; rw [hs.up]
  have od : cd.outLen (c.n * cu.ratio) = c.n := by
    unfold Config.outLen
    rw [hs.down, hs.ratio]
    exact Nat.mul_div_cancel _ hr
  unfold saturate
  refine sat_bind (hu.step hs.ups hu0 (c := ⟨c.stk.1, c.inp, c.n, ⟨c.tmpAddr, c.n * cu.ratio, c.junk⟩⟩)
    ⟨by simp only; omega, hc.inp, by simp only [ou]; exact Nat.le_refl _, by simp [hs.up], fun _ _ _ => by simp only; omega,
      fun h h2 => Or.inr (hc.nonempty (Or.inl h) h2), by simp [hs.up]⟩) ?_
  rintro ⟨u, tmp⟩ ⟨hu1, hl1, -, -⟩
  simp only [ou] at hu1 hl1 ⊢
  refine sat_bind (mapBuf_sat g (n := c.n * cu.ratio) (b := tmp) (by omega)) ?_
  rintro tmp' ⟨hl2, hg⟩
  refine sat_bind (hd.step hs.downs hd0 (c := ⟨c.stk.2, tmp', c.n * cu.ratio, c.out⟩)
    ⟨by simp only; omega, by simp only; omega, by simp only [od]; exact hc.out, by
      intro _
      rw [hs.ratio]
      exact Nat.mul_mod_left _ _, by simp [hs.down], by
      intro h h2
      refine Or.inr (Nat.mul_pos (hc.nonempty (Or.inr h) (by rw [← hs.ratio]; exact h2)) hr), by
      intro h _ h3
      rw [hs.noSse h] at h3
      cases h3⟩) ?_
  rintro ⟨d, out⟩ ⟨hd1, hl3, -, hf⟩
  simp only [od] at hd1 hl3 hf
  refine sat_ok ⟨⟨_, hu1, ?_⟩, hl3, hf⟩
  rw [List.map_append, ← hg]
  exact hd1

private theorem satRun_sat {cu cd : Config} (hs : SatOk cu cd) (g : F → F) {u0 d0 : Resampler F} (hu0 : u0.Fresh cu) (hd0 : d0.Fresh cd)
    (cs : List (SatCall F)) (hc : ∀ c ∈ cs, c.Ok cu cd) {ups downs : Resampler F} {xs ms zs : List F} (hu : ups.State cu u0 xs ms)
    (hd : downs.State cd d0 (ms.map g) zs) :
    Sat (satRun cu cd g cs ups downs) fun os => (∃ ms', CascadeRel cu.stages (xs ++ satIn cs) ms' ∧
      CascadeRel cd.stages (ms'.map g) (zs ++ satOut cs os)) ∧ os.length = cs.length ∧
      ∀ p ∈ cs.zip os, p.2.len = p.1.out.len ∧ ∀ j, p.1.n ≤ j → p.2.get j = p.1.out.get j := by
  induction cs generalizing ups downs xs ms zs with
  | nil => exact sat_ok ⟨⟨ms, by simpa [satIn] using hu.inv.rel, by simpa [satOut] using hd.inv.rel⟩, rfl, by simp⟩
  | cons c cs ih =>
    unfold satRun
    refine sat_bind (saturate_sat hs g (hc c (by simp)) hu0 hd0 hu hd) ?_
    rintro ⟨u, d, out⟩ ⟨⟨ms1, hu1, hd1⟩, hl, hf⟩
    refine sat_bind (ih (fun c h => hc c (by simp [h])) hu1 hd1) ?_
    rintro os ⟨⟨ms', h1, h2⟩, h3, h4⟩
    refine sat_ok ⟨⟨ms', ?_, ?_⟩, by simp [h3], ?_⟩
    · simpa [satIn] using h1
    · simpa [satOut] using h2
    · intro p hp
      rcases List.mem_cons.1 hp with rfl | hp
      · exact ⟨hl, hf⟩
      · exact h4 p hp

/-- **C98** Bit for bit, for every interpretation of the arithmetic operations, every function `g` and all sequences of calls with arrays that are
large enough: everything is defined although the array in between has just the right size, each call writes `n` samples and nothing
else, and the output is the downsampled signal of `g` applied to the upsampled signal of the input. -/
theorem C98_saturation (cu cd : Config) (hs : SatOk cu cd) (g : F → F) (cs : List (SatCall F)) (hc : ∀ c ∈ cs, c.Ok cu cd) :
    ∃ os, satSession cu cd g cs = .ok os ∧ os.length = cs.length ∧
      (∃ ms, CascadeRel cu.stages (satIn cs) ms ∧ CascadeRel cd.stages (ms.map g) (satOut cs os)) ∧
      ∀ p ∈ cs.zip os, p.2.len = p.1.out.len ∧ ∀ j, p.1.n ≤ j → p.2.get j = p.1.out.get j := by
  suffices h : Sat (satSession cu cd g cs) fun os => os.length = cs.length ∧
      (∃ ms, CascadeRel cu.stages (satIn cs) ms ∧ CascadeRel cd.stages (ms.map g) (satOut cs os)) ∧
      ∀ p ∈ cs.zip os, p.2.len = p.1.out.len ∧ ∀ j, p.1.n ≤ j → p.2.get j = p.1.out.get j from h
  unfold satSession
  refine sat_bind (Resampler.new_fresh hs.ups) fun u0 hu => ?_
  refine sat_bind (Resampler.new_fresh hs.downs) fun d0 hd => ?_
  refine sat_mono (satRun_sat hs g hu hd cs hc hu.state (ms := []) (zs := []) hd.state) fun os h => ⟨h.2.1, ?_, h.2.2⟩
  obtain ⟨⟨ms, h1, h2⟩, -⟩ := h
  exact ⟨ms, by simpa using h1, by simpa using h2⟩

/-- **C98** Without vectorised FIR code, the same input in different blocks gives the same output, bit for bit. -/
theorem C98_block_size_independent (cu cd : Config) (hs : SatOk cu cd) (hu : cu.filter = .fir → cu.vec = false)
    (hd : cd.filter = .fir → cd.vec = false) (g : F → F) (cs cs' : List (SatCall F)) (hc : ∀ c ∈ cs, c.Ok cu cd)
    (hc' : ∀ c ∈ cs', c.Ok cu cd) (he : satIn cs = satIn cs') (os os' : List (Buf F)) (h : satSession cu cd g cs = .ok os)
    (h' : satSession cu cd g cs' = .ok os') : satOut cs os = satOut cs' os' := by
  obtain ⟨_, e, -, ⟨ms, h1, h2⟩, -⟩ := C98_saturation cu cd hs g cs hc
  obtain ⟨_, e', -, ⟨ms', h1', h2'⟩, -⟩ := C98_saturation cu cd hs g cs' hc'
  rw [h] at e
  rw [h'] at e'
  cases e
  cases e'
  rw [← he] at h1'
  have := CascadeRel.functional (Config.stages_scalar hu) (fun s hs v t e => (Config.stages_taps s hs v t e).1) h1 h1'
  subst this
  exact CascadeRel.functional (Config.stages_scalar hd) (fun s hs v t e => (Config.stages_taps s hs v t e).1) h2 h2'

/-- One call of `n` samples of a ramp, from sample `a` on. -/
def satCall (a n : Nat) : SatCall Rat :=
  ⟨n, ⟨4 * a, n, fun i => a + i⟩, ⟨8192, n, fun _ => 5⟩, 4096, fun _ => 7, (someStack, someStack)⟩

private theorem satCall_ok (cu cd : Config) (a n : Nat) (h : n * cu.ratio < 2 ^ 31) (h0 : 0 < n) : (satCall a n).Ok cu cd :=
  ⟨h, Nat.le_refl _, Nat.le_refl _, fun _ _ => h0⟩

private theorem cfg_satOk (sse : Bool) : SatOk (cfg .up 8 16 sse .fir) (cfg .down 8 16 sse .fir) :=
  ⟨⟨by simp [cfg], by simp [cfg], by simp [cfg]⟩, ⟨by simp [cfg], by simp [cfg], by simp [cfg]⟩, rfl, rfl, rfl, by simp [cfg]⟩

/-- 3000 samples of a ramp, in two different ways; the function is the square. -/
example : SatOk (cfg .up 8 16 true .fir) (cfg .down 8 16 true .fir) ∧
    (∀ c ∈ [satCall 0 1000, satCall 1000 2000], c.Ok (cfg .up 8 16 true .fir) (cfg .down 8 16 true .fir)) ∧
    (satIn [satCall 0 1000, satCall 1000 2000]).length = 3000 ∧
    ∃ os, satSession (cfg .up 8 16 true .fir) (cfg .down 8 16 true .fir) (fun x : Rat => x * x) [satCall 0 1000, satCall 1000 2000] = .ok os := by
  have hc : ∀ c ∈ [satCall 0 1000, satCall 1000 2000], c.Ok (cfg .up 8 16 true .fir) (cfg .down 8 16 true .fir) := by
    intro c hc
    simp only [List.mem_cons, List.not_mem_nil, or_false] at hc
    rcases hc with rfl | rfl
    · exact satCall_ok _ _ _ _ (by decide) (by decide)
    · exact satCall_ok _ _ _ _ (by decide) (by decide)
  refine ⟨cfg_satOk true, hc, by simp [satIn, satCall], ?_⟩
  obtain ⟨os, h, -⟩ := C98_saturation _ _ (cfg_satOk true) (fun x : Rat => x * x) _ hc
  exact ⟨os, h⟩

example : ((cfg .up 8 16 false .fir).filter = .fir → (cfg .up 8 16 false .fir).vec = false) ∧
    satIn [satCall 0 3, satCall 3 2] = satIn [satCall 0 5] := by decide +kernel

/-! ## C97, continued -/

private theorem sat_once {cu cd : Config} (hs : SatOk cu cd) (g : F → F) (n : Nat) (h0 : 0 < n) (h1 : n * cu.ratio < 2 ^ 31) (sig : Nat → F)
    (ia oa ta : Nat) (junk : Nat → F) (stk : Stack F × Stack F) :
    Sat (do
      let ups ← cu.new
      let downs ← cd.new
      let (_, _, out) ← saturate cu cd g n ⟨ia, n, sig⟩ ⟨oa, n, fun _ => 0⟩ ta junk stk ups downs
      pure out) fun out => out.len = n := by
  refine sat_bind (Resampler.new_fresh hs.ups) fun u0 hu => ?_
  refine sat_bind (Resampler.new_fresh hs.downs) fun d0 hd => ?_
  refine sat_bind (saturate_sat hs g (c := ⟨n, ⟨ia, n, sig⟩, ⟨oa, n, fun _ => 0⟩, ta, junk, stk⟩)
    ⟨h1, Nat.le_refl _, Nat.le_refl _, fun _ _ => h0⟩ hu hd hu.state (ms := []) (zs := []) hd.state) ?_
  rintro ⟨u, d, out⟩ ⟨-, hl, -⟩
  exact sat_ok hl

/-- **C97** testsawquality in mode `panda`. -/
theorem C97_sawquality (bld : Build) (al : Alloc) (g : F → F) (sig : Nat → F) (ia oa ta : Nat) (junk : Nat → F) (stk : Stack F × Stack F) :
    ∃ out, sawQuality bld al g sig ia oa ta junk stk = .ok out ∧ out.len = 8192 := by
  have hs : SatOk (satCfg bld al .up) (satCfg bld al .down) :=
    ⟨⟨by simp [satCfg], by simp [satCfg], by simp [satCfg]⟩, ⟨by simp [satCfg], by simp [satCfg], by simp [satCfg]⟩, rfl, rfl, rfl, by simp [satCfg]⟩
  exact sat_once hs g 8192 (by decide) (by simp [satCfg]) sig ia oa ta junk stk

/-- **C97** testdistort with FIR or IIR filters, all ratios. -/
theorem C97_distort (bld : Build) (al : Alloc) (over : Nat) (ho : over ∈ [1, 2, 4, 8]) (fir : Bool) (g : F → F) (sig : Nat → F) (ia oa ta : Nat)
    (stk : Stack F × Stack F) : ∃ out, distort bld al over fir g sig ia oa ta stk = .ok out ∧ out.len = 240000 := by
  have hs : SatOk ⟨bld, al, .up, over, 16, fir, if fir then .fir else .iir⟩ ⟨bld, al, .down, over, 16, fir, if fir then .fir else .iir⟩ :=
    ⟨⟨ho, by simp, by simp⟩, ⟨ho, by simp, by simp⟩, rfl, rfl, rfl, by cases fir <;> simp [Config.iirSse]⟩
  refine sat_once hs g 240000 (by decide) ?_ sig ia oa ta (fun _ => 0) stk
  simp only [List.mem_cons, List.not_mem_nil, or_false] at ho
  simp only
  omega

/-- **C97** testdownmulti: all ratios and numbers of bits, but not 1 bit with IIR filters. -/
theorem C97_downmulti_partial (bld : Build) (al : Alloc) (ds bits : Nat) (hd : ds ∈ [1, 2, 4, 8]) (fir : Bool)
    (hb : fir = true ∨ findPrecisionForBits bits ≠ 1) (sig : Nat → F) (ia oa : Nat) (st : Stack F) :
    ∃ out, checkAmps bld al ds bits fir sig ia oa st = .ok out ∧ out.len = 8192 := by
  have hv : (⟨bld, al, .down, ds, findPrecisionForBits bits, false, if fir then .fir else .iir⟩ : Config).Valid := by
    refine ⟨hd, by
      unfold findPrecisionForBits
      repeat' split
      all_goals simp, fun h => ?_⟩
    rcases hb with rfl | hb
    · simp at h
    · exact hb
  have hr : 1 ≤ ds ∧ ds ≤ 8 := by
    simp only [List.mem_cons, List.not_mem_nil, or_false] at hd
    omega
  suffices h : Sat (checkAmps bld al ds bits fir sig ia oa st) fun out => out.len = 8192 from h
  unfold checkAmps
  refine sat_bind (Resampler.new_fresh hv) fun r hf => ?_
  refine sat_bind (hf.state.step hv hf (c := ⟨st, ⟨ia, 8192 * ds, sig⟩, 8192 * ds, ⟨oa, 8192, fun _ => 0⟩⟩)
    ⟨by simp only; omega, Nat.le_refl _, by
      simp only [Config.outLen]
      rw [Nat.mul_div_cancel _ (by omega)], fun _ => Nat.mul_mod_left _ _, by simp, fun _ _ => Or.inr (by simp only; omega), by simp [Config.iirSse]⟩) ?_
  rintro ⟨r', out⟩ ⟨-, hl, -⟩
  exact sat_ok hl

/-- **C97** testsimple. -/
theorem C97_simple (bld : Build) (al : Alloc) (sig : Nat → F) (ia oa : Nat) (st : Stack F) :
    ∃ out, simple bld al sig ia oa st = .ok out ∧ out.len = 512 := by
  have hv : (⟨bld, al, .up, 2, 16, true, .fir⟩ : Config).Valid := ⟨by simp, by simp, by simp⟩
  suffices h : Sat (simple bld al sig ia oa st) fun out => out.len = 512 from h
  unfold simple
  refine sat_bind (Resampler.new_fresh hv) fun r hf => ?_
  refine sat_bind (hf.state.step hv hf (c := ⟨st, ⟨ia, 256, sig⟩, 256, ⟨oa, 512, fun _ => 0⟩⟩)
    ⟨by simp, Nat.le_refl _, by simp [Config.outLen], by simp, by simp, by simp, by simp⟩) ?_
  rintro ⟨r', out⟩ ⟨-, hl, -⟩
  exact sat_ok hl

/-- Nothing to assume for testsawquality and testsimple; the others with arguments. -/
example : (∃ out, distort (F := Rat) x86 someAlloc 8 false (fun x => x * x) (fun i => i) 0 0 0 (someStack, someStack) = .ok out ∧ out.len = 240000) ∧
    ∃ out, checkAmps (F := Rat) x86 someAlloc 4 24 false (fun i => i) 0 0 someStack = .ok out ∧ out.len = 8192 :=
  ⟨C97_distort x86 someAlloc 8 (by decide) false _ _ _ _ _ _, C97_downmulti_partial x86 someAlloc 4 24 (by decide) false (by decide) _ _ _ _⟩

section exact

variable {K : Type} [CommRing K] [Sample K]

private theorem seq_map (g : K → K) (l : List K) (i : ℕ) (h : i < l.length) : seq (l.map g) i = g (seq l i) := by
  simp [seq, h]

/-- **C98** In exact arithmetic: output number `i` depends on the input alone, whatever the sizes of the blocks, builds and alignments; it is the
value of the exact filters, with `g` in between. -/
theorem C98_exact (cu cd : Config) (hs : SatOk cu cd) (g : K → K) (cs : List (SatCall K)) (hc : ∀ c ∈ cs, c.Ok cu cd) (os : List (Buf K))
    (h : satSession cu cd g cs = .ok os) :
    (satOut cs os).length = (satIn cs).length ∧
      ∀ i < (satOut cs os).length, seq (satOut cs os) i = cd.op (fun j => g (cu.op (seq (satIn cs)) j)) i := by
  obtain ⟨os', h', -, ⟨ms, h1, h2⟩, -⟩ := C98_saturation cu cd hs g cs hc
  rw [h] at h'
  cases h'
  have hr : 0 < cu.ratio := by
    have := hs.ups.ratio
    simp only [List.mem_cons, List.not_mem_nil, or_false] at this
    omega
  have lu : ms.length = cu.outLen (satIn cs).length := Config.produced_length hs.ups h1
  have ld : (satOut cs os).length = cd.outLen (ms.map g).length := Config.produced_length hs.downs h2
  have hl : (satOut cs os).length = (satIn cs).length := by
    rw [ld, List.length_map, lu]
    unfold Config.outLen
    rw [hs.up, hs.down, hs.ratio]
    exact Nat.mul_div_cancel _ hr
  refine ⟨hl, fun i hi => ?_⟩
  have eu := h1.eq_op fun s hs v t e => (Config.stages_taps s hs v t e).1
  have ed := h2.eq_op fun s hs v t e => (Config.stages_taps s hs v t e).1
  rw [ed i hi]
  refine cascadeOp_causal (fun s hs v t e => (Config.stages_taps s hs v t e).1) (k := (ms.map g).length) (fun j hj => ?_) i
    (by rwa [h2.length] at hi)
  rw [List.length_map] at hj
  rw [seq_map g ms j hj, eu j hj]
  rfl

end exact

end Panda.Tool
