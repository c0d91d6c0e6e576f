import Verif.Proofs.Construct

/-!
# Whole sessions: construct, process blocks, reset
-/

set_option linter.unusedSectionVars false

namespace Panda

variable {F : Type} [Zero F] [One F] [Add F] [Sub F] [Mul F] [Sample F]

/-- The possible shapes of a stage. -/
inductive StageShape (cfg : Config) : Stage F → Prop where
  | firUp (t : List F) : cfg.filter = .fir → cfg.mode = .up → StageShape cfg (.firUp cfg.vec t)
  | firDown (t : List F) : cfg.filter = .fir → cfg.mode = .down → StageShape cfg (.firDown cfg.vec t)
  | iirUp (t : List F) : cfg.filter = .iir → cfg.mode = .up → StageShape cfg (.iirUp cfg.iirSse t)
  | iirDown (t : List F) : cfg.filter = .iir → cfg.mode = .down → StageShape cfg (.iirDown cfg.iirSse t)

theorem stage_shape {cfg : Config} {k : Nat} {s : Stage F} (h : s ∈ cfg.stage k) : StageShape cfg s := by
  unfold Config.stage at h
  split at h <;> rename_i hf hm <;> simp only [List.mem_map] at h <;> obtain ⟨t, -, rfl⟩ := h
  · exact .firUp _ hf hm
  · exact .firDown _ hf hm
  · exact .iirUp _ hf hm
  · exact .iirDown _ hf hm

theorem stages_shape {cfg : Config} {s : Stage F} (h : s ∈ cfg.stages) : 2 ≤ cfg.ratio ∧ StageShape cfg s := by
  have : ∃ k, 2 ≤ k ∧ k ≤ cfg.ratio ∧ s ∈ cfg.stage k := by
    unfold Config.stages at h
    split at h <;> simp only [List.mem_flatten, List.mem_map, List.mem_filter] at h <;>
      obtain ⟨l, ⟨k, ⟨hk, hle⟩, rfl⟩, hs⟩ := h <;>
      refine ⟨k, ?_, by simpa using hle, hs⟩ <;>
      simp only [List.mem_cons, List.not_mem_nil, or_false] at hk <;> omega
  obtain ⟨k, h2, h3, h4⟩ := this
  exact ⟨by omega, stage_shape h4⟩

theorem callOk_of {cfg : Config} {r : Resampler F} (hratio : r.ratio = cfg.ratio) (hmode : r.mode = cfg.mode)
    {c : Call F} (h : cfg.CallOk c) : r.CallOk cfg.bld cfg.stages c.n c.input.len c.output.len := by
  refine ⟨h.uint, h.input, ?_, ?_, ?_, ?_⟩
  · intro s hs
    obtain ⟨h2, hsh⟩ := stages_shape hs
    have hi := h.input
    cases hsh with
    | firUp => simpa [Stage.slack] using hi
    | firDown => simpa [Stage.slack] using hi
    | iirUp => simpa [Stage.slack] using hi
    | iirDown t hf hm =>
      cases hsse : cfg.iirSse
      · simpa [Stage.slack] using hi
      · have := h.behind hf hm hsse
        simp only [Stage.slack]
        split <;> grind
  · have := h.output
    unfold Resampler.outLen
    unfold Config.outLen at this
    rw [hmode, hratio]
    exact this
  · rw [hmode, hratio]
    exact h.mul
  · intro hr s hs
    rw [hratio] at hr
    obtain ⟨h2, hsh⟩ := stages_shape hs
    cases hsh with
    | firUp t hf hm => exact h.large hf hm hr
    | firDown t hf hm =>
      have := h.mul hm
      rwa [hr] at this
    | iirUp t hf hm => exact h.nonempty hf hr
    | iirDown t hf hm =>
      have := h.mul hm
      rw [hr] at this
      exact ⟨this, h.nonempty hf hr⟩

/-- A resampler of configuration `cfg` that has consumed `xs` and produced `zs` since construction or reset. -/
structure Resampler.State (cfg : Config) (r r0 : Resampler F) (xs zs : List F) : Prop where
  inv : ChainInv cfg.stages r.path xs zs
  evolves : r0.Evolves r

theorem Call.samples_length (c : Call F) : c.samples.length = c.n := by simp [Call.samples]

theorem Call.samples_seq (c : Call F) (k : Nat) (h : k < c.n) : seq c.samples k = c.input.get k := by
  simp [seq, Call.samples, h]

theorem Resampler.outLen_eq {cfg : Config} {r : Resampler F} (hr : r.ratio = cfg.ratio) (hm : r.mode = cfg.mode) (n : Nat) :
    r.outLen n = cfg.outLen n := by
  unfold Resampler.outLen Config.outLen
  rw [hr, hm]
  rfl

theorem Buf.slice_zero (b : Buf F) (n : Nat) : b.slice 0 n = b.toList n := by
  simp [Buf.slice, Buf.toList]

/-- One call. -/
theorem Resampler.State.step {cfg : Config} (hv : cfg.Valid) {r0 r : Resampler F} (h0 : r0.Fresh cfg) {xs zs : List F}
    (h : r.State cfg r0 xs zs) {c : Call F} (hc : cfg.CallOk c) :
    Sat (r.processBlock cfg.bld c.st c.input c.n c.output) (fun q =>
      q.1.State cfg r0 (xs ++ c.samples) (zs ++ q.2.toList (cfg.outLen c.n)) ∧ q.2.len = c.output.len ∧
      q.2.addr = c.output.addr ∧ ∀ j, cfg.outLen c.n ≤ j → q.2.get j = c.output.get j) := by
  have hratio := h.evolves.ratio.trans h0.ratio
  have hmode := h.evolves.mode.trans h0.mode
  have := Resampler.processBlock_sat (bld := cfg.bld) (st := c.st) (c := c.samples) (input := c.input)
    (output := c.output) (by simpa [hratio] using hv.ratio) (by rw [hmode]; exact h0.dir) h.inv
    (by rw [Call.samples_length]; exact callOk_of hratio hmode hc)
    (fun k hk => (c.samples_seq k (by rwa [Call.samples_length] at hk)).symm)
  rw [Call.samples_length, Resampler.outLen_eq hratio hmode] at this
  refine sat_mono this ?_
  intro q hq
  refine ⟨⟨?_, h.evolves.trans hq.evolves⟩, hq.len, hq.addr, fun j hj => hq.frame j (by omega)⟩
  rw [← Buf.slice_zero]
  exact hq.inv

theorem Resampler.State.run {cfg : Config} (hv : cfg.Valid) {r0 r : Resampler F} (h0 : r0.Fresh cfg) {xs zs : List F}
    (h : r.State cfg r0 xs zs) {cs : List (Call F)} (hc : ∀ c ∈ cs, cfg.CallOk c) :
    Sat (r.run cfg.bld cs) (fun q =>
      q.1.State cfg r0 (xs ++ inputs cs) (zs ++ cfg.outputs cs q.2) ∧ cfg.Framed cs q.2) := by
  induction cs generalizing r xs zs with
  | nil =>
    refine sat_ok ⟨?_, rfl, ?_⟩
    · simpa [inputs, Config.outputs] using h
    · intro p hp
      simp at hp
  | cons c cs ih =>
    unfold Resampler.run
    refine sat_bind (h.step hv h0 (hc c (by simp))) ?_
    rintro ⟨r1, o⟩ ⟨h1, hl, ha, hf⟩
    refine sat_bind (ih h1 fun c' hc' => hc c' (by simp [hc'])) ?_
    rintro ⟨r2, os⟩ ⟨h2, hlen, hfr⟩
    refine sat_ok ⟨?_, ?_, ?_⟩
    · simpa [inputs, Config.outputs, List.append_assoc] using h2
    · simpa using hlen
    · intro p hp
      simp only [List.zip_cons_cons, List.mem_cons] at hp
      rcases hp with rfl | hp
      · exact ⟨hl, ha, hf⟩
      · exact hfr p hp

theorem Resampler.Fresh.state {cfg : Config} {r : Resampler F} (h : r.Fresh cfg) : r.State cfg r [] [] :=
  ⟨h.inv, Resampler.Evolves.refl r⟩

theorem resetStage_evolves {b : Bool} {p p0 : Option (Impl F)} (h : OptEvolves p0 p) (hb : b = true) :
    resetStage b p = resetStage b p0 := by
  subst hb
  unfold resetStage
  cases p <;> cases p0
  · rfl
  · exact h.elim
  · exact h.elim
  · have : Impl.reset _ = Impl.reset _ := Impl.Evolves.reset h
    simp only [if_true, deref, pure_eq_ok, ok_bind, this]

/-- `reset()` gives back exactly the object the constructor had created. -/
theorem Resampler.reset_evolves {cfg : Config} {r0 r : Resampler F} (h0 : r0.Fresh cfg) (h : r0.Evolves r) :
    r.reset = .ok r0 := by
  rw [← h0.reset]
  have key : ∀ (k : Nat) (p0 p : Option (Impl F)), OptEvolves p0 p →
      (¬ k ≤ cfg.ratio → p0 = none) →
      resetStage (decide (k ≤ r.ratio)) p = resetStage (decide (k ≤ r0.ratio)) p0 := by
    intro k p0 p hp hn
    rw [h.ratio]
    by_cases hk : k ≤ cfg.ratio
    · exact resetStage_evolves hp (by simpa [h0.ratio] using hk)
    · have := hn hk
      subst this
      cases p
      · rfl
      · exact hp.elim
  have h2 := key 2 _ _ h.x2 fun hk => by have := h0.x2; rwa [if_neg hk] at this
  have h4 := key 4 _ _ h.x4 fun hk => by have := h0.x4; rwa [if_neg hk] at this
  have h8 := key 8 _ _ h.x8 fun hk => by have := h0.x8; rwa [if_neg hk] at this
  unfold Resampler.reset
  simp only [ge_iff_le]
  rw [h2, h4, h8, h.ratio, h.mode, h.precision, h.useSse, h.filter]

theorem Resampler.State.runOps {cfg : Config} (hv : cfg.Valid) {r0 r : Resampler F} (h0 : r0.Fresh cfg) {xs zs : List F}
    (h : r.State cfg r0 xs zs) {ops : List (Op F)} (hc : ∀ op ∈ ops, cfg.OpOk op) :
    Sat (r.runOps cfg.bld ops) (fun q =>
      q.1.State cfg r0 (cfg.streams ops q.2 (xs, zs)).1 (cfg.streams ops q.2 (xs, zs)).2 ∧ cfg.FramedOps ops q.2) := by
  induction ops generalizing r xs zs with
  | nil => exact sat_ok ⟨h, trivial⟩
  | cons op ops ih =>
    cases op with
    | process c =>
      unfold Resampler.runOps
      refine sat_bind (h.step hv h0 (hc (.process c) (by simp))) ?_
      rintro ⟨r1, o⟩ ⟨h1, hl, ha, hf⟩
      refine sat_bind (ih h1 fun c' hc' => hc c' (by simp [hc'])) ?_
      rintro ⟨r2, os⟩ ⟨h2, hfr⟩
      exact sat_ok ⟨h2, ⟨hl, ha, hf⟩, hfr⟩
    | reset =>
      unfold Resampler.runOps
      rw [Resampler.reset_evolves h0 h.evolves, ok_bind]
      refine sat_bind (ih h0.state fun c' hc' => hc c' (by simp [hc'])) ?_
      rintro ⟨r2, os⟩ ⟨h2, hfr⟩
      exact sat_ok ⟨h2, hfr⟩

/-- Every session that keeps to the rules runs without undefined behaviour, changes only what it should, and the
samples produced since the last reset are related to the samples passed in since then. -/
theorem Config.session_sat {cfg : Config} (hv : cfg.Valid) {ops : List (Op F)} (hc : ∀ op ∈ ops, cfg.OpOk op) :
    Sat (cfg.session ops) (fun q =>
      CascadeRel cfg.stages (cfg.streams ops q.2 ([], [])).1 (cfg.streams ops q.2 ([], [])).2 ∧
      cfg.FramedOps ops q.2 ∧ ∃ r0, cfg.new = .ok r0 ∧ r0.Fresh cfg ∧
        q.1.State cfg r0 (cfg.streams ops q.2 ([], [])).1 (cfg.streams ops q.2 ([], [])).2) := by
  obtain ⟨r0, hr0, h0⟩ := Resampler.new_fresh (F := F) hv
  unfold Config.session
  rw [hr0, ok_bind]
  refine sat_mono (h0.state.runOps hv h0 hc) ?_
  rintro q ⟨h, hf⟩
  exact ⟨h.inv.rel, hf, r0, rfl, h0, h⟩

theorem Config.streams_eq {cfg : Config} {ops : List (Op F)} {os : List (Option (Buf F))} (h : cfg.FramedOps ops os)
    (a b : List F) : cfg.streams ops os (a, b) =
      (ops.foldl fedStep a, (ops.zip os).foldl cfg.producedStep b) := by
  induction ops generalizing os a b with
  | nil =>
    cases os <;> rfl
  | cons op ops ih =>
    cases os with
    | nil => cases op <;> exact h.elim
    | cons o os =>
      cases op <;> cases o <;> first | exact h.elim | skip
      · exact ih h.2 _ _
      · exact ih h _ _

/-- Every session that keeps to the rules runs without undefined behaviour, changes only what it should, and the
samples produced since the last reset are related to the samples passed in since then. -/
theorem Config.session_spec {cfg : Config} (hv : cfg.Valid) {ops : List (Op F)} (hc : ∀ op ∈ ops, cfg.OpOk op) :
    ∃ r os, cfg.session ops = .ok (r, os) ∧ cfg.FramedOps ops os ∧ CascadeRel cfg.stages (fed ops) (cfg.produced ops os) := by
  obtain ⟨⟨r, os⟩, h, hr, hf, -⟩ := Config.session_sat hv hc
  refine ⟨r, os, h, hf, ?_⟩
  rw [Config.streams_eq hf] at hr
  exact hr

/-- The same for a given result. -/
theorem Config.session_rel' {cfg : Config} (hv : cfg.Valid) {ops : List (Op F)} (hc : ∀ op ∈ ops, cfg.OpOk op)
    {r : Resampler F} {os : List (Option (Buf F))} (h : cfg.session ops = .ok (r, os)) :
    CascadeRel cfg.stages (fed ops) (cfg.produced ops os) := by
  obtain ⟨_, _, h1, -, h2⟩ := Config.session_spec hv hc
  rw [h] at h1
  cases h1
  exact h2

theorem Config.session_framed {cfg : Config} (hv : cfg.Valid) {ops : List (Op F)} (hc : ∀ op ∈ ops, cfg.OpOk op)
    {r : Resampler F} {os : List (Option (Buf F))} (h : cfg.session ops = .ok (r, os)) : cfg.FramedOps ops os := by
  obtain ⟨_, _, h1, h2, -⟩ := Config.session_spec hv hc
  rw [h] at h1
  cases h1
  exact h2

/-- `r` is a resampler that has been constructed and used according to the rules. -/
def Config.Reachable (cfg : Config) (r : Resampler F) : Prop :=
  ∃ (ops : List (Op F)) (os : List (Option (Buf F))), (∀ op ∈ ops, cfg.OpOk op) ∧ cfg.session ops = .ok (r, os)

theorem Config.Reachable.state {cfg : Config} (hv : cfg.Valid) {r : Resampler F} (h : cfg.Reachable r) :
    ∃ r0 xs zs, cfg.new = .ok r0 ∧ r0.Fresh cfg ∧ r.State cfg r0 xs zs := by
  obtain ⟨ops, os, hc, h⟩ := h
  obtain ⟨q, h1, -, -, r0, h2, h3, h4⟩ := Config.session_sat hv hc
  rw [h] at h1
  cases h1
  exact ⟨r0, _, _, h2, h3, h4⟩

theorem Config.Reachable.ratio {cfg : Config} (hv : cfg.Valid) {r : Resampler F} (h : cfg.Reachable r) :
    r.ratio = cfg.ratio := by
  obtain ⟨r0, _, _, _, h0, h⟩ := h.state hv
  exact h.evolves.ratio.trans h0.ratio

theorem Config.Reachable.mode {cfg : Config} (hv : cfg.Valid) {r : Resampler F} (h : cfg.Reachable r) :
    r.mode = cfg.mode := by
  obtain ⟨r0, _, _, _, h0, h⟩ := h.state hv
  exact h.evolves.mode.trans h0.mode

/-- The only stage of a factor 2 resampler. -/
theorem Config.Reachable.stage2 {cfg : Config} (hv : cfg.Valid) (h2 : cfg.ratio = 2) {r : Resampler F}
    (h : cfg.Reachable r) : ∃ i s xs, r.implX2 = some i ∧ StageShape cfg s ∧ i.Inv s xs := by
  have hr := h.ratio hv
  obtain ⟨r0, xs, zs, -, h0, h⟩ := h.state hv
  have hp : r.path = [r.implX2] := by
    unfold Resampler.path
    rw [hr, h2]
    cases r.mode <;> rfl
  have hi := h.inv
  rw [hp] at hi
  obtain ⟨s, i, hss, hs, h1, -⟩ := hi.one
  exact ⟨i, s, xs, hs, (stages_shape (by rw [hss]; simp)).2, h1⟩

end Panda
