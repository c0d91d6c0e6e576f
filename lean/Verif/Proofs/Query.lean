import Verif.Proofs.Session

/-!
# The query functions
-/

set_option linter.unusedSectionVars false

namespace Panda

variable {F : Type} [Zero F] [One F] [Add F] [Sub F] [Mul F] [Sample F]

/-- `delay()` of a whole resampler, from the delays of its stages. -/
def Config.totalDelay (cfg : Config) : Rat :=
  match cfg.mode with
  | .up =>
    if cfg.ratio = 1 then 0 else if cfg.ratio = 2 then cfg.stageDelay 2
    else if cfg.ratio = 4 then 2 * cfg.stageDelay 2 + cfg.stageDelay 4
    else 4 * cfg.stageDelay 2 + 2 * cfg.stageDelay 4 + cfg.stageDelay 8
  | .down =>
    if cfg.ratio = 1 then 0 else if cfg.ratio = 2 then cfg.stageDelay 2
    else if cfg.ratio = 4 then cfg.stageDelay 2 + cfg.stageDelay 4 / 2
    else cfg.stageDelay 2 + cfg.stageDelay 4 / 2 + cfg.stageDelay 8 / 4

theorem OptEvolves.cases {p q : Option (Impl F)} (h : OptEvolves p q) :
    (p = none ∧ q = none) ∨ ∃ a b, p = some a ∧ q = some b ∧ a.Evolves b := by
  cases p <;> cases q
  · exact Or.inl ⟨rfl, rfl⟩
  · exact h.elim
  · exact h.elim
  · exact Or.inr ⟨_, _, rfl, rfl, h⟩

theorem OptEvolves.delay {α : Type} {p q : Option (Impl F)} (h : OptEvolves p q) (f : Rat → Res α) :
    (deref q >>= fun i => f i.delay) = (deref p >>= fun i => f i.delay) := by
  rcases h.cases with ⟨rfl, rfl⟩ | ⟨a, b, rfl, rfl, h'⟩
  · rfl
  · simp [deref, h'.delay]

theorem Resampler.Evolves.delay {a b : Resampler F} (h : a.Evolves b) : b.delay = a.delay := by
  unfold Resampler.delay
  rw [h.mode, h.ratio]
  cases a.mode
  · simp only [pure_eq_ok]
    rw [h.x2.delay (fun x => (.ok (0 + x) : Res Rat))]
    congr 1; funext d
    rw [h.x4.delay (fun x => (.ok (d + (d + x)) : Res Rat))]
    congr 1; funext d
    rw [h.x8.delay (fun x => (.ok (d + (d + x)) : Res Rat))]
  · simp only [pure_eq_ok]
    rw [h.x2.delay (fun x => (.ok (0 + x) : Res Rat))]
    congr 1; funext d
    rw [h.x4.delay (fun x => (.ok (d + x / 2) : Res Rat))]
    congr 1; funext d
    rw [h.x8.delay (fun x => (.ok (d + x / 4) : Res Rat))]

theorem Resampler.Evolves.order {a b : Resampler F} (h : a.Evolves b) : b.order = a.order := by
  unfold Resampler.order
  rcases h.x2.cases with ⟨hp, hq⟩ | ⟨_, _, hp, hq, h⟩
  · rw [hp, hq]
  · simp [hp, hq, deref, h.order]

theorem Resampler.Evolves.sseEnabled {a b : Resampler F} (h : a.Evolves b) : b.sseEnabled = a.sseEnabled := by
  unfold Resampler.sseEnabled
  rcases h.x2.cases with ⟨hp, hq⟩ | ⟨_, _, hp, hq, h⟩
  · rw [hp, hq]
  · simp [hp, hq, deref, h.sse]

theorem Resampler.Fresh.delay {cfg : Config} (hv : cfg.Valid) {r : Resampler F} (h : r.Fresh cfg) :
    r.delay = .ok cfg.totalDelay := by
  have h2 := h.x2
  have h4 := h.x4
  have h8 := h.x8
  have hr := hv.ratio
  have e1 := h.ratio
  have e2 := h.mode
  unfold Resampler.delay Config.totalDelay
  rw [e1, e2]
  simp only [List.mem_cons, List.not_mem_nil, or_false] at hr
  rcases hr with hr | hr | hr | hr
  · simp only [hr]
    cases cfg.mode <;> rfl
  · simp only [hr, Nat.le_refl, if_true] at h2
    obtain ⟨a, -, ha, -, -, -, -, da, -⟩ := h2
    cases cfg.mode <;> simp [hr, ha, deref, da, Rat.zero_add]
  · simp [hr] at h2 h4
    obtain ⟨a, -, ha, -, -, -, -, da, -⟩ := h2
    obtain ⟨b, -, hb, -, -, -, -, db, -⟩ := h4
    cases cfg.mode <;> simp [hr, ha, hb, deref, da, db, Rat.zero_add] <;> grind
  · simp [hr] at h2 h4 h8
    obtain ⟨a, -, ha, -, -, -, -, da, -⟩ := h2
    obtain ⟨b, -, hb, -, -, -, -, db, -⟩ := h4
    obtain ⟨c, -, hc, -, -, -, -, dc, -⟩ := h8
    cases cfg.mode <;> simp [hr, ha, hb, hc, deref, da, db, dc, Rat.zero_add] <;> grind

theorem Config.Reachable.delay {cfg : Config} (hv : cfg.Valid) {r : Resampler F} (h : cfg.Reachable r) :
    r.delay = .ok cfg.totalDelay := by
  obtain ⟨r0, _, _, _, h0, h⟩ := h.state hv
  rw [h.evolves.delay, h0.delay hv]

theorem Config.Reachable.order {cfg : Config} (hv : cfg.Valid) (h2 : 2 ≤ cfg.ratio) {r : Resampler F}
    (h : cfg.Reachable r) : r.order = .ok (cfg.stageOrder 2) := by
  obtain ⟨r0, _, _, _, h0, h⟩ := h.state hv
  rw [h.evolves.order]
  have := h0.x2
  rw [if_pos h2] at this
  obtain ⟨a, -, ha, -, -, -, oa, -, -⟩ := this
  simp [Resampler.order, ha, deref, oa]

theorem Config.Reachable.sseEnabled {cfg : Config} (hv : cfg.Valid) (h2 : 2 ≤ cfg.ratio) {r : Resampler F}
    (h : cfg.Reachable r) : r.sseEnabled = .ok cfg.stageSse := by
  obtain ⟨r0, _, _, _, h0, h⟩ := h.state hv
  rw [h.evolves.sseEnabled]
  have := h0.x2
  rw [if_pos h2] at this
  obtain ⟨a, -, ha, -, -, -, -, -, sa⟩ := this
  simp [Resampler.sseEnabled, ha, deref, sa]

end Panda
