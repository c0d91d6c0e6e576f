import Verif.Proofs.Func
import Verif.Proofs.Query

/-!
# The stages of a configuration
-/

set_option linter.unusedSectionVars false

namespace Panda

variable {F : Type} [Zero F] [One F] [Add F] [Sub F] [Mul F] [Sample F]

theorem Config.stage_single {cfg : Config} (hv : cfg.Valid) {k : Nat} (hk : k ∈ [2, 4, 8]) :
    ∃ s, cfg.stage (F := F) k = [s] := by
  have h := tables_exist hk hv.precision
  unfold Config.stage
  cases hf : cfg.filter
  · obtain ⟨t, ht⟩ := Option.isSome_iff_exists.1 (h.2 (hv.iir hf))
    rw [ht]
    cases cfg.mode <;> exact ⟨_, rfl⟩
  · obtain ⟨t, ht⟩ := Option.isSome_iff_exists.1 h.1
    rw [ht]
    cases cfg.mode <;> exact ⟨_, rfl⟩

theorem Config.stages_one {cfg : Config} (h : cfg.ratio = 1) : cfg.stages (F := F) = [] := by
  unfold Config.stages
  rw [h]
  cases cfg.mode <;> rfl

theorem Config.stages_two {cfg : Config} (h : cfg.ratio = 2) : cfg.stages (F := F) = cfg.stage 2 := by
  unfold Config.stages
  rw [h]
  cases cfg.mode <;> simp

theorem Config.stages_up4 {cfg : Config} (hm : cfg.mode = .up) (h : cfg.ratio = 4) :
    cfg.stages (F := F) = cfg.stage 2 ++ cfg.stage 4 := by
  unfold Config.stages
  rw [h, hm]
  simp

theorem Config.stages_up8 {cfg : Config} (hm : cfg.mode = .up) (h : cfg.ratio = 8) :
    cfg.stages (F := F) = cfg.stage 2 ++ (cfg.stage 4 ++ cfg.stage 8) := by
  unfold Config.stages
  rw [h, hm]
  simp

theorem Config.stages_down4 {cfg : Config} (hm : cfg.mode = .down) (h : cfg.ratio = 4) :
    cfg.stages (F := F) = cfg.stage 4 ++ cfg.stage 2 := by
  unfold Config.stages
  rw [h, hm]
  simp

theorem Config.stages_down8 {cfg : Config} (hm : cfg.mode = .down) (h : cfg.ratio = 8) :
    cfg.stages (F := F) = cfg.stage 8 ++ (cfg.stage 4 ++ cfg.stage 2) := by
  unfold Config.stages
  rw [h, hm]
  simp

/-- All stages are single; which ones there are depends on mode and ratio. -/
theorem Config.stages_cases {cfg : Config} (hv : cfg.Valid) : ∃ s2 s4 s8 : Stage F,
    cfg.stage 2 = [s2] ∧ cfg.stage 4 = [s4] ∧ cfg.stage 8 = [s8] ∧
    ((cfg.ratio = 1 ∧ cfg.stages (F := F) = []) ∨
     (cfg.ratio = 2 ∧ cfg.stages = [s2]) ∨
     (cfg.ratio = 4 ∧ cfg.mode = .up ∧ cfg.stages = [s2, s4]) ∨
     (cfg.ratio = 4 ∧ cfg.mode = .down ∧ cfg.stages = [s4, s2]) ∨
     (cfg.ratio = 8 ∧ cfg.mode = .up ∧ cfg.stages = [s2, s4, s8]) ∨
     (cfg.ratio = 8 ∧ cfg.mode = .down ∧ cfg.stages = [s8, s4, s2])) := by
  obtain ⟨s2, h2⟩ := Config.stage_single (F := F) hv (k := 2) (by simp)
  obtain ⟨s4, h4⟩ := Config.stage_single (F := F) hv (k := 4) (by simp)
  obtain ⟨s8, h8⟩ := Config.stage_single (F := F) hv (k := 8) (by simp)
  refine ⟨s2, s4, s8, h2, h4, h8, ?_⟩
  have hr := hv.ratio
  simp only [List.mem_cons, List.not_mem_nil, or_false] at hr
  rcases hr with hr | hr | hr | hr
  · exact Or.inl ⟨hr, Config.stages_one hr⟩
  · exact Or.inr (Or.inl ⟨hr, by rw [Config.stages_two hr, h2]⟩)
  · cases hm : cfg.mode
    · refine Or.inr (Or.inr (Or.inl ⟨hr, rfl, ?_⟩))
      rw [Config.stages_up4 hm hr, h2, h4]; rfl
    · refine Or.inr (Or.inr (Or.inr (Or.inl ⟨hr, rfl, ?_⟩)))
      rw [Config.stages_down4 hm hr, h2, h4]; rfl
  · cases hm : cfg.mode
    · refine Or.inr (Or.inr (Or.inr (Or.inr (Or.inl ⟨hr, rfl, ?_⟩))))
      rw [Config.stages_up8 hm hr, h2, h4, h8]; rfl
    · refine Or.inr (Or.inr (Or.inr (Or.inr (Or.inr ⟨hr, rfl, ?_⟩))))
      rw [Config.stages_down8 hm hr, h2, h4, h8]; rfl

theorem StageShape.outN {cfg : Config} {s : Stage F} (h : StageShape cfg s) (n : Nat) :
    s.outN n = match cfg.mode with | .up => 2 * n | .down => n / 2 := by
  cases h with
  | firUp t hf hm => rw [hm]; rfl
  | firDown t hf hm => rw [hm]; rfl
  | iirUp t hf hm => rw [hm]; rfl
  | iirDown t hf hm => rw [hm]; rfl

theorem Config.cascadeN {cfg : Config} (hv : cfg.Valid) (n : Nat) : cascadeN (cfg.stages (F := F)) n = cfg.outLen n := by
  obtain ⟨s2, s4, s8, h2, h4, h8, h⟩ := Config.stages_cases (F := F) hv
  have e2 := (stage_shape (show s2 ∈ cfg.stage 2 by rw [h2]; simp)).outN
  have e4 := (stage_shape (show s4 ∈ cfg.stage 4 by rw [h4]; simp)).outN
  have e8 := (stage_shape (show s8 ∈ cfg.stage 8 by rw [h8]; simp)).outN
  unfold Config.outLen
  rcases h with ⟨hr, h⟩ | ⟨hr, h⟩ | ⟨hr, hm, h⟩ | ⟨hr, hm, h⟩ | ⟨hr, hm, h⟩ | ⟨hr, hm, h⟩
  · rw [h, hr]; cases cfg.mode <;> simp [Panda.cascadeN]
  · rw [h, hr]; simp only [Panda.cascadeN, e2]; cases cfg.mode <;> simp <;> omega
  all_goals
    rw [h, hr]
    simp only [hm] at e2 e4 e8 ⊢
    simp only [Panda.cascadeN, e2, e4, e8]
    omega

theorem Config.produced_length {cfg : Config} (hv : cfg.Valid) {xs ys : List F} (h : CascadeRel cfg.stages xs ys) :
    ys.length = cfg.outLen xs.length := by
  rw [h.length, Config.cascadeN hv]

/-- Two configurations that select the same filter and the same kind of code; they may differ in where the allocator
puts things and in how the library was built otherwise. -/
structure Config.SameFilter (cfg cfg' : Config) : Prop where
  mode : cfg'.mode = cfg.mode
  ratio : cfg'.ratio = cfg.ratio
  precision : cfg'.precision = cfg.precision
  filter : cfg'.filter = cfg.filter
  vec : cfg.filter = .fir → cfg'.vec = cfg.vec
  iirSse : cfg.filter = .iir → cfg'.iirSse = cfg.iirSse

theorem Config.SameFilter.stages {cfg cfg' : Config} (h : cfg.SameFilter cfg') :
    cfg'.stages (F := F) = cfg.stages := by
  have hs : ∀ k, cfg'.stage (F := F) k = cfg.stage k := by
    intro k
    unfold Config.stage
    rw [h.mode, h.precision, h.filter]
    cases hf : cfg.filter
    · rw [h.iirSse hf]; cases cfg.mode <;> rfl
    · rw [h.vec hf]; cases cfg.mode <;> rfl
  unfold Config.stages
  rw [h.mode, h.ratio]
  rw [show cfg'.stage (F := F) = cfg.stage from funext hs]

theorem Config.SameFilter.refl (cfg : Config) : cfg.SameFilter cfg := ⟨rfl, rfl, rfl, rfl, fun _ => rfl, fun _ => rfl⟩

theorem Config.stages_scalar {cfg : Config} (h : cfg.filter = .fir → cfg.vec = false) : ∀ s ∈ cfg.stages (F := F), s.Scalar := by
  intro s hs
  cases (stages_shape hs).2 with
  | firUp t hf hm => exact h hf
  | firDown t hf hm => exact h hf
  | iirUp t hf hm => trivial
  | iirDown t hf hm => trivial

theorem Config.stage_taps {cfg : Config} {k : Nat} {s : Stage F} (hs : s ∈ cfg.stage (F := F) k) :
    ∀ v t, s = .firUp v t ∨ s = .firDown v t → 2 ≤ t.length ∧ t.length % 2 = 0 := by
  intro v t h
  unfold Config.stage at hs
  split at hs <;> simp only [List.mem_map, Option.mem_toList] at hs <;> obtain ⟨d, hd, rfl⟩ := hs <;> simp at h
  · obtain ⟨-, rfl⟩ := h
    have := firTable_length hd
    simp only [List.length_map]
    omega
  · obtain ⟨-, rfl⟩ := h
    have := firTable_length hd
    simp only [List.length_map]
    omega

theorem Config.stages_taps {cfg : Config} : ∀ s ∈ cfg.stages (F := F), ∀ v t, s = .firUp v t ∨ s = .firDown v t →
    2 ≤ t.length ∧ t.length % 2 = 0 := by
  intro s hs
  have : ∃ k, s ∈ cfg.stage (F := F) k := by
    unfold Config.stages at hs
    split at hs <;> simp only [List.mem_flatten, List.mem_map, List.mem_filter] at hs <;>
      obtain ⟨l, ⟨k, -, rfl⟩, hs⟩ := hs <;> exact ⟨k, hs⟩
  obtain ⟨k, hk⟩ := this
  exact Config.stage_taps hk

/-! ## Where the input samples reappear (FIR up) -/

theorem firUp_sample {vec : Bool} {t xs ys : List F} (h2 : 2 ≤ t.length ∧ t.length % 2 = 0) (h : (Stage.firUp vec t).Rel xs ys)
    (k : Nat) (hk : t.length - 1 + 2 * k < ys.length) : seq ys (t.length - 1 + 2 * k) = seq xs k := by
  have hl := h.1
  have := (h.2 (k + t.length / 2 - 1) (by omega)).2
  rw [show 2 * (k + t.length / 2 - 1) + 1 = t.length - 1 + 2 * k by omega] at this
  rw [this]
  unfold padded
  rw [if_neg (by omega)]
  congr 1
  omega

end Panda
