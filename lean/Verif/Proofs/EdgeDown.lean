import Verif.Proofs.Edge

/-!
# Reads past the end of the input of SSE IIR downsamplers
-/

set_option linter.unusedSectionVars false

namespace Panda

variable {F : Type} [Zero F] [One F] [Add F] [Sub F] [Mul F] [Sample F]

theorem bind_ok {α β : Type} {x : Res α} {f : α → Res β} {b : β} (h : x >>= f = .ok b) : ∃ a, x = .ok a ∧ f a = .ok b := by
  cases x with
  | error e => cases h
  | ok a => exact ⟨a, rfl, h⟩

/-- An SSE IIR downsampler, as a single stage. -/
def Impl.IsDownSse : Impl F → Prop
  | .iirDownSse _ _ => True
  | _ => False

theorem Impl.IsDownSse.step {bld : Build} {st : Stack F} {i : Impl F} (hi : i.IsDownSse) {input output : Buf F} {ioff n ooff : Nat}
    {q : Impl F × Buf F} (h : i.processBlock bld st input ioff n output ooff = .ok q) :
    q.1.IsDownSse ∧ (2 ≤ n → ioff + 2 * (n / 2) + 2 ≤ input.len) := by
  cases i <;> first | exact hi.elim | skip
  rename_i f dl
  unfold Impl.processBlock at h
  obtain ⟨p, hp, hq⟩ := bind_ok h
  cases hq
  refine ⟨trivial, fun h2 => ?_⟩
  refine Nat.le_of_not_lt fun hl => ?_
  exact SseFilter.downBlock_oob (by omega) (by omega) ⟨p, hp⟩

/-- The stage that reads the input. -/
def Resampler.Outer (r : Resampler F) : Prop :=
  r.mode = .down ∧ (r.ratio = 4 ∧ (∃ i, r.implX4 = some i ∧ i.IsDownSse) ∨ r.ratio ≠ 4 ∧ ∃ i, r.implX8 = some i ∧ i.IsDownSse)

theorem Resampler.Outer.body {bld : Build} {st : Stack F} {input : Buf F} {s s' : RLoop F} (h : s.r.Outer)
    (hs : Resampler.loopBody bld st input s = .ok s') (h2 : 2 ≤ s.n) :
    s'.r.Outer ∧ s.ioff + 2 * (min 1024 s.n / 2) + 2 ≤ input.len ∧ s'.n = s.n - min 1024 s.n ∧ s'.ioff = s.ioff + min 1024 s.n := by
  obtain ⟨hm, h⟩ := h
  unfold Resampler.loopBody at hs
  simp only [hm] at hs
  rcases h with ⟨hr, i, hi, hd⟩ | ⟨hr, i, hi, hd⟩
  · rw [if_pos hr, hi] at hs
    obtain ⟨_, h1, hs⟩ := bind_ok hs
    cases h1
    obtain ⟨q1, hq1, hs⟩ := bind_ok hs
    obtain ⟨d2, -, hs⟩ := bind_ok hs
    obtain ⟨q2, -, hs⟩ := bind_ok hs
    cases hs
    obtain ⟨a, b⟩ := hd.step hq1
    exact ⟨⟨rfl, Or.inl ⟨hr, _, rfl, a⟩⟩, b (by omega), rfl, rfl⟩
  · rw [if_neg hr, hi] at hs
    obtain ⟨_, h1, hs⟩ := bind_ok hs
    cases h1
    obtain ⟨q1, hq1, hs⟩ := bind_ok hs
    obtain ⟨d2, -, hs⟩ := bind_ok hs
    obtain ⟨q2, -, hs⟩ := bind_ok hs
    obtain ⟨d3, -, hs⟩ := bind_ok hs
    obtain ⟨q3, -, hs⟩ := bind_ok hs
    cases hs
    obtain ⟨a, b⟩ := hd.step hq1
    exact ⟨⟨rfl, Or.inr ⟨hr, _, rfl, a⟩⟩, b (by omega), rfl, rfl⟩

theorem Resampler.Outer.loop {bld : Build} {st : Stack F} {input : Buf F} (fuel : Nat) {s s' : RLoop F} (h : s.r.Outer)
    (hs : whileF (fun s : RLoop F => s.n ≠ 0) (Resampler.loopBody bld st input) fuel s = .ok s') (h2 : 2 ≤ s.n) (he : s.n % 2 = 0) :
    s.ioff + s.n + 2 ≤ input.len := by
  induction fuel generalizing s with
  | zero =>
    unfold whileF at hs
    rw [if_pos (by simp; omega)] at hs
    cases hs
  | succ fuel ih =>
    unfold whileF at hs
    rw [if_pos (by simp; omega)] at hs
    obtain ⟨s1, hb, hs⟩ := bind_ok hs
    obtain ⟨a, b, c, d⟩ := h.body hb h2
    by_cases hn : s.n ≤ 1024
    · rw [Nat.min_eq_right hn] at b
      omega
    · have := ih a hs (by rw [c]; omega) (by rw [c]; omega)
      rw [c, d] at this
      omega

/-- The stage that reads the input. -/
theorem Config.Reachable.outer {cfg : Config} (hv : cfg.Valid) {r : Resampler F} (h : cfg.Reachable r) (hf : cfg.filter = .iir)
    (hm : cfg.mode = .down) (hsse : cfg.iirSse = true) (hr : cfg.ratio ≠ 1) :
    (cfg.ratio = 2 ∧ ∃ i, r.implX2 = some i ∧ i.IsDownSse) ∨ (cfg.ratio ≠ 2 ∧ r.Outer) := by
  have hrr := h.ratio hv
  have hmm := h.mode hv
  obtain ⟨r0, xs, zs, -, h0, h⟩ := h.state hv
  have key : ∀ p l, r.path = p :: l → ∃ i, p = some i ∧ i.IsDownSse := by
    intro p l hp
    have hi := h.inv
    rw [hp] at hi
    cases hs : (cfg.stages : List (Stage F)) with
    | nil => rw [hs] at hi; exact hi.elim
    | cons s ss =>
      rw [hs] at hi
      cases p with
      | none => exact hi.elim
      | some i =>
        obtain ⟨ys, h1, -, -⟩ := hi
        refine ⟨i, rfl, ?_⟩
        have := implShape_of (stages_shape (by rw [hs]; simp)).2 h1
        cases this with
        | firUp _ h => rw [hf] at h; cases h
        | firDown _ h => rw [hf] at h; cases h
        | iirUp _ _ _ h => rw [hm] at h; cases h
        | iirUpSse _ _ _ h => rw [hm] at h; cases h
        | iirDown _ _ _ _ h => rw [hsse] at h; cases h
        | iirDownSse f dl => trivial
  have hp : r.path = if r.ratio = 1 then [] else if r.ratio = 2 then [r.implX2] else if r.ratio = 4 then [r.implX4, r.implX2]
      else [r.implX8, r.implX4, r.implX2] := by
    unfold Resampler.path
    rw [hmm, hm]
  rw [hrr, if_neg hr] at hp
  by_cases h2 : cfg.ratio = 2
  · rw [if_pos h2] at hp
    exact Or.inl ⟨h2, key _ _ hp⟩
  · rw [if_neg h2] at hp
    refine Or.inr ⟨h2, hmm.trans hm, ?_⟩
    by_cases h4 : cfg.ratio = 4
    · rw [if_pos h4] at hp
      exact Or.inl ⟨hrr.trans h4, key _ _ hp⟩
    · rw [if_neg h4] at hp
      exact Or.inr ⟨by rw [hrr]; exact h4, key _ _ hp⟩

theorem processBlock_down_needs {cfg : Config} (hv : cfg.Valid) {r : Resampler F} (h : cfg.Reachable r) (hf : cfg.filter = .iir)
    (hm : cfg.mode = .down) (hsse : cfg.iirSse = true) (hr : cfg.ratio ≠ 1) {st : Stack F} {input output : Buf F} {n : Nat}
    (h2 : 2 ≤ n) (he : n % 2 = 0) {q : Resampler F × Buf F} (hq : r.processBlock cfg.bld st input n output = .ok q) :
    n + 2 ≤ input.len := by
  have hrr := h.ratio hv
  rcases h.outer hv hf hm hsse hr with ⟨h2', i, hi, hd⟩ | ⟨h2', ho⟩
  · rw [Resampler.processBlock_two (hrr.trans h2') hi] at hq
    obtain ⟨p, hp, -⟩ := bind_ok hq
    have := (hd.step hp).2 h2
    omega
  · unfold Resampler.processBlock at hq
    rw [if_neg (by rw [hrr]; exact h2'), if_neg (by rw [hrr]; exact hr)] at hq
    obtain ⟨s, hs, -⟩ := bind_ok hq
    have := ho.loop n hs h2 he
    simpa using this

end Panda
