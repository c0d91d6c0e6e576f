import Verif.Props.Common
import Verif.Proofs.Invert

/-!
# `reset()`, constant queries, independent instances (C15, C16, C52)
-/

set_option linter.unusedSectionVars false

namespace Panda

open Examples

variable {F : Type} [Zero F] [One F] [Add F] [Sub F] [Mul F] [Sample F]

theorem Resampler.runOps_append {bld : Build} (r : Resampler F) (a b : List (Op F)) :
    r.runOps bld (a ++ b) =
      (r.runOps bld a >>= fun q => q.1.runOps bld b >>= fun q' => .ok (q'.1, q.2 ++ q'.2)) := by
  induction a generalizing r with
  | nil =>
    simp only [List.nil_append, Resampler.runOps, pure_eq_ok, ok_bind]
    cases r.runOps bld b <;> rfl
  | cons op a ih =>
    cases op with
    | process c =>
      simp only [List.cons_append, Resampler.runOps]
      cases r.processBlock bld c.st c.input c.n c.output with
      | error e => rfl
      | ok q =>
        simp only [ok_bind, ih]
        cases q.1.runOps bld a with
        | error e => rfl
        | ok q1 =>
          simp only [ok_bind, pure_eq_ok]
          cases q1.1.runOps bld b <;> rfl
    | reset =>
      simp only [List.cons_append, Resampler.runOps]
      cases r.reset with
      | error e => rfl
      | ok q =>
        simp only [ok_bind, ih]
        cases q.runOps bld a with
        | error e => rfl
        | ok q1 =>
          simp only [ok_bind, pure_eq_ok]
          cases q1.1.runOps bld b <;> rfl

/-! ## C15 -/

/-- **C15** After any (legal) history, `reset()` succeeds and the object equals a newly constructed one in every member;
so whatever is done afterwards (legal or not) has the same outcome as on a new object: the same output buffers, bit for
bit, or the same undefined behaviour. No law of arithmetic is used. -/
theorem C15_reset_eq_new (cfg : Config) (hv : cfg.Valid) (r : Resampler F) (h : cfg.Reachable r) :
    r.reset = cfg.new ∧
    ∀ ops : List (Op F), r.runOps cfg.bld (.reset :: ops) = (cfg.session ops).map fun q => (q.1, none :: q.2) := by
  obtain ⟨r0, _, _, hn, h0, h⟩ := h.state hv
  have hr := Resampler.reset_evolves h0 h.evolves
  refine ⟨hr.trans hn.symm, fun ops => ?_⟩
  unfold Config.session
  simp only [Resampler.runOps, hr, hn, ok_bind]
  cases r0.runOps cfg.bld ops <;> rfl

/-- **C15** as a statement about whole programs: inserting a history followed by `reset()` before a program does not
change its results. -/
theorem C15_history_forgotten (cfg : Config) (hv : cfg.Valid) (hist ops : List (Op F))
    (hc : ∀ op ∈ hist, cfg.OpOk op) (r : Resampler F) (os : List (Option (Buf F))) (h : cfg.session ops = .ok (r, os)) :
    ∃ os0, os0.length = hist.length ∧ cfg.session (hist ++ .reset :: ops) = .ok (r, os0 ++ none :: os) := by
  obtain ⟨⟨r1, os0⟩, h1, -, hf, -⟩ := Config.session_sat hv hc
  have hlen : ∀ (l : List (Op F)) (os : List (Option (Buf F))), cfg.FramedOps l os → os.length = l.length := by
    intro l
    induction l with
    | nil => intro os h; cases os with
      | nil => rfl
      | cons _ _ => exact h.elim
    | cons a l ih =>
      intro os h
      cases os with
      | nil => cases a <;> exact h.elim
      | cons b os =>
        cases a <;> cases b <;> first | exact h.elim | skip
        · simpa using ih os h.2
        · simpa using ih os h
  refine ⟨os0, hlen _ _ hf, ?_⟩
  have hreach : cfg.Reachable r1 := ⟨hist, os0, hc, h1⟩
  have key := (C15_reset_eq_new cfg hv r1 hreach).2 ops
  unfold Config.session at h1 ⊢
  obtain ⟨r0, hr0, h1⟩ := bind_ok_iff.1 h1
  rw [hr0, ok_bind, Resampler.runOps_append, h1, ok_bind, key, h]
  rfl

/-- A history and a program. -/
example : (cfg .up 4 12 true .iir).Valid ∧
    (∀ op ∈ [Op.process (call 10 40), .reset, .process (call 3 12)], (cfg .up 4 12 true .iir).OpOk op) ∧
    ∃ r os, (cfg .up 4 12 true .iir).session [Op.process (call 5 20)] = .ok (r, os) := by
  have hv : (cfg .up 4 12 true .iir).Valid := ⟨by decide, by decide, by decide⟩
  refine ⟨hv, ?_, ?_⟩
  · intro op hop
    simp only [List.mem_cons, List.not_mem_nil, or_false] at hop
    rcases hop with rfl | rfl | rfl
    · exact ⟨by decide, by decide, by decide, by decide, by decide, by decide, by decide⟩
    · trivial
    · exact ⟨by decide, by decide, by decide, by decide, by decide, by decide, by decide⟩
  · have hc : ∀ op ∈ [Op.process (call 5 20)], (cfg .up 4 12 true .iir).OpOk op := by
      intro op hop
      simp only [List.mem_cons, List.not_mem_nil, or_false] at hop
      subst hop
      exact ⟨by decide, by decide, by decide, by decide, by decide, by decide, by decide⟩
    obtain ⟨q, hq, -⟩ := Config.session_sat hv hc
    exact ⟨q.1, q.2, hq⟩

/-! ## C16 -/

/-- **C16** `order()`, `delay()` and `sse_enabled()` never change: after any sequence of `process_block` and `reset` calls
that returns, with any arguments (even illegal ones), on any object whatsoever, each of them gives the same result (or
the same null dereference) as before. -/
theorem C16_queries_constant (bld : Build) (r r' : Resampler F) (ops : List (Op F)) (os : List (Option (Buf F)))
    (h : r.runOps bld ops = .ok (r', os)) :
    r'.order = r.order ∧ r'.delay = r.delay ∧ r'.sseEnabled = r.sseEnabled := by
  have := Resampler.runOps_same h
  exact ⟨this.order, this.delay, this.sseEnabled⟩

/-- The hypothesis is met by every legal session, for example this one. -/
example : ∃ (r r' : Resampler Rat) (os : List (Option (Buf Rat))),
    r.runOps x86 [.process (call 4 1), .reset, .process (call 8 2)] = .ok (r', os) ∧ r.order = .ok 42 := by
  have hv : (cfg .down 4 20 true .fir).Valid := ⟨by decide, by decide, by decide⟩
  have hc : ∀ op ∈ [Op.process (call 4 1), .reset, .process (call 8 2)], (cfg .down 4 20 true .fir).OpOk op := by
    intro op hop
    simp only [List.mem_cons, List.not_mem_nil, or_false] at hop
    rcases hop with rfl | rfl | rfl
    · exact ⟨by decide, by decide, by decide, by decide, by decide, by decide, by decide⟩
    · trivial
    · exact ⟨by decide, by decide, by decide, by decide, by decide, by decide, by decide⟩
  obtain ⟨q, hq, -, -, r0, h0, hf, -⟩ := Config.session_sat hv hc
  unfold Config.session at hq
  rw [h0] at hq
  refine ⟨r0, q.1, q.2, hq, ?_⟩
  have := hf.x2
  rw [if_pos (by decide)] at this
  obtain ⟨a, -, ha, -, -, -, oa, -, -⟩ := this
  simp only [Resampler.order, ha, deref, oa, pure_eq_ok, ok_bind]
  rfl

/-! ## C52 -/

/-- The entries for number `k`. -/
def only {α : Type} (k : Nat) (l : List (Nat × α)) : List α := l.filterMap fun p => if p.1 = k then some p.2 else none

/-- **C52** In any interleaving of calls on any number of resamplers, each of them ends in the state and produces the
results that it would have had if only its own calls had been made. -/
theorem C52_instances_independent (bld : Build) (w w' : Nat → Resampler F) (ops : List (Nat × Op F))
    (os : List (Nat × Option (Buf F))) (h : runMany bld w ops = .ok (w', os)) (k : Nat) :
    (w k).runOps bld (only k ops) = .ok (w' k, only k os) := by
  induction ops generalizing w os with
  | nil => cases h; rfl
  | cons a ops ih =>
    obtain ⟨j, op⟩ := a
    cases op with
    | process c =>
      unfold runMany at h
      obtain ⟨⟨r, o⟩, h1, h⟩ := bind_ok_iff.1 h
      obtain ⟨⟨w1, os1⟩, h2, h⟩ := bind_ok_iff.1 h
      cases h
      have := ih _ _ h2
      by_cases hj : j = k
      · subst hj
        simp only [only, List.filterMap_cons, if_true] at this ⊢
        simp only [Resampler.runOps, h1, ok_bind]
        rw [show update w j r j = r from by simp [update]] at this
        rw [this]
        rfl
      · simp only [only, List.filterMap_cons, if_neg hj] at this ⊢
        rw [← this]
        simp [update, Ne.symm hj]
    | reset =>
      unfold runMany at h
      obtain ⟨r, h1, h⟩ := bind_ok_iff.1 h
      obtain ⟨⟨w1, os1⟩, h2, h⟩ := bind_ok_iff.1 h
      cases h
      have := ih _ _ h2
      by_cases hj : j = k
      · subst hj
        simp only [only, List.filterMap_cons, if_true] at this ⊢
        simp only [Resampler.runOps, h1, ok_bind]
        rw [show update w j r j = r from by simp [update]] at this
        rw [this]
        rfl
      · simp only [only, List.filterMap_cons, if_neg hj] at this ⊢
        rw [← this]
        simp [update, Ne.symm hj]

/-- **C52** (no interference with success) if the calls for each resampler succeed on their own, so does any interleaving. -/
theorem C52_interleaving_succeeds (bld : Build) (w : Nat → Resampler F) (ops : List (Nat × Op F))
    (h : ∀ k, ∃ q, (w k).runOps bld (only k ops) = .ok q) : ∃ w' os, runMany bld w ops = .ok (w', os) := by
  induction ops generalizing w with
  | nil => exact ⟨_, _, rfl⟩
  | cons a ops ih =>
    obtain ⟨j, op⟩ := a
    obtain ⟨q, hq⟩ := h j
    cases op with
    | process c =>
      simp only [only, List.filterMap_cons, if_true, Resampler.runOps] at hq
      obtain ⟨⟨r, o⟩, h1, hq⟩ := bind_ok_iff.1 hq
      obtain ⟨q2, h2, -⟩ := bind_ok_iff.1 hq
      obtain ⟨w', os, hw⟩ := ih (update w j r) (by
        intro k
        by_cases hj : k = j
        · subst hj
          exact ⟨q2, by simpa [update, only] using h2⟩
        · obtain ⟨q, hq⟩ := h k
          refine ⟨q, ?_⟩
          simp only [only, List.filterMap_cons, if_neg (Ne.symm hj)] at hq
          simpa [update, hj, only] using hq)
      exact ⟨w', (j, some o) :: os, by simp only [runMany, h1, ok_bind, hw]; rfl⟩
    | reset =>
      simp only [only, List.filterMap_cons, if_true, Resampler.runOps] at hq
      obtain ⟨r, h1, hq⟩ := bind_ok_iff.1 hq
      obtain ⟨q2, h2, -⟩ := bind_ok_iff.1 hq
      obtain ⟨w', os, hw⟩ := ih (update w j r) (by
        intro k
        by_cases hj : k = j
        · subst hj
          exact ⟨q2, by simpa [update, only] using h2⟩
        · obtain ⟨q, hq⟩ := h k
          refine ⟨q, ?_⟩
          simp only [only, List.filterMap_cons, if_neg (Ne.symm hj)] at hq
          simpa [update, hj, only] using hq)
      exact ⟨w', (j, none) :: os, by simp only [runMany, h1, ok_bind, hw]; rfl⟩

/-- An up- and a downsampler used alternately (all others are unused). -/
example : ∃ (w : Nat → Resampler Rat) (w' : Nat → Resampler Rat) (os : List (Nat × Option (Buf Rat))),
    runMany x86 w [(0, .process (call 4 8)), (1, .process (call 8 4)), (0, .process (call 3 6))] = .ok (w', os) := by
  obtain ⟨a, ha, h0⟩ := Resampler.new_fresh (F := Rat) (cfg := cfg .up 2 20 true .fir) ⟨by decide, by decide, by decide⟩
  obtain ⟨b, hb, h1⟩ := Resampler.new_fresh (F := Rat) (cfg := cfg .down 2 20 true .fir) ⟨by decide, by decide, by decide⟩
  refine ⟨fun k => if k = 0 then a else b, C52_interleaving_succeeds _ _ _ ?_⟩
  intro k
  match k with
  | 0 =>
    obtain ⟨q, hq, -⟩ := h0.state.runOps (ops := [.process (call 4 8), .process (call 3 6)]) ⟨by decide, by decide, by decide⟩ h0
      (by
        intro op hop
        simp only [List.mem_cons, List.not_mem_nil, or_false] at hop
        rcases hop with rfl | rfl <;>
        exact ⟨by decide, by decide, by decide, by decide, by decide, by decide, by decide⟩)
    exact ⟨q, hq⟩
  | 1 =>
    obtain ⟨q, hq, -⟩ := h1.state.runOps (ops := [.process (call 8 4)]) ⟨by decide, by decide, by decide⟩ h1
      (by
        intro op hop
        simp only [List.mem_cons, List.not_mem_nil, or_false] at hop
        subst hop
        exact ⟨by decide, by decide, by decide, by decide, by decide, by decide, by decide⟩)
    exact ⟨q, hq⟩
  | n + 2 => exact ⟨_, rfl⟩

end Panda
