import Verif.Proofs.NeedsAll
import Verif.Props.Safety

/-!
# C101: the exact contract of `process_block`
-/

set_option linter.unusedSectionVars false

namespace Panda

open Examples

variable {F : Type} [Zero F] [One F] [Add F] [Sub F] [Mul F] [Sample F]

/-- **C101** In every state that can occur, `process_block` for an admissible number of samples is defined if and only if the input
buffer holds the samples, the output buffer has room for all samples produced, and (SSE IIR downsampling) two more samples can be read
behind the input. No smaller buffer would do. -/
theorem C101_exact_contract (cfg : Config) (hv : cfg.Valid) (r : Resampler F) (h : cfg.Reachable r) (st : Stack F) (input output : Buf F)
    (n : Nat) (hn : n < 2 ^ 32) (hd : cfg.mode = .down → n % cfg.ratio = 0)
    (hl : cfg.filter = .fir → cfg.mode = .up → cfg.ratio = 2 → n < 2 ^ 31)
    (h0 : cfg.filter = .iir → cfg.ratio = 2 → (cfg.iirSse = true ∧ cfg.bld.ndebug = true) ∨ 0 < n) :
    (∃ q, r.processBlock cfg.bld st input n output = .ok q) ↔
      n ≤ input.len ∧ (match cfg.mode with | .up => n * cfg.ratio ≤ output.len | .down => n / cfg.ratio ≤ output.len) ∧
      (cfg.filter = .iir → cfg.mode = .down → cfg.iirSse = true → n ≠ 0 → 2 ≤ cfg.ratio → n + 2 ≤ input.len) := by
  have hrr := h.ratio hv
  have hmm := h.mode hv
  have hf := h.fits hv
  have hr := hv.ratio
  constructor
  · rintro ⟨q, hq⟩
    have hbehind : cfg.filter = .iir → cfg.mode = .down → cfg.iirSse = true → n ≠ 0 → 2 ≤ cfg.ratio → n + 2 ≤ input.len := by
      intro hf hm hsse hn0 hr2
      have hd := hd hm
      have : cfg.ratio = 2 ∨ cfg.ratio = 4 ∨ cfg.ratio = 8 := by
        simp only [List.mem_cons, List.not_mem_nil, or_false] at hr
        omega
      refine processBlock_down_needs hv h hf hm hsse (by omega) ?_ ?_ hq
      · rcases this with h | h | h <;> rw [h] at hd <;> omega
      · rcases this with h | h | h <;> rw [h] at hd <;> omega
    cases hm : cfg.mode with
    | up =>
      have := Resampler.post_up cfg.bld st hf (hmm.trans hm) (by rw [hrr]; exact hr) input (n := n) (fun h2 u hu => by
        rw [hrr] at h2
        obtain ⟨i, hi, hs⟩ := h.shape2 hv h2
        rw [hi] at hu
        cases hu
        cases hs with
        | firUp _ hf => exact hl hf hm h2) output q hq
      rw [hrr] at this
      exact ⟨this.1, this.2, by rw [hm] at hbehind; exact hbehind⟩
    | down =>
      have := Resampler.post_down cfg.bld st hf (hmm.trans hm) (by rw [hrr]; exact hr) input (n := n) (by rw [hrr]; exact hd hm) output q hq
      rw [hrr] at this
      exact ⟨this.1, this.2, by rw [hm] at hbehind; exact hbehind⟩
  · rintro ⟨hi, ho, hb⟩
    obtain ⟨r0, xs, zs, -, hfr, hs⟩ := h.state hv
    obtain ⟨q, hq, -⟩ := hs.step hv hfr (c := ⟨st, input, n, output⟩) ⟨hn, hi, by
      unfold Config.outLen
      cases hm : cfg.mode <;> rw [hm] at ho <;> exact ho, hd, hl, h0, hb⟩
    exact ⟨q, hq⟩

/-- A downsampler by 8 and 4000 samples, in its first state. -/
example : (cfg .down 8 24 true .iir).Valid ∧ 4000 % (cfg .down 8 24 true .iir).ratio = 0 ∧
    ∃ r : Resampler Rat, (cfg .down 8 24 true .iir).Reachable r := by
  have hv : (cfg .down 8 24 true .iir).Valid := ⟨by decide, by decide, by decide⟩
  refine ⟨hv, rfl, ?_⟩
  obtain ⟨r, h, -⟩ := Resampler.new_fresh (F := Rat) hv
  exact ⟨r, [], [], by simp, by simp [Config.session, h, Resampler.runOps]⟩

/-- An output buffer one sample too small is overrun. -/
example (r : Resampler Rat) (h : (cfg .up 4 16 true .fir).Reachable r) (st : Stack Rat) (input : Buf Rat) (addr : Nat) :
    ¬ ∃ q, r.processBlock x86 st input 100 { addr := addr, len := 399, get := fun _ => 0 } = .ok q := by
  rw [show (x86 : Build) = (cfg .up 4 16 true .fir).bld from rfl,
    C101_exact_contract _ ⟨by decide, by decide, by decide⟩ r h st input _ 100 (by decide) (by intro h; cases h) (by intro _ _ h; cases h)
      (by intro h; cases h)]
  rintro ⟨-, h, -⟩
  have h : 400 ≤ 399 := h
  omega

end Panda
