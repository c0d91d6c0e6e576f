import Verif.Proofs.Split
import Verif.Proofs.Exact
import Verif.Model.Float
import Verif.Props.Common
import Mathlib.Tactic.LinearCombination

/-!
# C42, C43: band splitting and overlapping buffers (hiir)
-/

set_option linter.unusedSectionVars false

namespace Panda

variable {F : Type} [Zero F] [One F] [Add F] [Sub F] [Mul F] [Sample F]

/-! ## C42 -/

/-- **C42 (FPU), bit for bit.** For every coefficient set and every history of calls, `process_block_split` succeeds, leaves the
object in the same state as `process_block` would, and with `A`, `B` the signals of the two polyphase branches the low band is
`(A + B) * 0.5` (`process_block`: `0.5 * (A + B)`) and the high band is `A - low`. -/
theorem C42_split_fpu (bld : Build) (cs : Buf F) (hcs : 0 < cs.len) (f : FpuFilter F) (xs : List F)
    (hr : FpuFilter.Reach cs f xs) (input o outL outH : Buf F) (ioff n ooff loff hoff : Nat) (hn : 0 < n)
    (hin : ioff + 2 * n ≤ input.len) (ho : ooff + n ≤ o.len) (hl : loff + n ≤ outL.len) (hh : hoff + n ≤ outH.len) :
    let A := branchOut cs.len cs.get 0 (odds (seq (xs ++ input.slice ioff (2 * n))))
    let B := branchOut cs.len cs.get 1 (evens (seq (xs ++ input.slice ioff (2 * n))))
    ∃ f' o' l h, f.downBlock bld input ioff n o ooff = .ok (f', o') ∧
      f.splitBlock bld input ioff n outL loff outH hoff = .ok (f', l, h) ∧
      (∀ i < n, o'.get (ooff + i) = Sample.half * (A (xs.length / 2 + i) + B (xs.length / 2 + i)) ∧
        l.get (loff + i) = (A (xs.length / 2 + i) + B (xs.length / 2 + i)) * Sample.half ∧
        h.get (hoff + i) = A (xs.length / 2 + i) - l.get (loff + i)) ∧
      (∀ j, j < loff ∨ loff + n ≤ j → l.get j = outL.get j) ∧ ∀ j, j < hoff ∨ hoff + n ≤ j → h.get j = outH.get j := by
  intro A B
  obtain ⟨h1, h2, h3⟩ := hr.inv hcs
  have hm := h3.congr (y0 := odds (seq (xs ++ input.slice ioff (2 * n)))) (y1 := evens (seq (xs ++ input.slice ioff (2 * n))))
    (fun i hi => odds_append_left hi) fun i hi => evens_append_left hi
  have he : ∀ i < n, input.get (ioff + 2 * i) = evens (seq (xs ++ input.slice ioff (2 * n))) (xs.length / 2 + i) :=
    fun i hi => by rw [evens_append h2, Buf.seq_slice (by omega)]
  have hO : ∀ i < n, input.get (ioff + 2 * i + 1) = odds (seq (xs ++ input.slice ioff (2 * n))) (xs.length / 2 + i) :=
    fun i hi => by rw [odds_append h2, Buf.seq_slice (by omega), Nat.add_assoc]
  obtain ⟨⟨f', o'⟩, e1, _, _, _, _, _, q1, _⟩ := FpuFilter.downBlock_sat (bld := bld) h1 hm hn hin he hO ho
  obtain ⟨⟨f2, l, h⟩, e2, _, _, _, _, q2, q3, q4⟩ := FpuFilter.splitBlock_sat (bld := bld) h1 hm hn hin he hO hl hh
  obtain ⟨l', u', e3, _⟩ := FpuFilter.split_sim (outL := outL) (outH := outH) hn hl hh e1
  rw [e2] at e3
  simp only [Except.ok.injEq, Prod.mk.injEq] at e3
  obtain ⟨rfl, rfl, rfl⟩ := e3
  exact ⟨_, o', l, h, e1, e2, fun i hi => ⟨q1 i hi, q2 i hi⟩, q3, q4⟩

/-- **C42 (SSE), bit for bit.** The low band is `A * 0.5 + B * 0.5` (`process_block`: `(B + A) * 0.5`), the high band
`A * 0.5 - B * 0.5`; the state is the same as after `process_block`. -/
theorem C42_split_sse (bld : Build) (cs : Buf F) (hcs : 0 < cs.len) (f : SseFilter F) (xs : List F)
    (hr : SseFilter.Reach cs f xs) (input o outL outH : Buf F) (ioff n ooff loff hoff : Nat) (hn : 0 < n)
    (hin : ioff + 2 * n + 2 ≤ input.len) (ho : ooff + n ≤ o.len) (hl : loff + n ≤ outL.len) (hh : hoff + n ≤ outH.len) :
    let A := branchOut cs.len cs.get 0 (odds (seq (xs ++ input.slice ioff (2 * n))))
    let B := iirBranch1 true cs.len cs.get (evens (seq (xs ++ input.slice ioff (2 * n))))
    ∃ f' o' l h, f.downBlock bld input ioff n o ooff = .ok (f', o') ∧
      f.splitBlock bld input ioff n outL loff outH hoff = .ok (f', l, h) ∧
      (∀ i < n, o'.get (ooff + i) = (B (xs.length / 2 + i) + A (xs.length / 2 + i)) * Sample.half ∧
        l.get (loff + i) = A (xs.length / 2 + i) * Sample.half + B (xs.length / 2 + i) * Sample.half ∧
        h.get (hoff + i) = A (xs.length / 2 + i) * Sample.half - B (xs.length / 2 + i) * Sample.half) ∧
      (∀ j, j < loff ∨ loff + n ≤ j → l.get j = outL.get j) ∧ ∀ j, j < hoff ∨ hoff + n ≤ j → h.get j = outH.get j := by
  intro A B
  obtain ⟨h1, h2, h3⟩ := hr.inv hcs
  have hm := h3.congr (y1 := odds (seq (xs ++ input.slice ioff (2 * n)))) (y0 := evens (seq (xs ++ input.slice ioff (2 * n))))
    (fun i hi => evens_append_left hi) fun i hi => odds_append_left hi
  have he : ∀ i < n, input.get (ioff + 2 * i) = evens (seq (xs ++ input.slice ioff (2 * n))) (xs.length / 2 + i) :=
    fun i hi => by rw [evens_append h2, Buf.seq_slice (by omega)]
  have hO : ∀ i < n, input.get (ioff + 2 * i + 1) = odds (seq (xs ++ input.slice ioff (2 * n))) (xs.length / 2 + i) :=
    fun i hi => by rw [odds_append h2, Buf.seq_slice (by omega), Nat.add_assoc]
  obtain ⟨⟨f', o'⟩, e1, _, _, _, _, _, q1, _⟩ := SseFilter.downBlock_sat (bld := bld) h1 hm (.inr hn) (fun _ => hin) he hO ho
  obtain ⟨⟨f2, l, h⟩, e2, _, _, _, _, q2, q3, q4⟩ := SseFilter.splitBlock_sat (bld := bld) h1 hm hn hin he hO hl hh
  obtain ⟨l', u', e3, _⟩ := SseFilter.split_sim (outL := outL) (outH := outH) hl hh e1
  rw [e2] at e3
  simp only [Except.ok.injEq, Prod.mk.injEq] at e3
  obtain ⟨rfl, rfl, rfl⟩ := e3
  refine ⟨_, o', l, h, e1, e2, fun i hi => ⟨?_, q2 i hi⟩, q3, q4⟩
  rw [q1 i hi, chain_odd_eq, chain_even_eq]

section Exact
variable {K : Type} [CommRing K] [Sample K]

/-- **C42 (FPU), exact arithmetic.** The low band equals the output of `process_block` for the same input, and the sum and the
difference of low and high band are the two branch signals. -/
theorem C42_bands_fpu (h2 : (Sample.half : K) + Sample.half = 1) (bld : Build) (cs : Buf K) (hcs : 0 < cs.len) (f : FpuFilter K)
    (xs : List K) (hr : FpuFilter.Reach cs f xs) (input o outL outH : Buf K) (ioff n ooff loff hoff : Nat) (hn : 0 < n)
    (hin : ioff + 2 * n ≤ input.len) (ho : ooff + n ≤ o.len) (hl : loff + n ≤ outL.len) (hh : hoff + n ≤ outH.len) :
    ∃ f' o' l h, f.downBlock bld input ioff n o ooff = .ok (f', o') ∧
      f.splitBlock bld input ioff n outL loff outH hoff = .ok (f', l, h) ∧
      ∀ i < n, l.get (loff + i) = o'.get (ooff + i) ∧
        l.get (loff + i) + h.get (hoff + i) =
          branchOut cs.len cs.get 0 (odds (seq (xs ++ input.slice ioff (2 * n)))) (xs.length / 2 + i) ∧
        l.get (loff + i) - h.get (hoff + i) =
          branchOut cs.len cs.get 1 (evens (seq (xs ++ input.slice ioff (2 * n)))) (xs.length / 2 + i) := by
  obtain ⟨f', o', l, h, e1, e2, q, _⟩ := C42_split_fpu bld cs hcs f xs hr input o outL outH ioff n ooff loff hoff hn hin ho hl hh
  refine ⟨f', o', l, h, e1, e2, fun i hi => ?_⟩
  obtain ⟨q1, q2, q3⟩ := q i hi
  refine ⟨by rw [q1, q2, mul_comm], by rw [q3]; ring, ?_⟩
  rw [q3, q2]
  linear_combination (branchOut cs.len cs.get 0 (odds (seq (xs ++ input.slice ioff (2 * n)))) (xs.length / 2 + i)
    + branchOut cs.len cs.get 1 (evens (seq (xs ++ input.slice ioff (2 * n)))) (xs.length / 2 + i)) * h2

/-- **C42 (SSE), exact arithmetic.** -/
theorem C42_bands_sse (h2 : (Sample.half : K) + Sample.half = 1) (bld : Build) (cs : Buf K) (hcs : 0 < cs.len) (f : SseFilter K)
    (xs : List K) (hr : SseFilter.Reach cs f xs) (input o outL outH : Buf K) (ioff n ooff loff hoff : Nat) (hn : 0 < n)
    (hin : ioff + 2 * n + 2 ≤ input.len) (ho : ooff + n ≤ o.len) (hl : loff + n ≤ outL.len) (hh : hoff + n ≤ outH.len) :
    ∃ f' o' l h, f.downBlock bld input ioff n o ooff = .ok (f', o') ∧
      f.splitBlock bld input ioff n outL loff outH hoff = .ok (f', l, h) ∧
      ∀ i < n, l.get (loff + i) = o'.get (ooff + i) ∧
        l.get (loff + i) + h.get (hoff + i) =
          branchOut cs.len cs.get 0 (odds (seq (xs ++ input.slice ioff (2 * n)))) (xs.length / 2 + i) ∧
        l.get (loff + i) - h.get (hoff + i) =
          branchOut cs.len cs.get 1 (evens (seq (xs ++ input.slice ioff (2 * n)))) (xs.length / 2 + i) := by
  obtain ⟨f', o', l, h, e1, e2, q, _⟩ := C42_split_sse bld cs hcs f xs hr input o outL outH ioff n ooff loff hoff hn hin ho hl hh
  refine ⟨f', o', l, h, e1, e2, fun i hi => ?_⟩
  obtain ⟨q1, q2, q3⟩ := q i hi
  rw [iirBranch1_eq] at q1 q2 q3
  refine ⟨by rw [q1, q2]; ring, ?_, ?_⟩
  · rw [q3, q2]
    linear_combination branchOut cs.len cs.get 0 (odds (seq (xs ++ input.slice ioff (2 * n)))) (xs.length / 2 + i) * h2
  · rw [q3, q2]
    linear_combination branchOut cs.len cs.get 1 (evens (seq (xs ++ input.slice ioff (2 * n)))) (xs.length / 2 + i) * h2

end Exact

/-- Multiplication of floats does not depend on the order of the factors. -/
theorem Fl.mul_half {S : Format} (a : Fl S) : a * Sample.half = Sample.half * a := by
  change Fl.op (· * ·) a Sample.half = Fl.op (· * ·) Sample.half a
  cases a with
  | none => rfl
  | some q =>
    change Fl.mk S (q * (1 / 2)) = Fl.mk S (1 / 2 * q)
    rw [mul_comm]

/-- **C42 (FPU), floating point.** In any floating point format the low band is bit for bit the output of `process_block`. -/
theorem C42_low_fpu_float {S : Format} (bld : Build) (cs : Buf (Fl S)) (hcs : 0 < cs.len) (f : FpuFilter (Fl S)) (xs : List (Fl S))
    (hr : FpuFilter.Reach cs f xs) (input o outL outH : Buf (Fl S)) (ioff n ooff loff hoff : Nat) (hn : 0 < n)
    (hin : ioff + 2 * n ≤ input.len) (ho : ooff + n ≤ o.len) (hl : loff + n ≤ outL.len) (hh : hoff + n ≤ outH.len) :
    ∃ f' o' l h, f.downBlock bld input ioff n o ooff = .ok (f', o') ∧
      f.splitBlock bld input ioff n outL loff outH hoff = .ok (f', l, h) ∧ ∀ i < n, l.get (loff + i) = o'.get (ooff + i) := by
  obtain ⟨f', o', l, h, e1, e2, q, _⟩ := C42_split_fpu bld cs hcs f xs hr input o outL outH ioff n ooff loff hoff hn hin ho hl hh
  refine ⟨f', o', l, h, e1, e2, fun i hi => ?_⟩
  obtain ⟨q1, q2, _⟩ := q i hi
  rw [q1, q2, Fl.mul_half]

/-! ## C43 -/

/-- **C43 (upsampler, FPU).** If `process_block` into a separate buffer is fine, then so is `process_block` into the memory that
holds the input, for every position of the output that the assert permits: same state afterwards, same output samples, nothing
else overwritten. For every state of the filter and all buffer contents. -/
theorem C43_up_fpu (bld : Build) (f f' : FpuFilter F) (m o o' : Buf F) (ioff n ooff ooff' : Nat) (hn : 0 < n)
    (hassert : ooff ≥ ioff + n ∨ ioff ≥ ooff + n) (hlen : ooff + 2 * n ≤ m.len)
    (h : f.upBlock bld m ioff n o ooff' = .ok (f', o')) :
    ∃ m', f.upBlockMem bld m ioff n ooff = .ok (f', m') ∧
      (∀ i < 2 * n, m'.get (ooff + i) = o'.get (ooff' + i)) ∧ ∀ j, j < ooff ∨ ooff + 2 * n ≤ j → m'.get j = m.get j := by
  obtain ⟨m', h1, _, _, h2, h3⟩ := FpuFilter.up_overlap hn hassert hlen h
  exact ⟨m', h1, h2, h3⟩

/-- **C43 (upsampler, SSE).** -/
theorem C43_up_sse (bld : Build) (f f' : SseFilter F) (m o o' : Buf F) (ioff n ooff ooff' : Nat)
    (hassert : ooff ≥ ioff + n ∨ ioff ≥ ooff + n) (hlen : ooff + 2 * n ≤ m.len)
    (h : f.upBlock bld m ioff n o ooff' = .ok (f', o')) :
    ∃ m', f.upBlockMem bld m ioff n ooff = .ok (f', m') ∧
      (∀ i < 2 * n, m'.get (ooff + i) = o'.get (ooff' + i)) ∧ ∀ j, j < ooff ∨ ooff + 2 * n ≤ j → m'.get j = m.get j := by
  obtain ⟨m', h1, _, _, h2, h3⟩ := SseFilter.up_overlap hassert hlen h
  exact ⟨m', h1, h2, h3⟩

/-- **C43 (downsampler, FPU).** -/
theorem C43_down_fpu (bld : Build) (f f' : FpuFilter F) (m o o' : Buf F) (ioff n ooff ooff' : Nat) (hn : 0 < n)
    (hassert : ooff ≤ ioff ∨ ooff ≥ ioff + n * 2) (hlen : ooff + n ≤ m.len)
    (h : f.downBlock bld m ioff n o ooff' = .ok (f', o')) :
    ∃ m', f.downBlockMem bld m ioff n ooff = .ok (f', m') ∧
      (∀ i < n, m'.get (ooff + i) = o'.get (ooff' + i)) ∧ ∀ j, j < ooff ∨ ooff + n ≤ j → m'.get j = m.get j := by
  obtain ⟨m', h1, _, _, h2, h3⟩ := FpuFilter.down_overlap hn hassert hlen h
  exact ⟨m', h1, h2, h3⟩

/-- **C43 (downsampler, SSE).** The vector loads read two samples that may have been overwritten already; they end up in lanes 2
and 3 of the filter memory only. The state is the same in lanes 0 and 1, from which all outputs are computed
(`C43_lanes_irrelevant`). -/
theorem C43_down_sse (bld : Build) (f f' : SseFilter F) (m o o' : Buf F) (ioff n ooff ooff' : Nat)
    (hassert : ooff ≤ ioff ∨ ooff ≥ ioff + n * 2) (hlen : ooff + n ≤ m.len)
    (h : f.downBlock bld m ioff n o ooff' = .ok (f', o')) :
    ∃ f'' m', f.downBlockMem bld m ioff n ooff = .ok (f'', m') ∧ f'.Low f'' ∧
      (∀ i < n, m'.get (ooff + i) = o'.get (ooff' + i)) ∧ ∀ j, j < ooff ∨ ooff + n ≤ j → m'.get j = m.get j := by
  obtain ⟨f'', m', h1, hL, _, _, h2, h3⟩ := SseFilter.down_overlap hassert hlen h
  exact ⟨f'', m', h1, hL, h2, h3⟩

/-- States that agree in lanes 0 and 1 cannot be told apart: the next call yields the same samples, and again states that agree
in lanes 0 and 1. -/
theorem C43_lanes_irrelevant (bld : Build) (f g f' : SseFilter F) (hfg : f.Low g) (input o o' : Buf F) (ioff n ooff : Nat)
    (h : f.downBlock bld input ioff n o ooff = .ok (f', o')) :
    ∃ g', g.downBlock bld input ioff n o ooff = .ok (g', o') ∧ f'.Low g' := by
  unfold SseFilter.downBlock at h ⊢
  obtain ⟨u, h1, h⟩ := bind_ok h
  rw [h1, ok_bind]
  obtain ⟨a, b, e, hab, rfl⟩ : ∃ a b, forN (fun pos (s : SseFilter F × Buf F) => do
        let x ← input.ld4u (ioff + pos * 2)
        let (x, mem) ← stageProcSsePos s.1.addr s.1.coef (nbrStages s.1.nbrCoefs) x s.1.mem
        let output ← s.2.wr (ooff + pos) ((x.x0 + x.x1) * Sample.half)
        pure ({ s.1 with mem := mem }, output)) n (g, o) = .ok (a, b) ∧ f'.Low a ∧ b = o' := by
    refine forN_sim_pair' (s := (f, o)) (t := (g, o)) (fun k (s t : SseFilter F × Buf F) => s.1.Low t.1 ∧ t.2 = s.2) ?_ ⟨hfg, rfl⟩ h ?_
    · rintro k hk ⟨a, b⟩ ⟨a', b'⟩ ⟨t, l⟩ ⟨h1, h2⟩ hs
      simp only at h1 h2 hs ⊢
      subst h2
      obtain ⟨x, r1, hs⟩ := bind_ok hs
      rw [r1, ok_bind]
      obtain ⟨⟨y, mm⟩, hp, hs⟩ := bind_ok hs
      obtain ⟨y', mm', e', ly, lm⟩ := stageProcSsePos_low h1.2.2.2 (y := x) ⟨rfl, rfl⟩ hp
      rw [← h1.1, ← h1.2.1, ← h1.2.2.1, e', ok_bind]
      obtain ⟨b2, hw, hs⟩ := bind_ok hs
      simp only [pure_eq_ok, Except.ok.injEq, Prod.mk.injEq] at hs
      simp only
      rw [← ly.1, ← ly.2]
      simp only at hw
      rw [hw, ok_bind]
      refine ⟨_, rfl, ⟨?_, ?_, ?_, ?_⟩, hs.2⟩
      · rw [← hs.1]
      · rw [← hs.1]
      · rw [← hs.1]
      · rw [← hs.1]; exact lm
    · exact fun t ht => ht
  exact ⟨a, e, hab⟩

/-- **C43 (splitter, FPU)**, for outputs that do not overlap each other. Missing: the asserts (`out_h_ptr != out_l_ptr`) also
permit outputs that overlap; then the statement is false, see `C43_false_split`. -/
theorem C43_split_fpu_partial (bld : Build) (f f' : FpuFilter F) (m outL outH l u : Buf F) (ioff n loff hoff loff' hoff' : Nat)
    (hn : 0 < n) (hassertl : loff ≤ ioff ∨ loff ≥ ioff + n * 2) (hasserth : hoff ≤ ioff ∨ hoff ≥ ioff + n * 2)
    (hdis : loff + n ≤ hoff ∨ hoff + n ≤ loff) (hlen : loff + n ≤ m.len) (hlen' : hoff + n ≤ m.len)
    (h : f.splitBlock bld m ioff n outL loff' outH hoff' = .ok (f', l, u)) :
    ∃ m', f.splitBlockMem bld m ioff n loff hoff = .ok (f', m') ∧
      (∀ i < n, m'.get (loff + i) = l.get (loff' + i) ∧ m'.get (hoff + i) = u.get (hoff' + i)) ∧
      ∀ j, (j < loff ∨ loff + n ≤ j) → (j < hoff ∨ hoff + n ≤ j) → m'.get j = m.get j := by
  obtain ⟨m', h1, _, _, h2, h3⟩ := FpuFilter.split_overlap hn hassertl hasserth hdis hlen hlen' h
  exact ⟨m', h1, h2, h3⟩

/-- **C43 (splitter, SSE)**, for outputs that do not overlap each other. -/
theorem C43_split_sse_partial (bld : Build) (f f' : SseFilter F) (m outL outH l u : Buf F) (ioff n loff hoff loff' hoff' : Nat)
    (hn : 0 < n) (hassertl : loff ≤ ioff ∨ loff ≥ ioff + n * 2) (hasserth : hoff ≤ ioff ∨ hoff ≥ ioff + n * 2)
    (hdis : loff + n ≤ hoff ∨ hoff + n ≤ loff) (hlen : loff + n ≤ m.len) (hlen' : hoff + n ≤ m.len)
    (h : f.splitBlock bld m ioff n outL loff' outH hoff' = .ok (f', l, u)) :
    ∃ f'' m', f.splitBlockMem bld m ioff n loff hoff = .ok (f'', m') ∧ f'.Low f'' ∧
      (∀ i < n, m'.get (loff + i) = l.get (loff' + i) ∧ m'.get (hoff + i) = u.get (hoff' + i)) ∧
      ∀ j, (j < loff ∨ loff + n ≤ j) → (j < hoff ∨ hoff + n ≤ j) → m'.get j = m.get j := by
  obtain ⟨f'', m', h1, hL, _, _, h2, h3⟩ := SseFilter.split_overlap hn hassertl hasserth hdis hlen hlen' h
  exact ⟨f'', m', h1, hL, h2, h3⟩

/-! ## Concrete cases, and where the statements fail -/

open Examples

/-- A build with asserts. -/
def Examples.debugBuild : Build := { sse := true, neon := false, ndebug := false }

/-- Three coefficients. -/
private def coefs3 : Buf Rat := Buf.ofList 0 0 [1 / 8, 1 / 2, 7 / 8]

private def samples (l : List Rat) : Buf Rat := Buf.ofList 0 4 l

/-- A non-trivial history: block of 2, split of 1, clear, block of 3. -/
example : ∃ f xs, FpuFilter.Reach coefs3 f xs ∧ xs = [3, 4, 5, 6, 7, 8] := by
  obtain ⟨f0, e0, h0, _⟩ := FpuFilter.new_sat (cs := coefs3) (by decide)
  have r0 := FpuFilter.Reach.new e0
  obtain ⟨f1, o1, _, _, e1, _⟩ := C42_split_fpu debugBuild coefs3 (by decide) f0 _ r0 (ramp 4) (outBuf 2) (outBuf 2) (outBuf 2)
    0 2 0 0 0 (by decide) (by decide) (by decide) (by decide) (by decide)
  have r1 := r0.block (by decide) (by decide) (by decide) e1
  obtain ⟨f2, _, l, h, _, e2, _⟩ := C42_split_fpu debugBuild coefs3 (by decide) f1 _ r1 (ramp 4) (outBuf 2) (outBuf 2) (outBuf 2)
    2 1 0 1 0 (by decide) (by decide) (by decide) (by decide) (by decide)
  have r2 := r1.split (by decide) (by decide) (by decide) (by decide) e2
  obtain ⟨f3, e3, _⟩ := FpuFilter.clearBuffers_sat (r2.inv (by decide)).1
  have r3 := r2.clear e3
  obtain ⟨f4, o4, _, _, e4, _⟩ := C42_split_fpu debugBuild coefs3 (by decide) f3 _ r3 (ramp 8) (outBuf 3) (outBuf 3) (outBuf 3)
    2 3 0 0 0 (by decide) (by decide) (by decide) (by decide) (by decide)
  exact ⟨f4, _, r3.block (by decide) (by decide) (by decide) e4, by decide +kernel⟩

/-- Band splitting by the SSE version, and its numbers. -/
example : ∃ f f' l h, SseFilter.new 32 coefs3 = .ok f ∧
    f.splitBlock debugBuild (samples [1, 2, 3, 4, 0, 0]) 0 2 (samples [0, 0]) 0 (samples [0, 0]) 0 = .ok (f', l, h) ∧
    l.toList 2 = [23 / 64, 143 / 64] ∧ h.toList 2 = [-9 / 64, -1 / 64] := by
  obtain ⟨f, e, _⟩ := SseFilter.new_sat (cs := coefs3) (addr := 32) (by decide) (by decide)
  obtain ⟨f', _, l, h, _, e2, q, _⟩ := C42_split_sse debugBuild coefs3 (by decide) f _ (.new (by decide) e)
    (samples [1, 2, 3, 4, 0, 0]) (samples [0, 0]) (samples [0, 0]) (samples [0, 0]) 0 2 0 0 0 (by decide) (by decide) (by decide)
    (by decide) (by decide)
  refine ⟨f, f', l, h, e, e2, ?_, ?_⟩ <;>
  · obtain ⟨_, p2, p3⟩ := q 0 (by decide)
    obtain ⟨_, p5, p6⟩ := q 1 (by decide)
    simp only [Nat.zero_add] at p2 p3 p5 p6
    simp only [Buf.toList, List.range, List.range.loop, List.map, p2, p3, p5, p6]
    decide +kernel

/-- Coefficients 0 (one section that only delays), binary32. -/
private def coef0 : Buf (Fl binary32) := Buf.ofList 0 0 [0]

/-- 2^127 -/
private def big : Fl binary32 := Fl.fin 170141183460469231731687303715884105728

/-- **C42 is false for the SSE version in binary32 arithmetic.** With samples of size 2^127 the low band is finite, while
`process_block` overflows for the same input in the same state. -/
theorem C42_false_sse_binary32 : ∃ (cs : Buf (Fl binary32)) (f f' : SseFilter (Fl binary32)) (input o o' l l' h h' : Buf (Fl binary32))
    (n : Nat), SseFilter.Reach cs f [] ∧ f.downBlock Examples.x86 input 0 n o 0 = .ok (f', o') ∧
      f.splitBlock Examples.x86 input 0 n l 0 h 0 = .ok (f', l', h') ∧ ∃ i < n, o'.get i ≠ l'.get i := by
  obtain ⟨f, e, _⟩ := SseFilter.new_sat (cs := coef0) (addr := 32) (by decide) (by decide)
  obtain ⟨f', o', l, h, e1, e2, q, _⟩ := C42_split_sse Examples.x86 coef0 (by decide) f _ (.new (by decide) e)
    (Buf.ofList 0 0 [big, big, big, big, 0, 0]) (Buf.ofList 0 0 [0, 0]) (Buf.ofList 0 0 [0, 0]) (Buf.ofList 0 0 [0, 0])
    0 2 0 0 0 (by decide) (by decide) (by decide) (by decide) (by decide)
  refine ⟨coef0, f, f', _, _, o', _, l, _, h, 2, .new (by decide) e, e1, e2, 1, by decide, ?_⟩
  obtain ⟨p1, p2, _⟩ := q 1 (by decide)
  rw [Nat.zero_add] at p1 p2
  rw [p1, p2]
  decide +kernel

/-- Downsampling in place, with asserts enabled: the output starts where the input starts. -/
example : ∃ f f' m', FpuFilter.new coefs3 = .ok f ∧
    f.downBlockMem debugBuild (samples [1, 2, 3, 4, 9]) 0 2 0 = .ok (f', m') ∧ m'.toList 5 = [23 / 64, 143 / 64, 3, 4, 9] := by
  obtain ⟨f, e, _⟩ := FpuFilter.new_sat (cs := coefs3) (by decide)
  obtain ⟨f', o', l, h, e1, _, q, _⟩ := C42_split_fpu debugBuild coefs3 (by decide) f _ (.new e) (samples [1, 2, 3, 4, 9]) (samples [0, 0])
    (samples [0, 0]) (samples [0, 0]) 0 2 0 0 0 (by decide) (by decide) (by decide) (by decide) (by decide)
  obtain ⟨m', h1, h2, h3⟩ := C43_down_fpu debugBuild f f' _ _ o' 0 2 0 0 (by decide) (by decide) (by decide) e1
  refine ⟨f, f', m', e, h1, ?_⟩
  have p0 := h2 0 (by decide)
  have p1 := h2 1 (by decide)
  have q0 := (q 0 (by decide)).1
  have q1 := (q 1 (by decide)).1
  rw [Nat.zero_add] at p0 p1 q0 q1
  simp only [Buf.toList, List.range, List.range.loop, List.map, p0, p1, q0, q1, h3 2 (by decide), h3 3 (by decide), h3 4 (by decide)]
  decide +kernel

/-- Upsampling, the output starting `n` samples before the input (SSE). -/
example : ∃ f f' m', SseFilter.new 16 coefs3 = .ok f ∧
    f.upBlockMem debugBuild (samples [0, 0, 5, 6, 9]) 2 2 0 = .ok (f', m') ∧ m'.get 4 = 9 := by
  obtain ⟨f, e, hw, _, hm⟩ := SseFilter.new_sat (cs := coefs3) (addr := 16) (by decide) (by decide)
  obtain ⟨⟨f', o'⟩, e1, _⟩ := SseFilter.upBlock_sat (bld := debugBuild) (n := 0) (k := 2) (ioff := 2) (ooff := 0)
    (x := fun i => if i = 0 then 5 else 6) (input := samples [0, 0, 5, 6, 9]) (output := samples [0, 0, 0, 0]) hw (hm _ _ _ _)
    (by decide) (by decide) (by decide) (by decide)
  obtain ⟨m', h1, h2, h3⟩ := C43_up_sse debugBuild f f' _ _ o' 2 2 0 0 (by decide) (by decide) e1
  exact ⟨f, f', m', e, h1, h3 4 (by decide)⟩

private theorem sat_of_check {α : Type} {r : Res α} (P : α → Bool) (h : (match r with | .ok a => P a | .error _ => false) = true) :
    Sat r (fun a => P a = true) := by
  cases r with
  | ok a => exact ⟨a, rfl, h⟩
  | error e => simp at h

/-- A filter with the coefficients 1/8, 1/2, 7/8, just constructed. -/
private def splitRun : FpuFilter Rat :=
  match FpuFilter.new coefs3 with
  | .ok f => f
  | .error _ => ⟨0, coefs3, coefs3⟩

/-- **C43 is false for `process_block_split`.** All asserts hold, but the high band is written one sample after the low band, so
that low sample 1 replaces high sample 0. -/
theorem C43_false_split : ∃ (cs : Buf Rat) (f f' f'' : FpuFilter Rat) (m l u l' u' m' : Buf Rat) (ioff n loff hoff : Nat),
    FpuFilter.new cs = .ok f ∧ (loff ≤ ioff ∨ loff ≥ ioff + n * 2) ∧ (hoff ≤ ioff ∨ hoff ≥ ioff + n * 2) ∧ hoff ≠ loff ∧
    f.splitBlock debugBuild m ioff n l 0 u 0 = .ok (f', l', u') ∧
    f.splitBlockMem debugBuild m ioff n loff hoff = .ok (f'', m') ∧ ∃ i < n, m'.get (hoff + i) ≠ u'.get i := by
  obtain ⟨f, e, _⟩ := FpuFilter.new_sat (cs := coefs3) (by decide)
  have hf : splitRun = f := by
    unfold splitRun
    rw [e]
  obtain ⟨⟨f1, l1, u1⟩, e1, c1⟩ := sat_of_check (r := splitRun.splitBlock debugBuild (samples [0, 0, 1, 2, 3, 4]) 2 2
    (samples [0, 0]) 0 (samples [0, 0]) 0) (fun r => decide (r.2.2.get 0 = -9 / 64)) (by decide +kernel)
  obtain ⟨⟨f2, m2⟩, e2, c2⟩ := sat_of_check (r := splitRun.splitBlockMem debugBuild (samples [0, 0, 1, 2, 3, 4]) 2 2 0 1)
    (fun r => decide (r.2.get 1 = 143 / 64)) (by decide +kernel)
  refine ⟨coefs3, splitRun, f1, f2, _, _, _, l1, u1, m2, 2, 2, 0, 1, by rw [e, hf], by decide, by decide, by decide, e1, e2, 0, by decide, ?_⟩
  rw [of_decide_eq_true c1]
  rw [Nat.add_zero, of_decide_eq_true c2]
  decide +kernel

end Panda
