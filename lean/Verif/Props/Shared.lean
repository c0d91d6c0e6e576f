import Verif.Proofs.Shared
import Verif.Proofs.Stages
import Verif.Props.Common

/-!
# C86: input and output as disjoint parts of one array
-/

set_option linter.unusedSectionVars false

namespace Panda

variable {F : Type} [Zero F] [One F] [Add F] [Sub F] [Mul F] [Sample F]

/-- `m + off`, with `len` samples behind it. -/
def Buf.sub (m : Buf F) (off len : Nat) : Buf F := { addr := m.addr + 4 * off, len := len, get := fun i => m.get (off + i) }

/-- `m'` is `m` with the samples of `o` stored from position `off` on. -/
structure Buf.Stored (m : Buf F) (off : Nat) (o m' : Buf F) : Prop where
  addr : m'.addr = m.addr
  len : m'.len = m.len
  inside : ∀ j < o.len, m'.get (off + j) = o.get j
  outside : ∀ j, j < off ∨ off + o.len ≤ j → m'.get j = m.get j

/-- **C86.** Let the `len` samples from `ioff` on and the output samples from `ooff` on be two parts of one array that do not overlap, in
either order. If `process_block` may be called with separate arrays of these contents, it may be called with pointers into the one array: both
calls succeed, leave the object in the same state, the output samples end up in the array, and the rest of the array, the input included,
is unchanged. `len` is the number of readable input samples: `n`, and two more for SSE IIR downsamplers (`Config.CallOk.behind`). -/
theorem C86_disjoint_parts (cfg : Config) (hv : cfg.Valid) (r : Resampler F) (hr : cfg.Reachable r) (st : Stack F) (m : Buf F)
    (ioff len n ooff : Nat) (hc : cfg.CallOk ⟨st, m.sub ioff len, n, m.sub ooff (cfg.outLen n)⟩) (hin : ioff + len ≤ m.len)
    (hout : ooff + cfg.outLen n ≤ m.len) (ha : ioff + len ≤ ooff ∨ ooff + cfg.outLen n ≤ ioff) :
    ∃ r' o' m', r.processBlock cfg.bld st (m.sub ioff len) n (m.sub ooff (cfg.outLen n)) = .ok (r', o') ∧
      r.processShared cfg.bld st m ioff n ooff = .ok (r', m') ∧ o'.len = cfg.outLen n ∧ m.Stored ooff o' m' := by
  obtain ⟨r0, xs, zs, -, h0, hs⟩ := hr.state hv
  obtain ⟨⟨r', o'⟩, e, -⟩ := hs.step hv h0 hc
  simp only at e
  have hb : PartOf (m.sub ioff len) m ioff := ⟨rfl, hin, fun _ _ => rfl⟩
  have ho : PartOf (m.sub ooff (cfg.outLen n)) m ooff := ⟨rfl, hout, fun _ _ => rfl⟩
  have hup : ∀ f, r.ratio = 2 → r.implX2 = some f → f.goesUp = true → n ≤ cfg.outLen n := by
    intro f h2 hf hup
    have h2' : cfg.ratio = 2 := (hr.ratio hv).symm.trans h2
    obtain ⟨i, s, xs, e, hs, hi⟩ := hr.stage2 hv h2'
    rw [hf] at e
    cases e
    cases hs with
    | firUp t _ hm => simp [Config.outLen, hm, h2']; omega
    | iirUp t _ hm => simp [Config.outLen, hm, h2']; omega
    | firDown t => cases f <;> simp [Impl.Inv] at hi; simp [Impl.goesUp] at hup
    | iirDown t => cases hsse : cfg.iirSse <;> rw [hsse] at hi <;> cases f <;> simp [Impl.Inv] at hi <;> simp [Impl.goesUp] at hup
  obtain ⟨⟨r'', m'⟩, e', h1, h2⟩ := Resampler.shared_follows hb ha cfg.bld st r (OutPart.init ho) n hc.input hup _ e
  simp only at h1 h2
  subst h1
  have hl := h2.len
  refine ⟨r', o', m', e, e', hl, h2.addr, h2.size, fun j hj => h2.part.get j hj, fun j hj => h2.frame j ?_⟩
  omega

/-- `processInPlace` (C82) is the call with twice the same pointer. -/
theorem Resampler.processInPlace_eq (bld : Build) (st : Stack F) (r : Resampler F) (m : Buf F) (n : Nat) :
    r.processInPlace bld st m n = r.processShared bld st m 0 n 0 := by
  unfold Resampler.processInPlace Resampler.processShared
  simp only [Nat.zero_add]

open Examples

/-- 100 samples `1, 2, ...`, at an address that is no multiple of 16. -/
private def arr : Buf Rat := { addr := 20, len := 100, get := fun i => i + 1 }

private theorem fresh {c : Config} (hv : c.Valid) : ∃ r : Resampler Rat, c.Reachable r := by
  obtain ⟨q, h, -⟩ := Config.session_sat (F := Rat) hv (ops := []) (by simp)
  exact ⟨q.1, [], q.2, by simp, h⟩

/-- `C86_disjoint_parts`, upsampling by 2 with 24 bits: 30 samples from the start of the array, output right behind them. -/
example : ∃ (r r' : Resampler Rat) (o' m' : Buf Rat), (cfg .up 2 24 true .fir).Reachable r ∧
    r.processBlock x86 someStack (arr.sub 0 30) 30 (arr.sub 30 60) = .ok (r', o') ∧
    r.processShared x86 someStack arr 0 30 30 = .ok (r', m') ∧ o'.len = 60 ∧ arr.Stored 30 o' m' := by
  have hv : (cfg .up 2 24 true .fir).Valid := ⟨by decide, by decide, by decide⟩
  obtain ⟨r, hr⟩ := fresh hv
  obtain ⟨r', o', m', h⟩ := C86_disjoint_parts _ hv r hr someStack arr 0 30 30 30
    ⟨by decide, by decide, by decide, by decide, by decide, by decide, by decide⟩ (by decide) (by decide) (.inl (by decide))
  exact ⟨r, r', o', m', hr, h⟩

/-- The same with SSE IIR downsampling by 8, the output in front of the input (64 samples and two more that are readable). -/
example : ∃ (r r' : Resampler Rat) (o' m' : Buf Rat), (cfg .down 8 16 true .iir).Reachable r ∧
    r.processBlock x86 someStack (arr.sub 20 66) 64 (arr.sub 3 8) = .ok (r', o') ∧
    r.processShared x86 someStack arr 20 64 3 = .ok (r', m') ∧ o'.len = 8 ∧ arr.Stored 3 o' m' := by
  have hv : (cfg .down 8 16 true .iir).Valid := ⟨by decide, by decide, by decide⟩
  obtain ⟨r, hr⟩ := fresh hv
  obtain ⟨r', o', m', h⟩ := C86_disjoint_parts _ hv r hr someStack arr 20 66 64 3
    ⟨by decide, by decide, by decide, by decide, by decide, by decide, by decide⟩ (by decide) (by decide) (.inr (by decide))
  exact ⟨r, r', o', m', hr, h⟩

/-- The array after a call of a new FIR upsampler of two taps (ratio 2, scalar code) with pointers into it. -/
private def linearUp (ioff n ooff : Nat) : Res (List Rat) := do
  let r ← (cfg .up 2 1 false .fir).new (F := Rat)
  let a ← r.processShared x86 someStack arr ioff n ooff
  pure (a.2.toList 12)

/-- With disjoint parts the output is the interpolated input. -/
example : linearUp 8 4 0 = .ok [9/2, 9, 19/2, 10, 21/2, 11, 23/2, 12, 9, 10, 11, 12] := by decide +kernel

/-- With overlapping parts it is not: the output starts two samples in front of the input. Every sample `output[2*i]` is stored before the
sample for `output[2*i+1]` is read. -/
example : linearUp 4 4 2 = .ok [1, 2, 5/2, 5, 11/2, 6, 13/2, 13/2, 13/2, 13/2, 11, 12] := by decide +kernel

/-- The output starts one sample behind the start of the input. -/
example : linearUp 0 3 1 = .ok [1, 1/2, 1, 3/4, 1/2, 3/4, 1, 8, 9, 10, 11, 12] := by decide +kernel

end Panda
