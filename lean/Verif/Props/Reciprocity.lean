import Verif.Props.Gain
import Verif.Proofs.Reciprocity
import Verif.Model.Float

/-!
# Upsampling and downsampling are transposes of each other (C111)

Exact arithmetic over any commutative ring; the constants may be rounded.
-/

set_option linter.unusedSectionVars false

namespace Panda

open Examples Finset

section Exact

variable {K : Type} [CommRing K] [Sample K]

/-- **C111** (IIR) The upsampler `cU` makes `P` of `x`, the downsampler `cD` of the same ratio and precision makes `Q` of `y`. At the end of every
group of `ratio` samples, the convolution of `P` and `y` is `ratio` times the convolution of `x` and `Q`. -/
theorem C111_iir (cU cD : Config) (hvU : cU.Valid) (hvD : cD.Valid) (hU : cU.mode = .up) (hD : cD.mode = .down) (hr : cD.ratio = cU.ratio)
    (hp : cD.precision = cU.precision) (hfU : cU.filter = .iir) (hfD : cD.filter = .iir) (hh : (Sample.half : K) + Sample.half = 1)
    (ops ops' : List (Op K)) (hc : ∀ op ∈ ops, cU.OpOk op) (hc' : ∀ op ∈ ops', cD.OpOk op)
    (r r' : Resampler K) (os os' : List (Option (Buf K))) (h : cU.session ops = .ok (r, os)) (h' : cD.session ops' = .ok (r', os'))
    (J : ℕ) (hJ : J < (fed ops).length) (hJ' : J < (cD.produced ops' os').length) :
    ∑ n ∈ range (cU.ratio * (J + 1)), seq (cU.produced ops os) n * seq (fed ops') (cU.ratio * (J + 1) - 1 - n) =
      (cU.ratio : K) * ∑ k ∈ range (J + 1), seq (fed ops) k * seq (cD.produced ops' os') (J - k) := by
  have hd := Config.duals (K := K) hvU hU hD hr hp (hfD.trans hfU.symm) (by rw [hfU]; rintro ⟨⟩)
  rw [hfU] at hd
  have key := hd.cascade (by rw [two_mul]; exact hh) (seq (fed ops)) (seq (fed ops')) J
  have hlen := Config.stages_length (K := K) hvU
  obtain ⟨hl, ho⟩ := Config.session_op hvU hc h
  obtain ⟨hl', ho'⟩ := Config.session_op hvD hc' h'
  rw [show ((2 : K) ^ (cU.stages (F := K)).length) = (cU.ratio : K) by rw [← hlen]; push_cast; rfl, hlen] at key
  have hpos : 0 < cU.ratio := by rw [← hlen]; positivity
  have hJ1 : cU.ratio * (J + 1) ≤ (cU.produced ops os).length := by
    rw [hl]
    simp only [Config.outLen, hU]
    rw [Nat.mul_comm]
    exact Nat.mul_le_mul_right _ hJ
  have h1 : 1 ≤ cU.ratio * (J + 1) := Nat.mul_pos hpos (by omega)
  unfold cv at key
  rw [Nat.sub_add_cancel h1] at key
  rw [sum_congr rfl fun n hn => by rw [ho n (by have := mem_range.1 hn; omega)], sum_congr (s₁ := range (J + 1)) rfl
    fun k hk => by rw [ho' (J - k) (by omega)]]
  exact key

/-- **C111** (FIR) The same for FIR filters, at the beginning of every group of `ratio` samples, if the constants for upsampling are twice those for
downsampling. -/
theorem C111_fir (cU cD : Config) (hvU : cU.Valid) (hvD : cD.Valid) (hU : cU.mode = .up) (hD : cD.mode = .down) (hr : cD.ratio = cU.ratio)
    (hp : cD.precision = cU.precision) (hfU : cU.filter = .fir) (hfD : cD.filter = .fir) (hh : (Sample.half : K) + Sample.half = 1)
    (h2 : ∀ k ∈ [2, 4, 8], ∀ t, firTable k cU.precision = some t → ∀ d ∈ t, (Sample.ofDouble (d.toRat * 2) : K) = 2 * Sample.ofDouble (d.toRat * 1))
    (ops ops' : List (Op K)) (hc : ∀ op ∈ ops, cU.OpOk op) (hc' : ∀ op ∈ ops', cD.OpOk op)
    (r r' : Resampler K) (os os' : List (Option (Buf K))) (h : cU.session ops = .ok (r, os)) (h' : cD.session ops' = .ok (r', os'))
    (J : ℕ) (hJ : J < (fed ops).length) (hJ' : J < (cD.produced ops' os').length) :
    ∑ n ∈ range (cU.ratio * J + 1), seq (cU.produced ops os) n * seq (fed ops') (cU.ratio * J - n) =
      (cU.ratio : K) * ∑ k ∈ range (J + 1), seq (fed ops) k * seq (cD.produced ops' os') (J - k) := by
  have hd := Config.duals (K := K) hvU hU hD hr hp (hfD.trans hfU.symm) fun _ => h2
  rw [hfU] at hd
  have key := hd.cascade (by rw [two_mul]; exact hh) (seq (fed ops)) (seq (fed ops')) J
  have hlen := Config.stages_length (K := K) hvU
  obtain ⟨hl, ho⟩ := Config.session_op hvU hc h
  obtain ⟨hl', ho'⟩ := Config.session_op hvD hc' h'
  rw [show ((2 : K) ^ (cU.stages (F := K)).length) = (cU.ratio : K) by rw [← hlen]; push_cast; rfl, hlen] at key
  have hpos : 0 < cU.ratio := by rw [← hlen]; positivity
  have hJ1 : cU.ratio * (J + 1) ≤ (cU.produced ops os).length := by
    rw [hl]
    simp only [Config.outLen, hU]
    rw [Nat.mul_comm]
    exact Nat.mul_le_mul_right _ hJ
  rw [Nat.mul_add, Nat.mul_one] at hJ1
  unfold cv at key
  rw [sum_congr rfl fun n hn => by rw [ho n (by have := mem_range.1 hn; omega)], sum_congr (s₁ := range (J + 1)) rfl
    fun k hk => by rw [ho' (J - k) (by omega)]]
  exact key

end Exact

/-- **C111** The condition of `C111_fir` holds for the constants of the program: rounded to binary32, those for upsampling are exactly twice those
for downsampling. -/
theorem C111_constants : ∀ k ∈ [2, 4, 8], ∀ p ∈ [1, 8, 12, 16, 20, 24], ∀ t, firTable k p = some t →
    ∀ d ∈ t, rnd32 (d.toRat * 2) = 2 * rnd32 (d.toRat * 1) := by
  have h : ∀ k ∈ [2, 4, 8], ∀ p ∈ [1, 8, 12, 16, 20, 24], ∀ d ∈ (firTable k p).getD [], rnd32 (d.toRat * 2) = 2 * rnd32 (d.toRat * 1) := by
    decide +kernel
  intro k hk p hp t ht
  have := h k hk p hp
  rwa [ht] at this

/-- Sessions for any samples: 5 samples up by 4, 20 samples down by 4, with IIR filters (SSE and not), and FIR filters. -/
example (xs ys : List Rat) (hx : xs.length = 5) (hy : ys.length = 20) (fl : Filter) :
    ∃ (ops ops' : List (Op Rat)) (q q' : Resampler Rat × List (Option (Buf Rat))),
    (cfg .up 4 16 true fl).session ops = .ok q ∧ (cfg .down 4 16 false fl).session ops' = .ok q' ∧ fed ops = xs ∧ fed ops' = ys ∧
    (fl = .iir → ∑ n ∈ range 20, seq ((cfg .up 4 16 true fl).produced ops q.2) n * seq ys (19 - n) =
      4 * ∑ k ∈ range 5, seq xs k * seq ((cfg .down 4 16 false fl).produced ops' q'.2) (4 - k)) ∧
    (fl = .fir → ∑ n ∈ range 17, seq ((cfg .up 4 16 true fl).produced ops q.2) n * seq ys (16 - n) =
      4 * ∑ k ∈ range 5, seq xs k * seq ((cfg .down 4 16 false fl).produced ops' q'.2) (4 - k)) := by
  have hvU : (cfg .up 4 16 true fl).Valid := by cases fl <;> exact ⟨by decide, by decide, by decide⟩
  have hvD : (cfg .down 4 16 false fl).Valid := by cases fl <;> exact ⟨by decide, by decide, by decide⟩
  let c : Call Rat := { st := someStack, input := { addr := 4, len := 5, get := seq xs }, n := 5, output := outBuf 20 }
  let c' : Call Rat := { st := someStack, input := { addr := 4, len := 22, get := seq ys }, n := 20, output := outBuf 5 }
  have hc : ∀ op ∈ [Op.process c], (cfg .up 4 16 true fl).OpOk op := by
    intro op hop
    simp only [List.mem_cons, List.not_mem_nil, or_false] at hop
    subst hop
    exact ⟨by show 5 < 2 ^ 32; decide, le_rfl, by show 5 * 4 ≤ 20; decide, by simp [cfg], by simp [cfg], by simp [cfg], by simp [cfg]⟩
  have hc' : ∀ op ∈ [Op.process c'], (cfg .down 4 16 false fl).OpOk op := by
    intro op hop
    simp only [List.mem_cons, List.not_mem_nil, or_false] at hop
    subst hop
    exact ⟨by show 20 < 2 ^ 32; decide, by show 20 ≤ 22; decide, by show 20 / 4 ≤ 5; decide, fun _ => by show 20 % 4 = 0; decide, by simp [cfg], by simp [cfg], fun _ _ _ _ _ => le_rfl⟩
  obtain ⟨r, os, h, -⟩ := C04_output_frame _ hvU _ hc
  obtain ⟨r', os', h', -⟩ := C04_output_frame _ hvD _ hc'
  have hfed : fed [Op.process c] = xs := by
    show [] ++ (List.range 5).map (seq xs) = xs
    rw [List.nil_append, ← hx]
    exact List.ext_getElem (by simp) fun i h1 h2 => by simp [seq_lt h2]
  have hfed' : fed [Op.process c'] = ys := by
    show [] ++ (List.range 20).map (seq ys) = ys
    rw [List.nil_append, ← hy]
    exact List.ext_getElem (by simp) fun i h1 h2 => by simp [seq_lt h2]
  have hl' : ((cfg .down 4 16 false fl).produced [Op.process c'] os').length = 5 := by
    rw [(Config.session_op hvD hc' h').1, hfed', hy]
    show 20 / 4 = 5
    decide
  refine ⟨_, _, _, _, h, h', hfed, hfed', ?_, ?_⟩
  · rintro rfl
    have := C111_iir (cfg .up 4 16 true .iir) (cfg .down 4 16 false .iir) hvU hvD rfl rfl rfl rfl rfl rfl (by decide +kernel) _ _ hc hc' r r' os os' h h' 4
      (by rw [hfed, hx]; decide) (by rw [hl']; decide)
    rw [hfed, hfed'] at this
    exact this
  · rintro rfl
    have := C111_fir (cfg .up 4 16 true .fir) (cfg .down 4 16 false .fir) hvU hvD rfl rfl rfl rfl rfl rfl (by decide +kernel)
      (fun k _ t _ d _ => by show d.toRat * 2 = 2 * (d.toRat * 1); ring) _ _ hc hc' r r' os os' h h' 4
      (by rw [hfed, hx]; decide) (by rw [hl']; decide)
    rw [hfed, hfed'] at this
    exact this

end Panda
