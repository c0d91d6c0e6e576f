import Mathlib.Data.Rat.Defs
import Mathlib.Algebra.Order.Group.Abs
import Mathlib.Algebra.Order.Ring.Defs
import Verif.Proofs.TestExact
import Verif.Props.Common
import Verif.Props.TestArgs

/-!
# C92 to C95: the tests run by the test program

`Setup.op`: the exact operator of what is tested (upsampler, downsampler, or one after the other). `Setup.Ok`: the precision is an
enumerator, and SSE is only asked for if there is some.
-/

set_option linter.unusedSectionVars false

namespace Panda.Tool

open Panda Examples

/-- Some tests. -/
def someSetup (t : ResampleType) (p b : Nat) : Setup := ⟨x86, someAlloc, t, p, true, b, 8, 4096, 8192⟩

theorem someSetup_ok (t : ResampleType) (b : Nat) : (someSetup t 24 b).Ok :=
  ⟨by simp [someSetup], fun _ => Or.inl rfl⟩

section

variable {F : Type} [Zero F] [One F] [Add F] [Sub F] [Mul F] [Sample F]

/-- **C92** (performance test, partial) For every even block size less than 2^31 the performance test runs without undefined behaviour, whatever
the signal, the contents of the stack, and the number of repetitions. -/
theorem C92_perf_partial (su : Setup) (hs : su.Ok) (he : su.blockSize % 2 = 0) (hb : su.blockSize < 2 ^ 31) (sig : Nat → F)
    (stk : Nat → Stack F × Stack F) (reps : Nat) : ∃ s, (start su >>= perf su sig stk reps) = .ok s := by
  obtain ⟨u0, d0, hu0, hd0, s, h1, h2, -⟩ := start_sat (F := F) hs hb
  obtain ⟨s', h3, -⟩ := perf_sat hs he hb hu0 hd0 h2 sig stk reps
  exact ⟨s', by rw [h1, ok_bind, h3]⟩

example (t : ResampleType) : ∃ s, (start (someSetup t 24 128) >>=
    perf (someSetup t 24 128) (fun i => (i : Rat) / 2) (fun _ => (someStack, someStack)) 1000) = .ok s :=
  C92_perf_partial _ (someSetup_ok t 128) (by decide : 128 % 2 = 0) (by decide : 128 < 2 ^ 31) _ _ _

/-- **C92** (performance test with huge blocks) The program accepts block sizes from 2^31 on (C91). Then `block_size * 2` wraps, the
arrays are too small, and the performance test writes out of bounds. -/
theorem C92_false_perf (su : Setup) (hs : su.Ok) (hb : 2 ^ 31 ≤ su.blockSize) (hb' : su.blockSize < 2 ^ 32) (sig : Nat → F)
    (stk : Nat → Stack F × Stack F) (reps : Nat) :
    (∃ s : St F, start su = .ok s) ∧ (start su >>= perf su sig stk reps) = .error .oobWrite := by
  obtain ⟨u0, d0, hu0, hd0, s, h1, -, ⟨h2, -⟩, -⟩ := start_sat0 (F := F) hs
  refine ⟨⟨s, h1⟩, ?_⟩
  have hl : s.input.len < su.blockSize := by rw [h2]; unfold u32; omega
  rw [h1, ok_bind, perf, fill_error sig hl]
  rfl

/-- The largest number that `atoi` can return, and a negative number; as arguments of the program. -/
example :
    (∃ o, standaloneArgs intValue true ["perf".toList, "--block-size=2147483647".toList] defaults = .ok (.perf, o) ∧
      o.blockSize = 2 ^ 31) ∧
    (∃ o, standaloneArgs intValue true ["perf".toList, "--block-size=-2".toList] defaults = .ok (.perf, o) ∧
      o.blockSize = 2 ^ 32 - 2) ∧
    (start (someSetup .up 24 (2 ^ 31)) >>= perf (someSetup .up 24 (2 ^ 31)) (fun _ => (1 : Rat)) (fun _ => (someStack, someStack)) 1) =
      .error .oobWrite :=
  ⟨⟨{ defaults with blockSize := 2 ^ 31 }, by decide +kernel, rfl⟩, ⟨{ defaults with blockSize := 2 ^ 32 - 2 }, by decide +kernel, rfl⟩,
    (C92_false_perf _ (someSetup_ok _ _) (by decide) (by decide) _ _ _).2⟩

/-- **C92** (accuracy test, partial) For every block size less than 2^30 the accuracy test runs without undefined behaviour: for all values
returned by `rand()`, all signals (one for each frequency), and any number of iterations. -/
theorem C92_accuracy_partial (su : Setup) (hs : su.Ok) (hb : su.blockSize < 2 ^ 30) (stk : Nat → Stack F × Stack F) (rand : Nat → Nat)
    (sigs : List ((Nat → F) × Nat)) : ∃ as, accuracy su stk rand sigs = .ok as ∧ as.length = sigs.length := by
  obtain ⟨u0, d0, hu0, hd0, s, h1, h2, -⟩ := start_sat (F := F) hs (by omega)
  obtain ⟨as, h3, h4, -⟩ := accFreqs_sat hs hb hu0 hd0 stk rand sigs h2 (fun _ => rfl) 0 0
  exact ⟨as, by rw [accuracy, h1, ok_bind, h3], h4⟩

example (t : ResampleType) (rand : Nat → Nat) : ∃ as, accuracy (someSetup t 24 7) (fun _ => (someStack, someStack)) rand
    [(fun i => (i : Rat), 12345), (fun i => (i : Rat) / 3, 678)] = .ok as ∧ as.length = 2 :=
  C92_accuracy_partial _ (someSetup_ok t 7) (by decide : 7 < 2 ^ 30) _ _ _

/-- **C92** (accuracy test with huge blocks) From 2^30 on, the `int` expression `bs * 2` can overflow when up- or oversampling. -/
theorem C92_false_accuracy (su : Setup) (hs : su.Ok) (ht : su.type = .up ∨ su.type = .over) (hb : 2 ^ 30 ≤ su.blockSize)
    (hb' : su.blockSize < 2 ^ 31) (stk : Nat → Stack F × Stack F) (rand : Nat → Nat) (h0 : rand 0 = 0) (h1 : rand 1 = 2 ^ 30)
    (sig : Nat → F) (n : Nat) (l : List ((Nat → F) × Nat)) : accuracy su stk rand ((sig, n + 1) :: l) = .error .overflow := by
  obtain ⟨u0, d0, hu0, hd0, s, e1, h2, -⟩ := start_sat (F := F) hs hb'
  suffices h : accIter su sig stk rand ⟨s, 0, 0, 0, 0, []⟩ = .error .overflow by
    rw [accuracy, e1, ok_bind, accFreqs, accRun, if_pos (show 0 < 20000 by decide), h]
    rfl
  have hm : 2 ^ 30 % u32 (su.blockSize + 1 - 0) = 2 ^ 30 := by
    unfold u32
    rw [Nat.mod_eq_of_lt (a := su.blockSize + 1 - 0) (by omega), Nat.mod_eq_of_lt (by omega)]
  have hbl : blockLen su.type (2 ^ 30) = 2 ^ 30 := by rcases ht with h | h <;> rw [h] <;> rfl
  unfold accIter
  simp only [h0, Nat.zero_mod, Nat.zero_add, h1]
  rw [if_neg (by omega), hm, if_neg (by decide), hbl]
  obtain ⟨inp, e2, i1, i2, i3⟩ := fill_sat (b := s.input) (off := 0) (fun i => sig i) (n := 2 ^ 30) (by rw [h2.input]; omega)
  rw [e2, ok_bind]
  have hg' : Good su u0 d0 { s with input := inp } [] [] := ⟨h2.streams, i1.trans h2.input, h2.output, h2.output2⟩
  rcases ht with ht | ht
  · obtain ⟨s', e3, -⟩ := callBoth_sat hs hu0 hd0 hg' hb' (off := 0) (n := 2 ^ 30) (by omega) (n2 := int32 (2 ^ 30 * 2))
      (fun h => by rw [ht] at h; cases h) (fun h => by rw [ht] at h; rcases h with h | h <;> cases h) (stk 0)
    rw [e3, ok_bind, ht]
    rfl
  · have hst := hg'.streams
    unfold Streams at hst
    simp only [ht] at hst
    obtain ⟨ms, ha, -⟩ := hst
    obtain ⟨q, e3, -⟩ := ha.step hs.ups hu0 (c := ⟨(stk 0).1, from_ inp 0, 2 ^ 30, s.output⟩)
      (up_call (by decide) (by simp [from_, i1, h2.input]; omega) (by rw [h2.output]; omega))
    unfold callBoth
    simp only [ht]
    replace e3 : s.ups.processBlock su.bld (stk 0).1 (from_ inp 0) (2 ^ 30) s.output = .ok q := e3
    rw [e3]
    rfl

example : accuracy (someSetup .up 24 (2 ^ 30)) (fun _ => (someStack, someStack)) (fun i => if i = 1 then 2 ^ 30 else 0)
    [(fun i => (i : Rat), 1)] = .error .overflow :=
  C92_false_accuracy _ (someSetup_ok _ _) (Or.inl rfl) (by decide) (by decide) _ _ rfl rfl _ 0 []

/-- **C93** (which samples are compared) Every sample with a number greater than `4 * order` exactly once, in order, whatever the sizes of
the blocks. -/
theorem C93_numbers (su : Setup) (hs : su.Ok) (hb : su.blockSize < 2 ^ 30) (stk : Nat → Stack F × Stack F) (rand : Nat → Nat)
    (sigs : List ((Nat → F) × Nat)) (as : List (Acc F)) (h : accuracy su stk rand sigs = .ok as) (a : Acc F) (ha : a ∈ as) :
    a.log.map Prod.fst = (List.range a.k).filter fun k => 4 * su.order < k := by
  obtain ⟨u0, d0, hu0, hd0, s, h1, h2, -⟩ := start_sat (F := F) hs (by omega)
  obtain ⟨as', h3, h4, h5⟩ := accFreqs_sat hs hb hu0 hd0 stk rand sigs h2 (fun _ => rfl) 0 0
  rw [accuracy, h1, ok_bind, h3] at h
  cases h
  obtain ⟨p, hp⟩ : ∃ p, (p, a) ∈ sigs.zip as := by
    obtain ⟨i, hi, rfl⟩ := List.getElem_of_mem ha
    refine ⟨sigs[i]'(by omega), ?_⟩
    rw [← List.getElem_zip (h := by simp; omega)]
    exact List.getElem_mem _
  obtain ⟨hx, hz, -, -, hi, -⟩ := h5 _ hp
  obtain ⟨ys, -, hlen, hlog⟩ := hi.good
  simp only at hlen hlog
  rw [hlog, logOf, List.map_map, ← hlen]
  simp only [Function.comp_def, List.map_id']
  congr 1
  funext k
  congr 1
  rw [Nat.mul_comm]
  rfl

/-- **C93** (the accuracy test ends) If the block size is at least 4 and among any `n` successive pairs of values returned by `rand()`
there are 20000 that select a block of at least two samples, then after `n` iterations 20000 outputs have been seen (for each frequency). -/
theorem C93_terminates (su : Setup) (hs : su.Ok) (hb4 : 4 ≤ su.blockSize) (hb : su.blockSize < 2 ^ 30)
    (stk : Nat → Stack F × Stack F) (rand : Nat → Nat) (n : Nat)
    (hr : ∀ r, 20000 ≤ ((List.range n).filter fun j =>
      2 ≤ rand (r + 2 * j + 1) % (su.blockSize + 1 - rand (r + 2 * j) % 4)).length)
    (sigs : List (Nat → F)) (as : List (Acc F)) (h : accuracy su stk rand (sigs.map fun f => (f, n)) = .ok as) (a : Acc F) (ha : a ∈ as) :
    20000 ≤ a.k := by
  obtain ⟨u0, d0, hu0, hd0, s, h1, h2, -⟩ := start_sat (F := F) hs (by omega)
  obtain ⟨as', h3, h4, h5⟩ := accFreqs_sat hs hb hu0 hd0 stk rand (sigs.map fun f => (f, n)) h2 (fun _ => rfl) 0 0
  rw [accuracy, h1, ok_bind, h3] at h
  cases h
  rw [List.length_map] at h4
  obtain ⟨p, hp, hn⟩ : ∃ p, (p, a) ∈ (sigs.map fun f => (f, n)).zip as ∧ p.2 = n := by
    obtain ⟨i, hi, rfl⟩ := List.getElem_of_mem ha
    refine ⟨(sigs[i]'(by omega), n), ?_, rfl⟩
    rw [show ((sigs[i]'(by omega), n), as[i]) = ((sigs.map fun f => (f, n)).zip as)[i]'(by simp; omega) by simp]
    exact List.getElem_mem _
  obtain ⟨hx, hz, -, -, -, r0, hc⟩ := h5 _ hp
  by_contra hlt
  have := hc hb4 (by simp only; omega)
  have e := hr r0
  simp only [hn] at this
  have ep : (fun j => productive su rand (r0 + 2 * j)) =
      fun j => decide (2 ≤ rand (r0 + 2 * j + 1) % (su.blockSize + 1 - rand (r0 + 2 * j) % 4)) := by
    funext j
    have : ¬ su.blockSize ≤ rand (r0 + 2 * j) % 4 := by
      have := Nat.mod_lt (rand (r0 + 2 * j)) (show 0 < 4 by decide)
      omega
    rw [Bool.eq_iff_iff]
    simp only [productive, this, not_false_eq_true, true_and, Nat.not_lt, decide_eq_true_eq]
  rw [ep] at this
  omega

/-- **C93** (enough values for the error spectrum) When 20000 outputs have been seen, at least 16384 have been compared: the message
"too few values for computing error spectrum, increase block size" is never printed, whatever the block size. -/
theorem C93_spectrum (su : Setup) (hs : su.Ok) (hb : su.blockSize < 2 ^ 30) (stk : Nat → Stack F × Stack F) (rand : Nat → Nat)
    (sigs : List ((Nat → F) × Nat)) (as : List (Acc F)) (h : accuracy su stk rand sigs = .ok as) (a : Acc F) (ha : a ∈ as)
    (hk : 20000 ≤ a.k) : 16384 ≤ a.log.length := by
  have e := C93_numbers su hs hb stk rand sigs as h a ha
  have ho := (order_le hs).2
  have hl : a.log.length = ((List.range a.k).filter fun k => 4 * su.order < k).length := by rw [← e, List.length_map]
  obtain ⟨j, hj⟩ : ∃ j, a.k = 209 + j := ⟨a.k - 209, by omega⟩
  have hall : ((List.range j).map (209 + ·)).filter (fun k => 4 * su.order < k) = (List.range j).map (209 + ·) := by
    rw [List.filter_eq_self]
    intro k hk
    obtain ⟨i, -, rfl⟩ := List.mem_map.1 hk
    simp only [decide_eq_true_eq]
    omega
  rw [hl, hj, List.range_add, List.filter_append, List.length_append, hall, List.length_map, List.length_range]
  omega

/-- Blocks of 4 samples: 20000 iterations are enough, and all samples after the first ones have been compared. -/
example (t : ResampleType) (sig : Nat → Rat) : ∃ a, accuracy (someSetup t 24 8) (fun _ => (someStack, someStack)) (fun _ => 4)
    [(sig, 20000)] = .ok [a] ∧ 20000 ≤ a.k ∧ 16384 ≤ a.log.length ∧
    a.log.map Prod.fst = (List.range a.k).filter fun k => 208 < k := by
  obtain ⟨as, h, hl⟩ := C92_accuracy_partial _ (someSetup_ok t 8) (by decide : 8 < 2 ^ 30) (fun _ => (someStack, someStack)) (fun _ => 4)
    [(sig, 20000)]
  obtain ⟨a, rfl⟩ := List.length_eq_one_iff.1 hl
  have ho : 4 * (someSetup t 24 8).order = 208 := by
    change 4 * ((firTable 2 24).getD []).length = 208
    decide
  have hk := C93_terminates _ (someSetup_ok t 8) (by decide : 4 ≤ 8) (by decide : 8 < 2 ^ 30) _ _ 20000 (fun r => by
    change 20000 ≤ (List.filter (fun j => decide (2 ≤ 4 % (8 + 1 - 4 % 4))) (List.range 20000)).length
    rw [List.filter_eq_self.2 (fun j _ => (rfl : decide (2 ≤ 4 % (8 + 1 - 4 % 4)) = true)), List.length_range]) [sig] [a] h a
    (by simp)
  refine ⟨a, h, hk, C93_spectrum _ (someSetup_ok t 8) (by decide : 8 < 2 ^ 30) _ _ _ _ h a (by simp) hk, ?_⟩
  rw [← ho]
  exact C93_numbers _ (someSetup_ok t 8) (by decide : 8 < 2 ^ 30) _ _ _ _ h a (by simp)

end

section

variable {K : Type} [CommRing K] [Sample K]

/-- **C93** (what is compared) In exact arithmetic, the value compared for sample number `k` is the `k`th value of the response to the
test signal alone: it does not depend on the sizes and addresses of the blocks (`rand()`), nor on the signals tested before, though the
resamplers still hold them. Hence skipping `4 * order + 1` samples is enough. -/
theorem C93_compared (su : Setup) (hs : su.Ok) (hb : su.blockSize < 2 ^ 30) (stk : ℕ → Stack K × Stack K) (rand : ℕ → ℕ)
    (sigs : List ((ℕ → K) × ℕ)) (as : List (Acc K)) (h : accuracy su stk rand sigs = .ok as) (p : ((ℕ → K) × ℕ) × Acc K)
    (hp : p ∈ sigs.zip as) :
    p.2.log = ((List.range p.2.k).filter fun k => 4 * su.order < k).map fun k => (k, su.op p.1.1 k) := by
  obtain ⟨u0, d0, hu0, hd0, s, h1, h2, -⟩ := start_sat (F := K) hs (by omega)
  obtain ⟨as', h3, h4, h5⟩ := accFreqs_sat hs hb hu0 hd0 stk rand sigs h2 (fun _ => rfl) 0 0
  rw [accuracy, h1, ok_bind, h3] at h
  cases h
  obtain ⟨hx, hz, he, ⟨s0, h0⟩, hi, -⟩ := h5 _ hp
  rw [accInv_log hs h0 he hi]
  simp only [Nat.mul_comm 4]

/-- Two frequencies: the values compared for the second one. -/
example (t : ResampleType) (rand : ℕ → ℕ) (f g : ℕ → ℚ) (n m : ℕ) : ∃ a b : Acc ℚ,
    accuracy (someSetup t 24 128) (fun _ => (someStack, someStack)) rand [(f, n), (g, m)] = .ok [a, b] ∧
    b.log = ((List.range b.k).filter fun k => 208 < k).map fun k => (k, (someSetup t 24 128).op g k) := by
  obtain ⟨as, h, hl⟩ := C92_accuracy_partial _ (someSetup_ok t 128) (by decide : 128 < 2 ^ 30) (fun _ => (someStack, someStack)) rand
    [(f, n), (g, m)]
  obtain ⟨a, b, rfl⟩ := List.length_eq_two.1 hl
  have ho : 4 * (someSetup t 24 128).order = 208 := by
    change 4 * ((firTable 2 24).getD []).length = 208
    decide
  have := C93_compared _ (someSetup_ok t 128) (by decide : 128 < 2 ^ 30) _ _ _ _ h ((g, m), b) (by simp)
  rw [ho] at this
  exact ⟨a, b, h, this⟩

/-- **C95** (impulse test) In exact arithmetic, the impulse test prints the first 150 values of the impulse response; for the downsampler
75 values, and 75 zeros. -/
theorem C95_impulse (su : Setup) (hs : su.Ok) (hb : su.blockSize = 150) (st : Stack K × Stack K) :
    (start su >>= impulse su st) =
      .ok ((List.range 150).map fun n => if su.type = .down ∧ 75 ≤ n then 0 else su.op (fun i => if i = 0 then 1 else 0) n) := by
  obtain ⟨u0, d0, hu0, hd0, s, h1, h2, h3, h4⟩ := start_sat (F := K) hs (by omega)
  rw [h1, ok_bind]
  exact impulse_sat hs hb hu0 hd0 h2 h3 h4 st

example : ∃ l : List ℚ, (start (someSetup .down 24 150) >>= impulse (someSetup .down 24 150) (someStack, someStack)) = .ok l ∧
    l.length = 150 :=
  ⟨_, C95_impulse _ (someSetup_ok .down 150) rfl (someStack, someStack), by simp⟩

/-- **C95** (the impulse test is complete, partial) Nothing but zeros follows what the impulse test prints. Not proved for subsampling with
20 or 24 bits: it is false there, see `C95_false_subsampling`. -/
theorem C95_complete_partial (su : Setup) (hs : su.Ok) (h : ¬ (su.type = .sub ∧ 20 ≤ su.precision)) (n : ℕ)
    (hn : (if su.type = .down then 75 else 150) ≤ n) : su.op (fun i => if i = 0 then (1 : K) else 0) n = 0 := by
  refine impulse_rest hs n hn fun ht => ?_
  have hp := hs.precision
  have h2 : ¬ 20 ≤ su.precision := fun h' => h ⟨ht, h'⟩
  unfold Setup.order
  revert hp h2
  generalize su.precision = p
  revert p
  decide

end

example (n : ℕ) (hn : 150 ≤ n) : (someSetup .over 24 150).op (fun i => if i = 0 then (1 : ℚ) else 0) n = 0 :=
  C95_complete_partial _ (someSetup_ok _ _) (by decide) n hn

/-- **C95** (the impulse test is not complete for subsampling) `block_size` 150 is commented as "enough space for all possible tests".
For subsampling with 20 and 24 bits it is not: the response has nonzero values after the 150 that are printed. -/
theorem C95_false_subsampling (su : Setup) (ht : su.type = .sub) (hp : su.precision = 20 ∨ su.precision = 24) :
    su.op (fun i => if i = 0 then (1 : ℚ) else 0) 150 ≠ 0 ∧
      su.op (fun i => if i = 0 then (1 : ℚ) else 0) (if su.precision = 20 then 164 else 204) ≠ 0 := by
  have key : ∀ n, su.op (fun i => if i = 0 then (1 : ℚ) else 0) n =
      (someSetup .sub su.precision 150).op (fun i => if i = 0 then (1 : ℚ) else 0) n := by
    intro n
    unfold Setup.op
    rw [ht]
    change su.ups.op (su.downs.op _) n = (someSetup .sub su.precision 150).ups.op ((someSetup .sub su.precision 150).downs.op _) n
    rw [Config.op_congr (cfg := su.ups) (cfg' := (someSetup .sub su.precision 150).ups) rfl rfl rfl rfl,
      Config.op_congr (cfg := su.downs) (cfg' := (someSetup .sub su.precision 150).downs) rfl rfl rfl rfl]
  rw [key, key]
  rcases hp with hp | hp <;> rw [hp] <;> decide +kernel

example : (someSetup .sub 24 150).op (fun i => if i = 0 then (1 : ℚ) else 0) 150 ≠ 0 := (C95_false_subsampling _ rfl (Or.inr rfl)).1

section

variable {F D : Type} [Ring D] [LinearOrder D] [IsStrictOrderedRing D]

private theorem maxDiff_le (toD : F → D) (correct : ℕ → D) (log : List (ℕ × F)) (m t : D) :
    maxDiff toD correct log m ≤ t ↔ m ≤ t ∧ ∀ p ∈ log, toD p.2 - correct p.1 ≤ t := by
  induction log generalizing m with
  | nil => simp [maxDiff]
  | cons p l ih =>
    have e : maxDiff toD correct (p :: l) m = maxDiff toD correct l (max m (toD p.2 - correct p.1)) := rfl
    rw [e, ih, max_le_iff]
    simp [and_assoc]

/-- **C94** (the verdict, partial) The maximum error is at most `t` (not negative) exactly if no value compared is greater than expected by more
than `t`. Missing: a bound for values less than expected, see `C94_false_one_sided`. -/
theorem C94_verdict_partial (toD : F → D) (correct : ℕ → D) (log : List (ℕ × F)) (t : D) (ht : 0 ≤ t) :
    maxDiff toD correct log 0 ≤ t ↔ ∀ p ∈ log, toD p.2 ≤ correct p.1 + t := by
  rw [maxDiff_le]
  simp only [ht, true_and, sub_le_iff_le_add, add_comm]

example : maxDiff (fun x : ℚ => x) (fun _ => 1) [(7, 2), (8, 1 / 2)] 0 ≤ 1 := (C94_verdict_partial _ _ _ 1 (by decide)).2 (by decide +kernel)

/-- **C94** (the error has a sign) The absolute value is missing: however far the values compared are *below* the expected values, the
maximum error is 0, and every threshold is met. -/
theorem C94_false_one_sided (correct : ℕ → D) (ks : List ℕ) (M : D) (hM : 0 ≤ M) :
    maxDiff (fun x : D => x) correct (ks.map fun k => (k, correct k - M)) 0 = 0 ∧
      ∀ p ∈ ks.map fun k => (k, correct k - M), |p.2 - correct p.1| = M := by
  constructor
  · refine le_antisymm ((maxDiff_le _ _ _ 0 0).2 ⟨le_refl _, ?_⟩) ((maxDiff_le _ _ _ 0 _).1 (le_refl _)).1
    rintro p hp
    obtain ⟨k, -, rfl⟩ := List.mem_map.1 hp
    simpa using hM
  · rintro p hp
    obtain ⟨k, -, rfl⟩ := List.mem_map.1 hp
    simp [abs_of_nonneg hM]

/-- A resampler that is off by 1000 everywhere. -/
example : maxDiff (fun x : ℚ => x) (fun _ => 1) [(209, 1 - 1000), (210, 1 - 1000)] 0 = 0 :=
  (C94_false_one_sided (fun _ => (1 : ℚ)) [209, 210] 1000 (by decide)).1

end

end Panda.Tool
