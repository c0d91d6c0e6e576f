import Verif.Props.Hiir
import Verif.Proofs.Lossless

/-!
# Splitting into two bands loses nothing (C106)

Exact arithmetic in an ordered field; every set of coefficients between -1 and 1.
-/

set_option linter.unusedSectionVars false

namespace Panda

open Finset

variable {K : Type} [Field K] [LinearOrder K] [IsStrictOrderedRing K] [Sample K]

/-- Calls of `process_block_split`, beginning with a new or cleared filter: the filter, all samples read, all samples written to the low band and
to the high band. -/
inductive FpuSplits (cs : Buf K) : FpuFilter K → List K → List K → List K → Prop
  | start {f} : FpuFilter.Reach cs f [] → FpuSplits cs f [] [] []
  | split {f xs ls hs bld input ioff n outL loff outH hoff f' l h} : FpuSplits cs f xs ls hs → 0 < n → ioff + 2 * n ≤ input.len →
      loff + n ≤ outL.len → hoff + n ≤ outH.len → f.splitBlock bld input ioff n outL loff outH hoff = .ok (f', l, h) →
      FpuSplits cs f' (xs ++ input.slice ioff (2 * n)) (ls ++ l.slice loff n) (hs ++ h.slice hoff n)

/-- The same for the SSE version; two more samples of the input are readable. -/
inductive SseSplits (cs : Buf K) : SseFilter K → List K → List K → List K → Prop
  | start {f} : SseFilter.Reach cs f [] → SseSplits cs f [] [] []
  | split {f xs ls hs bld input ioff n outL loff outH hoff f' l h} : SseSplits cs f xs ls hs → 0 < n → ioff + 2 * n + 2 ≤ input.len →
      loff + n ≤ outL.len → hoff + n ≤ outH.len → f.splitBlock bld input ioff n outL loff outH hoff = .ok (f', l, h) →
      SseSplits cs f' (xs ++ input.slice ioff (2 * n)) (ls ++ l.slice loff n) (hs ++ h.slice hoff n)

/-- `xs` has been split into `ls` and `hs` with coefficients `cs`. -/
def SplitRun (cs : Buf K) (xs ls hs : List K) : Prop := (∃ f, FpuSplits cs f xs ls hs) ∨ ∃ f, SseSplits cs f xs ls hs

private structure Bands (cs : Buf K) (xs ls hs : List K) : Prop where
  low : xs.length = 2 * ls.length
  high : hs.length = ls.length
  sum : ∀ i < ls.length, seq ls i + seq hs i = branchOut cs.len cs.get 0 (odds (seq xs)) i
  diff : ∀ i < ls.length, seq ls i - seq hs i = branchOut cs.len cs.get 1 (evens (seq xs)) i

private theorem Bands.step {cs : Buf K} {xs ls hs ys l h : List K} (b : Bands cs xs ls hs) (hy : ys.length = 2 * l.length)
    (hl : h.length = l.length)
    (q : ∀ i < l.length, seq l i + seq h i = branchOut cs.len cs.get 0 (odds (seq (xs ++ ys))) (xs.length / 2 + i) ∧
      seq l i - seq h i = branchOut cs.len cs.get 1 (evens (seq (xs ++ ys))) (xs.length / 2 + i)) :
    Bands cs (xs ++ ys) (ls ++ l) (hs ++ h) := by
  have b1 := b.low
  have b2 := b.high
  refine ⟨by simp only [List.length_append]; omega, by simp only [List.length_append]; omega, fun i hi => ?_, fun i hi => ?_⟩ <;>
  · rw [List.length_append] at hi
    by_cases h' : i < ls.length
    · rw [seq_append_left h', seq_append_left (by omega)]
      first
      | rw [b.sum i h']
        exact branchOut_congr fun k hk => by unfold odds; rw [seq_append_left (by omega)]
      | rw [b.diff i h']
        exact branchOut_congr fun k hk => by unfold evens; rw [seq_append_left (by omega)]
    · obtain ⟨k, rfl⟩ := Nat.exists_eq_add_of_le (Nat.not_lt.1 h')
      have e1 : seq (ls ++ l) (ls.length + k) = seq l k := seq_append_right k
      have e2 : seq (hs ++ h) (ls.length + k) = seq h k := by rw [← b2]; exact seq_append_right k
      rw [e1, e2]
      have := q k (by omega)
      rw [b1, Nat.mul_div_cancel_left _ (by omega)] at this
      first
      | exact this.1
      | exact this.2

private theorem SplitRun.bands (hh : (Sample.half : K) = 1 / 2) {cs : Buf K} (hcs : 0 < cs.len) {xs ls hs : List K} (h : SplitRun cs xs ls hs) :
    Bands cs xs ls hs := by
  have h2 : (Sample.half : K) + Sample.half = 1 := by rw [hh]; ring
  have h0 : Bands cs ([] : List K) [] [] := ⟨rfl, rfl, fun i hi => absurd hi (by simp), fun i hi => absurd hi (by simp)⟩
  rcases h with ⟨f, h⟩ | ⟨f, h⟩
  · suffices Bands cs xs ls hs ∧ FpuFilter.Reach cs f xs from this.1
    induction h with
    | start hr => exact ⟨h0, hr⟩
    | @split f xs ls hs bld input ioff n outL loff outH hoff f' l h _ hn hi hl hu e ih =>
      refine ⟨?_, ih.2.split hn hi hl hu e⟩
      obtain ⟨f2, o', l', h', -, e', q⟩ := C42_bands_fpu h2 bld cs hcs f xs ih.2 input ⟨0, n, fun _ => 0⟩ outL outH ioff n 0 loff hoff hn hi
        (by simp) hl hu
      rw [e] at e'
      simp only [Except.ok.injEq, Prod.mk.injEq] at e'
      obtain ⟨rfl, rfl, rfl⟩ := e'
      refine ih.1.step (by simp) (by simp) fun i hi => ?_
      rw [Buf.slice_length] at hi
      rw [Buf.seq_slice hi, Buf.seq_slice hi]
      exact (q i hi).2
  · suffices Bands cs xs ls hs ∧ SseFilter.Reach cs f xs from this.1
    induction h with
    | start hr => exact ⟨h0, hr⟩
    | @split f xs ls hs bld input ioff n outL loff outH hoff f' l h _ hn hi hl hu e ih =>
      refine ⟨?_, ih.2.split hn hi hl hu e⟩
      obtain ⟨f2, o', l', h', -, e', q⟩ := C42_bands_sse h2 bld cs hcs f xs ih.2 input ⟨0, n, fun _ => 0⟩ outL outH ioff n 0 loff hoff hn hi
        (by simp) hl hu
      rw [e] at e'
      simp only [Except.ok.injEq, Prod.mk.injEq] at e'
      obtain ⟨rfl, rfl, rfl⟩ := e'
      refine ih.1.step (by simp) (by simp) fun i hi => ?_
      rw [Buf.slice_length] at hi
      rw [Buf.seq_slice hi, Buf.seq_slice hi]
      exact (q i hi).2

/-- Sequences cut off after `n` samples. -/
private def cut (n : ℕ) (x : ℕ → K) (i : ℕ) : K := if i < n then x i else 0

private theorem branch_ext {c c' : ℕ → K} {b j : ℕ} (h : ∀ i < j, c (2 * i + b) = c' (2 * i + b)) (x : ℕ → K) :
    branch c b x j = branch c' b x j := by
  induction j with
  | zero => rfl
  | succ j ih =>
    simp only [branch]
    rw [ih fun i hi => h i (by omega), h j (by omega)]

private theorem branchOut_cut (nc : ℕ) (c : ℕ → K) {b : ℕ} (x : ℕ → K) : branchOut nc c b x = branchOut nc (cut nc c) b x := by
  unfold branchOut
  refine branch_ext (fun i hi => ?_) x
  unfold branchLen at hi
  unfold cut
  rw [if_pos (by omega)]

private theorem cut_coef {nc : ℕ} {c : ℕ → K} (hc : ∀ i < nc, |c i| < 1) (i : ℕ) : |cut nc c i| < 1 := by
  unfold cut
  split
  · next h => exact hc i h
  · simp

private theorem energy_list (xs : List K) {n : ℕ} (hn : xs.length ≤ n) : energy (seq xs) n = (xs.map fun y => y ^ 2).sum := by
  unfold energy
  rw [show n = xs.length + (n - xs.length) by omega, sum_range_add,
    sum_eq_zero (s := range (n - xs.length)) (fun i _ => by rw [seq_ge (by omega)]; ring), add_zero, ← sum_seq]

private theorem Bands.energy {cs : Buf K} {xs ls hs : List K} (b : Bands cs xs ls hs) :
    2 * ((ls.map fun y => y ^ 2).sum + (hs.map fun y => y ^ 2).sum) =
      energy (branchOut cs.len cs.get 0 (odds (seq xs))) ls.length + energy (branchOut cs.len cs.get 1 (evens (seq xs))) ls.length := by
  rw [← energy_list ls le_rfl, ← energy_list hs b.high.le]
  unfold Panda.energy
  rw [← sum_add_distrib, ← sum_add_distrib, mul_sum]
  refine sum_congr rfl fun i hi => ?_
  rw [← b.sum i (mem_range.1 hi), ← b.diff i (mem_range.1 hi)]
  ring

/-- **C106** The energies of the two bands add up to at most half the energy of the input (the bands have half the rate). -/
theorem C106_energy (hh : (Sample.half : K) = 1 / 2) (cs : Buf K) (hcs : 0 < cs.len) (hc : ∀ i < cs.len, |cs.get i| < 1)
    (xs ls hs : List K) (h : SplitRun cs xs ls hs) :
    (ls.map fun y => y ^ 2).sum + (hs.map fun y => y ^ 2).sum ≤ (xs.map fun y => y ^ 2).sum / 2 := by
  have b := h.bands hh hcs
  have hb := b.energy
  rw [branchOut_cut cs.len cs.get (b := 0), branchOut_cut cs.len cs.get (b := 1)] at hb
  have hsq : ∀ i, cut cs.len cs.get i ^ 2 < 1 := fun i => (sq_lt_one_iff_abs_lt_one _).2 (cut_coef hc i)
  have h0 := branch_energy_le hsq 0 (odds (seq xs)) (branchLen cs.len 0) ls.length
  have h1 := branch_energy_le hsq 1 (evens (seq xs)) (branchLen cs.len 1) ls.length
  have h2 := energy_double (seq xs) ls.length
  rw [energy_list xs b.low.le] at h2
  unfold branchOut at hb
  linarith

/-- **C106** If the input is a signal `a` followed by enough silence, then the energies of the bands add up to half the energy of the signal, up to
an arbitrarily small `ε`: nothing is lost. -/
theorem C106_lossless [Archimedean K] (hh : (Sample.half : K) = 1 / 2) (cs : Buf K) (hcs : 0 < cs.len) (hc : ∀ i < cs.len, |cs.get i| < 1)
    (a : List K) (ε : K) (hε : 0 < ε) :
    ∃ N, ∀ n ≥ N, ∀ ls hs : List K, SplitRun cs (a ++ List.replicate n 0) ls hs →
      |(ls.map fun y => y ^ 2).sum + (hs.map fun y => y ^ 2).sum - (a.map fun y => y ^ 2).sum / 2| ≤ ε := by
  have t0 : TendsTo (odds (seq a)) 0 := fun ε hε => ⟨a.length, fun n hn => by
    rw [show odds (seq a) n = 0 from seq_ge (by omega)]; simpa using hε.le⟩
  have t1 : TendsTo (evens (seq a)) 0 := fun ε hε => ⟨a.length, fun n hn => by
    rw [show evens (seq a) n = 0 from seq_ge (by omega)]; simpa using hε.le⟩
  obtain ⟨N0, h0⟩ := branch_loss (cut_coef hc) 0 t0 (branchLen cs.len 0) ε hε
  obtain ⟨N1, h1⟩ := branch_loss (cut_coef hc) 1 t1 (branchLen cs.len 1) ε hε
  refine ⟨2 * max N0 N1, fun n hn ls hs h => ?_⟩
  have b := h.bands hh hcs
  have hlen := b.low
  rw [List.length_append, List.length_replicate] at hlen
  have hm0 := le_max_left N0 N1
  have hm1 := le_max_right N0 N1
  have hcut : seq (a ++ List.replicate n 0) = seq a := by
    funext i
    simp only [seq, List.getD_eq_getElem?_getD]
    by_cases hi : i < a.length
    · rw [List.getElem?_append_left hi]
    · rw [List.getElem?_append_right (by omega), List.getElem?_replicate, List.getElem?_eq_none (by omega : a.length ≤ i)]
      split <;> rfl
  have hb := b.energy
  rw [branchOut_cut cs.len cs.get (b := 0), branchOut_cut cs.len cs.get (b := 1), hcut] at hb
  unfold branchOut at hb
  have h2 := energy_double (seq a) ls.length
  rw [energy_list a (by omega)] at h2
  have h0 := h0 ls.length (by omega)
  have h1 := h1 ls.length (by omega)
  beta_reduce at h0 h1
  rw [sub_zero, abs_le] at h0 h1
  rw [abs_le]
  constructor <;> linarith [h0.1, h0.2, h1.1, h1.2]

/-- **C106** The two bands determine the input, if no coefficient is 0. -/
theorem C106_injective (hh : (Sample.half : K) = 1 / 2) (cs : Buf K) (hcs : 0 < cs.len) (hc : ∀ i < cs.len, cs.get i ≠ 0)
    (xs xs' ls hs : List K) (h : SplitRun cs xs ls hs) (h' : SplitRun cs xs' ls hs) : xs = xs' := by
  have b := h.bands hh hcs
  have b' := h'.bands hh hcs
  have e0 := branch_inj (c := cs.get) (b := 0) (j := branchLen cs.len 0) (N := ls.length) (x := odds (seq xs)) (y := odds (seq xs'))
    (fun i hi => hc _ (by unfold branchLen at hi; omega)) fun i hi => (b.sum i hi).symm.trans (b'.sum i hi)
  have e1 := branch_inj (c := cs.get) (b := 1) (j := branchLen cs.len 1) (N := ls.length) (x := evens (seq xs)) (y := evens (seq xs'))
    (fun i hi => hc _ (by unfold branchLen at hi; omega)) fun i hi => (b.diff i hi).symm.trans (b'.diff i hi)
  have hb := b.low
  have hb' := b'.low
  refine seq_ext (by omega) fun i hi => ?_
  rcases Nat.mod_two_eq_zero_or_one i with hm | hm
  · have := e1 (i / 2) (by omega)
    unfold evens at this
    rwa [show 2 * (i / 2) = i by omega] at this
  · have := e0 (i / 2) (by omega)
    unfold odds at this
    rwa [show 2 * (i / 2) + 1 = i by omega] at this

/-- **C106** The high band mirrors the low band: changing the sign of every other sample (which moves the frequency `f` to half the sampling rate
minus `f`) exchanges the bands, except for the sign. -/
theorem C106_mirror (hh : (Sample.half : K) = 1 / 2) (cs : Buf K) (hcs : 0 < cs.len) (xs xs' ls hs ls' hs' : List K) (h : SplitRun cs xs ls hs)
    (h' : SplitRun cs xs' ls' hs') (hx : xs' = xs.mapIdx fun i y => (-1) ^ i * y) : ls' = hs.map (-·) ∧ hs' = ls.map (-·) := by
  have b := h.bands hh hcs
  have b' := h'.bands hh hcs
  have l1 := b.low
  have l2 := b'.low
  have l3 := b.high
  have l4 := b'.high
  have hlen : xs'.length = xs.length := by rw [hx, List.length_mapIdx]
  have hsq (i : ℕ) : seq xs' i = (-1) ^ i * seq xs i := by
    rw [hx]
    simp only [seq, List.getD_eq_getElem?_getD, List.getElem?_mapIdx]
    cases xs[i]? <;> simp
  have ho : odds (seq xs') = fun n => -1 * odds (seq xs) n + 0 * odds (seq xs) n := by
    funext i
    unfold odds
    rw [hsq, pow_succ, pow_mul, neg_one_sq, one_pow]
    ring
  have he : evens (seq xs') = evens (seq xs) := by
    funext i
    unfold evens
    rw [hsq, pow_mul, neg_one_sq, one_pow, one_mul]
  have q (i : ℕ) (hi : i < ls.length) : seq ls' i = -seq hs i ∧ seq hs' i = -seq ls i := by
    have e1 := b.sum i hi
    have e2 := b.diff i hi
    have e3 := b'.sum i (by omega)
    have e4 := b'.diff i (by omega)
    rw [ho] at e3
    unfold branchOut at e1 e3
    rw [branch_lin] at e3
    beta_reduce at e3
    rw [← e1] at e3
    rw [he, ← e2] at e4
    constructor <;> linarith
  constructor
  · refine seq_ext (by rw [List.length_map]; omega) fun i hi => ?_
    rw [(q i (by omega)).1, seq_lt (by omega), seq_lt (by rw [List.length_map]; omega), List.getElem_map]
  · refine seq_ext (by rw [List.length_map]; omega) fun i hi => ?_
    rw [(q i (by omega)).2, seq_lt (by omega), seq_lt (by rw [List.length_map]; omega), List.getElem_map]

/-- Coefficients 1/8, 1/2, 7/8. -/
private def three : Buf Rat := Buf.ofList 0 0 [1 / 8, 1 / 2, 7 / 8]

open Examples in
/-- Two calls (of `n` and `m` pairs) for any samples, with and without SSE. -/
example (x : ℕ → Rat) (n m : ℕ) (hn : 0 < n) (hm : 0 < m) : (∃ f xs ls hs, FpuSplits three f xs ls hs ∧ xs.length = 2 * (n + m) ∧
      (ls.map fun y => y ^ 2).sum + (hs.map fun y => y ^ 2).sum ≤ (xs.map fun y => y ^ 2).sum / 2) ∧
    ∃ f xs ls hs, SseSplits three f xs ls hs ∧ xs.length = 2 * (n + m) := by
  have hc : ∀ i < three.len, |three.get i| < 1 := by decide +kernel
  have h2 : (Sample.half : Rat) + Sample.half = 1 := by decide +kernel
  constructor
  · obtain ⟨f, e, _⟩ := FpuFilter.new_sat (cs := three) (by decide)
    have r := FpuFilter.Reach.new e
    obtain ⟨f1, o1, l1, h1, _, e1, _⟩ := C42_bands_fpu h2 x86 three (by decide) f [] r ⟨0, 2 * n, x⟩ ⟨0, n, fun _ => 0⟩
      ⟨0, n, fun _ => 0⟩ ⟨0, n, fun _ => 0⟩ 0 n 0 0 0 hn (by simp) (by simp) (by simp) (by simp)
    obtain ⟨f2, o2, l2, h2, _, e2, _⟩ := C42_bands_fpu h2 x86 three (by decide) f1 _ (r.split hn (by simp) (by simp) (by simp) e1)
      ⟨0, 2 * m, x⟩ ⟨0, m, fun _ => 0⟩ ⟨0, m, fun _ => 0⟩ ⟨0, m, fun _ => 0⟩ 0 m 0 0 0 hm (by simp) (by simp) (by simp) (by simp)
    have s := ((FpuSplits.start r).split hn (by simp) (by simp) (by simp) e1).split hm (by simp) (by simp) (by simp) e2
    exact ⟨_, _, _, _, s, by simp; omega, C106_energy (by decide +kernel) three (by decide) hc _ _ _ (.inl ⟨_, s⟩)⟩
  · obtain ⟨f, e, _⟩ := SseFilter.new_sat (cs := three) (addr := 16) (by decide) (by decide)
    have r := SseFilter.Reach.new (by decide) e
    obtain ⟨f1, o1, l1, h1, _, e1, _⟩ := C42_bands_sse h2 x86 three (by decide) f [] r ⟨0, 2 * n + 2, x⟩ ⟨0, n, fun _ => 0⟩
      ⟨0, n, fun _ => 0⟩ ⟨0, n, fun _ => 0⟩ 0 n 0 0 0 hn (by simp) (by simp) (by simp) (by simp)
    obtain ⟨f2, o2, l2, h2, _, e2, _⟩ := C42_bands_sse h2 x86 three (by decide) f1 _ (r.split hn (by simp) (by simp) (by simp) e1)
      ⟨0, 2 * m + 2, x⟩ ⟨0, m, fun _ => 0⟩ ⟨0, m, fun _ => 0⟩ ⟨0, m, fun _ => 0⟩ 0 m 0 0 0 hm (by simp) (by simp) (by simp) (by simp)
    have s := ((SseSplits.start r).split hn (by simp) (by simp) (by simp) e1).split hm (by simp) (by simp) (by simp) e2
    exact ⟨_, _, _, _, s, by simp; omega⟩

open Examples in
/-- The other two theorems apply to these coefficients. -/
example : (∀ i < three.len, |three.get i| < 1) ∧ (∀ i < three.len, three.get i ≠ 0) ∧
    (∃ N, ∀ n ≥ N, ∀ ls hs : List Rat, SplitRun three ([1, 2, 3] ++ List.replicate n 0) ls hs →
      |(ls.map fun y => y ^ 2).sum + (hs.map fun y => y ^ 2).sum - 7| ≤ 1 / 1000) := by
  have hc : ∀ i < three.len, |three.get i| < 1 := by decide +kernel
  refine ⟨hc, by decide +kernel, ?_⟩
  have := C106_lossless (by decide +kernel) three (by decide) hc [1, 2, 3] (1 / 1000) (by norm_num)
  rwa [show ((([1, 2, 3] : List Rat).map fun y => y ^ 2).sum / 2) = 7 by norm_num] at this

end Panda
