import Verif.Props.Gain
import Verif.Props.Rounding
import Verif.Proofs.Overshoot

/-!
# Overshoot (C90)

`K` is an ordered field whose constants are accurate to `2^-24` (class `Accurate`).
-/

set_option linter.unusedSectionVars false

namespace Panda

open Examples Finset

/-- The positions of the steps to look at: all others are delayed by whole output samples. -/
private def phases (m : Mode) (r : ℕ) : List ℕ :=
  match m with
  | .up => [0]
  | .down => List.range r

private theorem numbers : ∀ m ∈ [Mode.up, Mode.down], ∀ r ∈ [1, 2, 4, 8], ∀ p ∈ [1, 8, 12, 16, 20, 24],
    (∀ t ∈ (cfg m r p true .fir).tables, 2 ≤ t.length ∧ ∀ d ∈ t, d.e ≤ 24) ∧
    respErr m (cfg m r p true .fir).tables 0 1 ≤ 2 / 10 ^ 6 ∧
    (cfg m r p true .fir).dcErr ≤ 15 / 1000 ∧
    (cfg m r p true .fir).dcErr ≤ ((overMilli m r p).2 : ℚ) / 1000 - 1 ∧
    (1 ≤ (overMilli m r p).1 ∧ 1 ≤ (overMilli m r p).2) ∧
    ∀ q ∈ phases m r, stepCheck m (cfg m r p true .fir).tables r q (overMilli m r p) = true := by decide +kernel

private theorem sharp : ∀ m ∈ [Mode.up, Mode.down], ∀ r ∈ [2, 4, 8], ∀ p ∈ [8, 12, 16, 20, 24],
    (2 ≤ (overMilli m r p).1 ∧ 2 ≤ (overMilli m r p).2) ∧
    (∃ q ∈ phases m r, stepLow m (cfg m r p true .fir).tables r q (overMilli m r p).1 = true) ∧
    (∃ q ∈ phases m r, stepHigh m (cfg m r p true .fir).tables r q (overMilli m r p).2 = true) := by decide +kernel

section

variable {K : Type} [Field K] [LinearOrder K] [IsStrictOrderedRing K] [Sample K] [Accurate K]

private theorem numbers' {cfg : Config} (hv : cfg.Valid) :
    (∀ t ∈ cfg.tables, 2 ≤ t.length ∧ ∀ d ∈ t, d.e ≤ 24) ∧
    respErr cfg.mode cfg.tables 0 1 ≤ 2 / 10 ^ 6 ∧ cfg.dcErr ≤ 15 / 1000 ∧
    cfg.dcErr ≤ ((overMilli cfg.mode cfg.ratio cfg.precision).2 : ℚ) / 1000 - 1 ∧
    (1 ≤ (overMilli cfg.mode cfg.ratio cfg.precision).1 ∧ 1 ≤ (overMilli cfg.mode cfg.ratio cfg.precision).2) ∧
    ∀ q ∈ phases cfg.mode cfg.ratio, stepCheck cfg.mode cfg.tables cfg.ratio q (overMilli cfg.mode cfg.ratio cfg.precision) = true :=
  numbers cfg.mode (by cases cfg.mode <;> simp) cfg.ratio hv.ratio cfg.precision hv.precision

private theorem phase_step {cfg : Config} (hv : cfg.Valid) (hf : cfg.filter = .fir) {q : ℕ} (hq : q ∈ phases cfg.mode cfg.ratio) (n : ℕ) :
    -(((overMilli cfg.mode cfg.ratio cfg.precision).1 : K) / 1000) ≤ cfg.op (stepAt q : ℕ → K) n ∧
      cfg.op (stepAt q : ℕ → K) n ≤ ((overMilli cfg.mode cfg.ratio cfg.precision).2 : K) / 1000 := by
  obtain ⟨ht, he, hd1, hd2, hb, hs⟩ := numbers' hv
  have hlen := Config.tables_len hv hf
  by_cases hn : n < stepLen cfg.mode cfg.ratio
  · obtain ⟨h1, h2⟩ := stepCheck_bounds ht hlen hb (hs q hq) hn
    have h := abs_le.1 (Config.step_near (K := K) hv hf q n)
    set e := exactOp cfg.mode cfg.tables (stepAt q) n
    have he' : ((respErr cfg.mode cfg.tables 0 1 : ℚ) : K) ≤ ((2 / 10 ^ 6 : ℚ) : K) := by exact_mod_cast he
    have h1' : ((-((overMilli cfg.mode cfg.ratio cfg.precision).1 / 1000 - 2 / 10 ^ 6) : ℚ) : K) ≤ (e : K) := by exact_mod_cast h1
    have h2' : (e : K) ≤ (((overMilli cfg.mode cfg.ratio cfg.precision).2 / 1000 - 2 / 10 ^ 6 : ℚ) : K) := by exact_mod_cast h2
    push_cast at he' h1' h2'
    constructor <;> linarith [h.1, h.2]
  · have hset : cascadeSettle (cfg.stages (F := K)) q ≤ n := by
      refine (Config.settle_le hv hf q).trans ?_
      have hn := not_lt.1 hn
      unfold stepLen at hn
      unfold phases at hq
      cases hm : cfg.mode with
      | up =>
        simp only [hm, List.mem_singleton] at hq hn ⊢
        subst hq
        simpa using hn
      | down =>
        simp only [hm, List.mem_range] at hq hn ⊢
        rw [Nat.div_eq_of_lt hq]
        simpa using hn
    have h := abs_le.1 (Config.op_nearConst hv hf (x := (stepAt q : ℕ → K)) (c := 1) (N := q) (fun i hi => if_pos hi) n hset)
    rw [abs_one, mul_one] at h
    have hd1' : ((cfg.dcErr : ℚ) : K) ≤ ((15 / 1000 : ℚ) : K) := by exact_mod_cast hd1
    have hd2' : ((cfg.dcErr : ℚ) : K) ≤ (((overMilli cfg.mode cfg.ratio cfg.precision).2 / 1000 - 1 : ℚ) : K) := by exact_mod_cast hd2
    push_cast at hd1' hd2'
    have : (0 : K) ≤ ((overMilli cfg.mode cfg.ratio cfg.precision).1 : K) / 1000 := by positivity
    constructor <;> linarith [h.1, h.2]

private theorem step_bounds {cfg : Config} (hv : cfg.Valid) (hf : cfg.filter = .fir) (k n : ℕ) :
    -(((overMilli cfg.mode cfg.ratio cfg.precision).1 : K) / 1000) ≤ cfg.op (stepAt k : ℕ → K) n ∧
      cfg.op (stepAt k : ℕ → K) n ≤ ((overMilli cfg.mode cfg.ratio cfg.precision).2 : K) / 1000 := by
  have hr : 0 < cfg.ratio := by
    have := hv.ratio
    simp only [List.mem_cons, List.not_mem_nil, or_false] at this
    omega
  have h0 : ∀ (j : ℕ) (y : ℕ → K), (∀ n, -(((overMilli cfg.mode cfg.ratio cfg.precision).1 : K) / 1000) ≤ y n ∧
      y n ≤ ((overMilli cfg.mode cfg.ratio cfg.precision).2 : K) / 1000) → ∀ n,
      -(((overMilli cfg.mode cfg.ratio cfg.precision).1 : K) / 1000) ≤ delayed j y n ∧
      delayed j y n ≤ ((overMilli cfg.mode cfg.ratio cfg.precision).2 : K) / 1000 := by
    intro j y hy n
    unfold delayed
    split
    · refine ⟨neg_nonpos.2 (by positivity), by positivity⟩
    · exact hy _
  cases hm : cfg.mode with
  | up =>
    rw [show (stepAt k : ℕ → K) = delayed k (stepAt 0) from stepAt_delayed k 0, Config.op_delayed_up hv hm]
    rw [← hm]
    exact h0 _ _ (fun n => phase_step hv hf (by rw [hm]; simp [phases]) n) n
  | down =>
    rw [show k = k / cfg.ratio * cfg.ratio + k % cfg.ratio by rw [Nat.mul_comm]; exact (Nat.div_add_mod _ _).symm, stepAt_delayed,
      Config.op_delayed_down hv hm]
    rw [← hm]
    exact h0 _ _ (fun n => phase_step hv hf (by rw [hm]; simp [phases, Nat.mod_lt _ hr]) n) n

/-- A list, continued with its last element. -/
private def held (l : List K) (i : ℕ) : K := seq l (min i (l.length - 1))

private theorem held_seq (l : List K) {i : ℕ} (hi : i < l.length) : held l i = seq l i := by
  unfold held
  rw [min_eq_left (by omega)]

private theorem held_mem {l : List K} (hl : l ≠ []) (i : ℕ) : held l i ∈ l := by
  have : 0 < l.length := List.length_pos_iff.2 hl
  unfold held
  rw [seq_lt (by omega)]
  exact List.getElem_mem _

private theorem held_mono {l : List K} (hl : l.Pairwise (· ≤ ·)) (i : ℕ) : held l i ≤ held l (i + 1) := by
  unfold held
  by_cases h : i + 1 ≤ l.length - 1
  · rw [min_eq_left h, min_eq_left (by omega), seq_lt (by omega), seq_lt (by omega)]
    exact List.pairwise_iff_getElem.1 hl _ _ _ _ (by omega)
  · rw [min_eq_right (by omega), min_eq_right (by omega)]

private theorem mono_op {cfg : Config} (hv : cfg.Valid) (hf : cfg.filter = .fir) {x : ℕ → K} (h0 : 0 ≤ x 0) (hx : ∀ i, x i ≤ x (i + 1))
    {B : ℕ} (hB : ∀ i, x (min i B) = x i) {M : K} (hM : x B ≤ M) (n : ℕ) :
    -(((overMilli cfg.mode cfg.ratio cfg.precision).1 : K) / 1000 * M) ≤ cfg.op x n ∧
      cfg.op x n ≤ ((overMilli cfg.mode cfg.ratio cfg.precision).2 : K) / 1000 * M := by
  have h := mono_bound (f := cfg.op) (Config.op_lin cfg) (fun k => step_bounds hv hf k n) h0 hx B
  rw [show (fun i => x (min i B)) = x from funext hB] at h
  have hp : ∀ a b : K, 0 ≤ a → a / 1000 * x B ≤ a / 1000 * M := fun a b ha => mul_le_mul_of_nonneg_left hM (by positivity)
  have h1 := hp ((overMilli cfg.mode cfg.ratio cfg.precision).1 : K) 0 (Nat.cast_nonneg _)
  have h2 := hp ((overMilli cfg.mode cfg.ratio cfg.precision).2 : K) 0 (Nat.cast_nonneg _)
  constructor <;> linarith [h.1, h.2]

private theorem fed_ne {cfg : Config} (hv : cfg.Valid) {ops : List (Op K)} (hc : ∀ op ∈ ops, cfg.OpOk op) {r : Resampler K}
    {os : List (Option (Buf K))} (h : cfg.session ops = .ok (r, os)) {n : ℕ} (hn : n < (cfg.produced ops os).length) : fed ops ≠ [] := by
  intro h0
  rw [(Config.session_op hv hc h).1, h0] at hn
  unfold Config.outLen at hn
  cases hm : cfg.mode <;> simp [hm] at hn

private theorem held_hold (l : List K) (i : ℕ) : held l (min i (l.length - 1)) = held l i := by
  unfold held
  rw [min_assoc, min_self]

/-- **C90** FIR: when the samples passed in never decrease, are never negative and are at most `M`, then the output stays
within `-und/1000 * M` and `hi/1000 * M`, where `(und, hi) = overMilli mode ratio precision`. -/
theorem C90_overshoot (cfg : Config) (hv : cfg.Valid) (hf : cfg.filter = .fir)
    (ops : List (Op K)) (hc : ∀ op ∈ ops, cfg.OpOk op) (r : Resampler K) (os : List (Option (Buf K)))
    (h : cfg.session ops = .ok (r, os)) (M : K) (hx : ∀ x ∈ fed ops, 0 ≤ x ∧ x ≤ M) (hs : (fed ops).Pairwise (· ≤ ·)) :
    ∀ y ∈ cfg.produced ops os,
      -(((overMilli cfg.mode cfg.ratio cfg.precision).1 : K) / 1000 * M) ≤ y ∧
        y ≤ ((overMilli cfg.mode cfg.ratio cfg.precision).2 : K) / 1000 * M := by
  intro y hy
  obtain ⟨n, hn, rfl⟩ := List.mem_iff_getElem.1 hy
  have hne := fed_ne hv hc h hn
  rw [← seq_lt hn, Config.session_op_of hv hc h (x := held (fed ops)) (fun i hi => held_seq _ hi) n hn]
  exact mono_op hv hf (hx _ (held_mem hne 0)).1 (held_mono hs) (held_hold _) (hx _ (held_mem hne _)).2 n

private theorem ones {cfg : Config} (hv : cfg.Valid) (hf : cfg.filter = .fir) {n : ℕ}
    (hn : (match cfg.mode with | .up => cfg.ratio * 63 | .down => 65) ≤ n) :
    |cfg.op (fun _ => (1 : K)) n - 1| ≤ ((cfg.dcErr : ℚ) : K) := by
  have hset : cascadeSettle (cfg.stages (F := K)) 0 ≤ n := by
    refine (Config.settle_le hv hf 0).trans ?_
    cases hm : cfg.mode <;> simp only [hm] at hn ⊢ <;> simpa using hn
  have h := Config.op_nearConst hv hf (x := fun _ => (1 : K)) (c := 1) (N := 0) (fun i hi => rfl) n hset
  rwa [abs_one, mul_one] at h

/-- **C90** FIR: a signal that rises from `a` to `b`, in any way. Once the filters are filled, the output goes below `a`
and above `b` by the tabulated part of `b - a` (and the DC error of `a`). -/
theorem C90_rising (cfg : Config) (hv : cfg.Valid) (hf : cfg.filter = .fir)
    (ops : List (Op K)) (hc : ∀ op ∈ ops, cfg.OpOk op) (r : Resampler K) (os : List (Option (Buf K)))
    (h : cfg.session ops = .ok (r, os)) (a b : K) (hx : ∀ x ∈ fed ops, a ≤ x ∧ x ≤ b) (hs : (fed ops).Pairwise (· ≤ ·)) :
    ∀ n < (cfg.produced ops os).length, (match cfg.mode with | .up => cfg.ratio * 63 | .down => 65) ≤ n →
      a - ((overMilli cfg.mode cfg.ratio cfg.precision).1 : K) / 1000 * (b - a) - (cfg.dcErr : ℚ) * |a| ≤ seq (cfg.produced ops os) n ∧
      seq (cfg.produced ops os) n ≤
        a + ((overMilli cfg.mode cfg.ratio cfg.precision).2 : K) / 1000 * (b - a) + (cfg.dcErr : ℚ) * |a| := by
  intro n hn hset
  have hne := fed_ne hv hc h hn
  rw [Config.session_op_of hv hc h (x := held (fed ops)) (fun i hi => held_seq _ hi) n hn]
  have e : held (fed ops) = fun i => a * 1 + 1 * (held (fed ops) i - a) := funext fun i => by ring
  rw [e, Config.op_lin cfg a 1 (fun _ => 1) (fun i => held (fed ops) i - a)]
  have h1 := abs_le.1 (show |a * cfg.op (fun _ => (1 : K)) n - a| ≤ ((cfg.dcErr : ℚ) : K) * |a| by
    rw [show ∀ y : K, a * y - a = (y - 1) * a from fun y => by ring, abs_mul]
    exact mul_le_mul_of_nonneg_right (ones hv hf hset) (abs_nonneg _))
  have h2 := mono_op hv hf (x := fun i => held (fed ops) i - a) (B := (fed ops).length - 1) (M := b - a)
    (sub_nonneg.2 (hx _ (held_mem hne 0)).1) (fun i => sub_le_sub_right (held_mono hs i) a)
    (fun i => by simp only [held_hold]) (sub_le_sub_right (hx _ (held_mem hne _)).2 a) n
  constructor <;> linarith [h1.1, h1.2, h2.1, h2.2]

/-- **C90** FIR: a signal that falls from `b` to `a`, in any way. -/
theorem C90_falling (cfg : Config) (hv : cfg.Valid) (hf : cfg.filter = .fir)
    (ops : List (Op K)) (hc : ∀ op ∈ ops, cfg.OpOk op) (r : Resampler K) (os : List (Option (Buf K)))
    (h : cfg.session ops = .ok (r, os)) (a b : K) (hx : ∀ x ∈ fed ops, a ≤ x ∧ x ≤ b) (hs : (fed ops).Pairwise (· ≥ ·)) :
    ∀ n < (cfg.produced ops os).length, (match cfg.mode with | .up => cfg.ratio * 63 | .down => 65) ≤ n →
      b - ((overMilli cfg.mode cfg.ratio cfg.precision).2 : K) / 1000 * (b - a) - (cfg.dcErr : ℚ) * |b| ≤ seq (cfg.produced ops os) n ∧
      seq (cfg.produced ops os) n ≤
        b + ((overMilli cfg.mode cfg.ratio cfg.precision).1 : K) / 1000 * (b - a) + (cfg.dcErr : ℚ) * |b| := by
  intro n hn hset
  have hne := fed_ne hv hc h hn
  rw [Config.session_op_of hv hc h (x := held (fed ops)) (fun i hi => held_seq _ hi) n hn]
  have e : held (fed ops) = fun i => b * 1 + (-1) * (b - held (fed ops) i) := funext fun i => by ring
  rw [e, Config.op_lin cfg b (-1) (fun _ => 1) (fun i => b - held (fed ops) i)]
  have h1 := abs_le.1 (show |b * cfg.op (fun _ => (1 : K)) n - b| ≤ ((cfg.dcErr : ℚ) : K) * |b| by
    rw [show ∀ y : K, b * y - b = (y - 1) * b from fun y => by ring, abs_mul]
    exact mul_le_mul_of_nonneg_right (ones hv hf hset) (abs_nonneg _))
  have hneg : ((fed ops).map Neg.neg).Pairwise (· ≤ ·) := by
    rw [List.pairwise_map]
    exact hs.imp fun h => neg_le_neg h
  have hh : ∀ i, held ((fed ops).map Neg.neg) i = -held (fed ops) i := by
    intro i
    have : 0 < (fed ops).length := List.length_pos_iff.2 hne
    unfold held
    rw [List.length_map, seq_lt (by simp; omega), seq_lt (by omega), List.getElem_map]
  have h2 := mono_op hv hf (x := fun i => b - held (fed ops) i) (B := (fed ops).length - 1) (M := b - a)
    (sub_nonneg.2 (hx _ (held_mem hne 0)).2)
    (fun i => by
      have := held_mono hneg i
      rw [hh, hh] at this
      linarith)
    (fun i => by simp only [held_hold]) (sub_le_sub_left (hx _ (held_mem hne _)).1 b) n
  constructor <;> linarith [h1.1, h1.2, h2.1, h2.2]

private theorem step_session {cfg : Config} (hv : cfg.Valid)
    {ops : List (Op K)} (hc : ∀ op ∈ ops, cfg.OpOk op) {r : Resampler K} {os : List (Option (Buf K))}
    (h : cfg.session ops = .ok (r, os)) {q L : ℕ} (hfed : fed ops = List.replicate q 0 ++ List.replicate L 1)
    (hL : cfg.ratio * 65 ≤ q + L) {n : ℕ} (hn : n < stepLen cfg.mode cfg.ratio) :
    ∃ y ∈ cfg.produced ops os, y = cfg.op (stepAt q : ℕ → K) n := by
  have hr : cfg.ratio ∈ [1, 2, 4, 8] := hv.ratio
  have hl : n < (cfg.produced ops os).length := by
    rw [(Config.session_op hv hc h).1, hfed]
    unfold stepLen at hn
    unfold Config.outLen
    simp only [List.length_append, List.length_replicate]
    simp only [List.mem_cons, List.not_mem_nil, or_false] at hr
    cases hm : cfg.mode <;> simp only [hm] at hn ⊢
    · rcases hr with hr | hr | hr | hr <;> rw [hr] at hn hL ⊢ <;> omega
    · rcases hr with hr | hr | hr | hr <;> rw [hr] at hL ⊢ <;> omega
  refine ⟨_, List.getElem_mem hl, ?_⟩
  rw [← seq_lt hl]
  refine Config.session_op_of hv hc h (fun i hi => ?_) n hl
  rw [seq_lt hi]
  simp only [hfed, List.getElem_append, List.getElem_replicate, List.length_replicate]
  unfold stepAt
  by_cases hq : q ≤ i
  · rw [if_pos hq, dif_neg (by omega)]
  · rw [if_neg hq, dif_pos (by omega)]

/-- **C90** The numbers are sharp to `2/1000`: with ratio 2, 4 or 8 and 8 or more bits there is a step (some zeros, then
ones) for which every resampler goes that low, and one for which it goes that high. In particular the output for a
non-decreasing input with values from 0 to 1 is neither non-decreasing nor within 0 and 1. -/
theorem C90_sharp (cfg : Config) (hv : cfg.Valid) (hf : cfg.filter = .fir) (hr : cfg.ratio ≠ 1) (hp : cfg.precision ≠ 1) :
    (∃ q < cfg.ratio, ∀ (ops : List (Op K)), (∀ op ∈ ops, cfg.OpOk op) → ∀ (r : Resampler K) (os : List (Option (Buf K))),
      cfg.session ops = .ok (r, os) → ∀ L, fed ops = List.replicate q 0 ++ List.replicate L 1 → cfg.ratio * 65 ≤ q + L →
      ∃ y ∈ cfg.produced ops os, y ≤ -(((overMilli cfg.mode cfg.ratio cfg.precision).1 : K) - 2) / 1000) ∧
    (∃ q < cfg.ratio, ∀ (ops : List (Op K)), (∀ op ∈ ops, cfg.OpOk op) → ∀ (r : Resampler K) (os : List (Option (Buf K))),
      cfg.session ops = .ok (r, os) → ∀ L, fed ops = List.replicate q 0 ++ List.replicate L 1 → cfg.ratio * 65 ≤ q + L →
      ∃ y ∈ cfg.produced ops os, (((overMilli cfg.mode cfg.ratio cfg.precision).2 : K) - 2) / 1000 ≤ y) := by
  have hr' : cfg.ratio ∈ [2, 4, 8] := by
    have := hv.ratio
    simp only [List.mem_cons, List.not_mem_nil, or_false] at this ⊢
    omega
  have hp' : cfg.precision ∈ [8, 12, 16, 20, 24] := by
    have := hv.precision
    simp only [List.mem_cons, List.not_mem_nil, or_false] at this ⊢
    omega
  obtain ⟨hb, ⟨q1, p1, h1⟩, ⟨q2, p2, h2⟩⟩ := sharp cfg.mode (by cases cfg.mode <;> simp) cfg.ratio hr' cfg.precision hp'
  obtain ⟨ht, he, -⟩ := numbers' hv
  have hlen := Config.tables_len hv hf
  obtain ⟨n1, hn1, e1⟩ := stepLow_exists ht hlen hb.1 h1
  obtain ⟨n2, hn2, e2⟩ := stepHigh_exists ht hlen hb.2 h2
  have he' : ((respErr cfg.mode cfg.tables 0 1 : ℚ) : K) ≤ ((2 / 10 ^ 6 : ℚ) : K) := by exact_mod_cast he
  have hph : ∀ q ∈ phases cfg.mode cfg.ratio, q < cfg.ratio := by
    intro q hq
    simp only [List.mem_cons, List.not_mem_nil, or_false] at hr'
    unfold phases at hq
    cases hm : cfg.mode <;> simp only [hm, List.mem_singleton, List.mem_range] at hq <;> omega
  refine ⟨⟨q1, hph q1 p1, fun ops hc r os h L hfed hL => ?_⟩, ⟨q2, hph q2 p2, fun ops hc r os h L hfed hL => ?_⟩⟩
  · obtain ⟨y, hy, rfl⟩ := step_session hv hc h hfed hL hn1
    refine ⟨_, hy, ?_⟩
    have h := abs_le.1 (Config.step_near (K := K) hv hf q1 n1)
    have e1' : ((exactOp cfg.mode cfg.tables (stepAt q1) n1 : ℚ) : K) ≤
      ((-((overMilli cfg.mode cfg.ratio cfg.precision).1 / 1000 - 1998 / 10 ^ 6) : ℚ) : K) := by exact_mod_cast e1
    push_cast at he' e1'
    linarith [h.2]
  · obtain ⟨y, hy, rfl⟩ := step_session hv hc h hfed hL hn2
    refine ⟨_, hy, ?_⟩
    have h := abs_le.1 (Config.step_near (K := K) hv hf q2 n2)
    have e2' : (((overMilli cfg.mode cfg.ratio cfg.precision).2 / 1000 - 1998 / 10 ^ 6 : ℚ) : K) ≤
      ((exactOp cfg.mode cfg.tables (stepAt q2) n2 : ℚ) : K) := by exact_mod_cast e2
    push_cast at he' e2'
    linarith [h.1]

end

/-- **C90** binary32: the same with finite samples `≤ M ≤ 2^100`; the rounding errors of C11 come on top. -/
theorem C90_overshoot_binary32 (cfg : Config) (hv : cfg.Valid) (hf : cfg.filter = .fir)
    (ops : List (Op F32)) (hc : ∀ op ∈ ops, cfg.OpOk op) (r : Resampler F32) (os : List (Option (Buf F32)))
    (h : cfg.session ops = .ok (r, os)) (M : ℚ) (hM : M ≤ 2 ^ 100) (hx : ∀ v ∈ fed ops, ∃ q, v = Fl.fin q ∧ 0 ≤ q ∧ q ≤ M)
    (hs : ((fed ops).map Fl.val).Pairwise (· ≤ ·)) :
    ∀ v ∈ cfg.produced ops os, ∃ y, v = Fl.fin y ∧
      -(((overMilli cfg.mode cfg.ratio cfg.precision).1 / 1000 + rndNano cfg.mode cfg.ratio cfg.precision / 10 ^ 9) * M + 2⁻¹ ^ 140) ≤ y ∧
      y ≤ ((overMilli cfg.mode cfg.ratio cfg.precision).2 / 1000 + rndNano cfg.mode cfg.ratio cfg.precision / 10 ^ 9) * M + 2⁻¹ ^ 140 := by
  have := accurate_rat
  intro v hv'
  obtain ⟨n, hn, rfl⟩ := List.mem_iff_getElem.1 hv'
  obtain ⟨y, hy, he⟩ := C11_binary32 cfg hv hf ops hc r os h M hM (fun v hv => by
    obtain ⟨q, h1, h2, h3⟩ := hx v hv
    exact ⟨q, h1, by rwa [abs_of_nonneg h2]⟩) n hn
  have hl := Config.produced_length hv (Config.session_rel' hv hc h)
  refine ⟨y, by rw [← hy]; simp [seq, List.getD_eq_getElem?_getD, hn], ?_⟩
  set l := (fed ops).map Fl.val with hlist
  have hlen : l.length = (fed ops).length := List.length_map _
  have hne : l ≠ [] := by
    intro h0
    rw [hl, ← hlen, h0] at hn
    unfold Config.outLen at hn
    cases hm : cfg.mode <;> simp [hm] at hn
  have hval : ∀ i < l.length, seq l i = (seq (fed ops) i).val := by
    intro i hi
    rw [hlen] at hi
    simp [hlist, seq, List.getD_eq_getElem?_getD, hi]
  have hmem : ∀ i, 0 ≤ held l i ∧ held l i ≤ M := by
    intro i
    obtain ⟨v, hv, e⟩ := List.mem_map.1 (held_mem hne i)
    obtain ⟨q, rfl, h2, h3⟩ := hx v hv
    rw [← e]
    exact ⟨h2, h3⟩
  have hop : cfg.op (fun i => (seq (fed ops) i).val) n = cfg.op (held l) n := by
    refine cascadeOp_causal (k := (fed ops).length) (fun s hs v t e => (Config.stages_taps s hs v t e).1)
      (fun i hi => ?_) n ?_
    · rw [held_seq l (by omega), hval i (by omega)]
    · rw [Config.cascadeN hv, ← hl]
      exact hn
  rw [hop] at he
  have hb := mono_op hv hf (hmem 0).1 (held_mono hs) (held_hold l) (hmem _).2 n
  have he := abs_le.1 he
  constructor <;> nlinarith [hb.1, hb.2, he.1, he.2]

/-- C90 for real sessions: the ramp `1, 2, ..., 100` is non-decreasing; the output stays within -13.9 and 113.9. -/
example : ∃ q, (cfg .up 8 24 true .fir).session [Op.process (call 100 800)] = .ok q ∧
    ∀ y ∈ (cfg .up 8 24 true .fir).produced [Op.process (call 100 800)] q.2, -(139 / 1000 * 100) ≤ y ∧ y ≤ 1139 / 1000 * 100 := by
  have hc : ∀ op ∈ [Op.process (call 100 800)], (cfg .up 8 24 true .fir).OpOk op := by
    intro op hop
    simp only [List.mem_cons, List.not_mem_nil, or_false] at hop
    subst hop
    exact ⟨by decide, by decide, by decide, by decide, by decide, by decide, by decide⟩
  obtain ⟨r, os, h, -⟩ := C04_output_frame (cfg .up 8 24 true .fir) ⟨by decide, by decide, by decide⟩ _ hc
  have := accurate_rat
  exact ⟨_, h, C90_overshoot (K := Rat) (cfg .up 8 24 true .fir) ⟨by decide, by decide, by decide⟩ rfl _ hc r os h 100
    (by decide +kernel) (by decide +kernel)⟩

/-- C90 in binary32, for the same ramp. -/
example : ∃ q, (cfg .up 8 24 true .fir).session [Op.process (rampCall32 100 800)] = .ok q ∧
    ∀ v ∈ (cfg .up 8 24 true .fir).produced [Op.process (rampCall32 100 800)] q.2, ∃ y, v = Fl.fin y ∧ -14 ≤ y ∧ y ≤ 114 := by
  have hc : ∀ op ∈ [Op.process (rampCall32 100 800)], (cfg .up 8 24 true .fir).OpOk op := by
    intro op hop
    simp only [List.mem_cons, List.not_mem_nil, or_false] at hop
    subst hop
    exact ⟨by decide, by decide, by decide, by decide, by decide, by decide, by decide⟩
  have hv : (cfg .up 8 24 true .fir).Valid := ⟨by decide, by decide, by decide⟩
  obtain ⟨r, os, h, -⟩ := C04_output_frame (cfg .up 8 24 true .fir) hv _ hc
  have hx : ∀ v ∈ fed [Op.process (rampCall32 100 800)], ∃ q, v = Fl.fin q ∧ 0 ≤ q ∧ q ≤ 100 := by
    intro v hv
    obtain ⟨i, hi, rfl⟩ := List.mem_map.1 (show v ∈ (List.range 100).map (fun i : ℕ => (Fl.fin ((i : ℚ) + 1) : F32)) from hv)
    have : i + 1 ≤ 100 := List.mem_range.1 hi
    exact ⟨_, rfl, by positivity, by exact_mod_cast this⟩
  refine ⟨_, h, fun v hvm => ?_⟩
  obtain ⟨y, h1, h2, h3⟩ := C90_overshoot_binary32 _ hv rfl _ hc r os h 100 (by norm_num) hx (by decide +kernel) v hvm
  refine ⟨y, h1, le_trans ?_ h2, h3.trans ?_⟩ <;> norm_num [rndNano, overMilli, cfg]

/-- A call with `p` zeros followed by ones. -/
def stepCall (p n m : ℕ) : Call Rat :=
  { st := someStack, input := { addr := 4, len := n, get := fun i => if p ≤ i then 1 else 0 }, n := n, output := outBuf m }

/-- C90: rising (after 60 zeros) and the sharpness; both for a real session. -/
example : ∃ q, (cfg .up 2 16 false .fir).session [Op.process (stepCall 60 200 400)] = .ok q ∧
    ∀ n < ((cfg .up 2 16 false .fir).produced [Op.process (stepCall 60 200 400)] q.2).length, 126 ≤ n →
      -(135 / 1000) ≤ seq ((cfg .up 2 16 false .fir).produced [Op.process (stepCall 60 200 400)] q.2) n ∧
      seq ((cfg .up 2 16 false .fir).produced [Op.process (stepCall 60 200 400)] q.2) n ≤ 1134 / 1000 := by
  have hc : ∀ op ∈ [Op.process (stepCall 60 200 400)], (cfg .up 2 16 false .fir).OpOk op := by
    intro op hop
    simp only [List.mem_cons, List.not_mem_nil, or_false] at hop
    subst hop
    exact ⟨by decide, by decide, by decide, by decide, by decide, by decide, by decide⟩
  obtain ⟨r, os, h, -⟩ := C04_output_frame (cfg .up 2 16 false .fir) ⟨by decide, by decide, by decide⟩ _ hc
  have := accurate_rat
  refine ⟨_, h, fun n hn hs => ?_⟩
  have := C90_rising (K := Rat) (cfg .up 2 16 false .fir) ⟨by decide, by decide, by decide⟩ rfl _ hc r os h 0 1
    (by decide +kernel) (by decide +kernel) n hn hs
  simpa [overMilli, cfg] using this

private theorem stepCall_fed : ∀ q ∈ [0, 1], fed [Op.process (stepCall q 200 100)] = List.replicate q 0 ++ List.replicate (200 - q) 1 := by
  decide +kernel

example : ∃ q, ∃ s, (cfg .down 2 24 true .fir).session [Op.process (stepCall q 200 100)] = .ok s ∧
    ∃ y ∈ (cfg .down 2 24 true .fir).produced [Op.process (stepCall q 200 100)] s.2, y ≤ -(68 - 2) / 1000 := by
  have := accurate_rat
  have hv : (cfg .down 2 24 true .fir).Valid := ⟨by decide, by decide, by decide⟩
  obtain ⟨⟨q, hq, h⟩, -⟩ := C90_sharp (K := Rat) (cfg .down 2 24 true .fir) hv rfl (by decide) (by decide)
  have h0 : (cfg .down 2 24 true .fir).CallOk (stepCall 0 200 100) :=
    ⟨by decide, by decide, by decide, by decide, by decide, by decide, by decide⟩
  have hc : ∀ op ∈ [Op.process (stepCall q 200 100)], (cfg .down 2 24 true .fir).OpOk op := by
    intro op hop
    simp only [List.mem_cons, List.not_mem_nil, or_false] at hop
    subst hop
    exact ⟨h0.uint, h0.input, h0.output, h0.mul, h0.large, h0.nonempty, h0.behind⟩
  obtain ⟨r, os, hs, -⟩ := C04_output_frame (cfg .down 2 24 true .fir) hv _ hc
  have hq : q ∈ [0, 1] := by
    have : q < 2 := hq
    simp only [List.mem_cons, List.not_mem_nil, or_false]
    omega
  have hL : 2 * 65 ≤ q + (200 - q) := by
    simp only [List.mem_cons, List.not_mem_nil, or_false] at hq
    omega
  exact ⟨q, _, hs, h _ hc r os hs (200 - q) (stepCall_fed q hq) hL⟩

end Panda
