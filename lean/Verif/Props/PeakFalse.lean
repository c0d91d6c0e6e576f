import Verif.Props.SseDrift
import Verif.Proofs.Subnormal

/-!
# Outputs beyond the peak gain (negation of C69 for SSE with an odd number of coefficients)

When the error of `C68_false_sse_drift_down` has built up, the next 80 samples of each branch have the worst signs, the ones
that give the largest output in exact arithmetic.
-/

namespace Panda

open Examples

section chain

variable {F : Type} [Zero F] [Add F] [Sub F] [Mul F]

theorem chainState_congr {as : List F} {x y : ℕ → F} {n : ℕ} (h : ∀ i ≤ n, x i = y i) : chainState as x n = chainState as y n := by
  induction as generalizing x y with
  | nil => simp [chainState, h n le_rfl]
  | cons a as ih =>
    rw [chainState, chainState, h n le_rfl, ih fun i hi => allpass_congr fun j hj => h j (by omega)]

end chain

theorem driftState_congr {as : List F32} {x y : ℕ → F32} {n : ℕ} (h : ∀ i ≤ n, x i = y i) : driftState as x n = driftState as y n := by
  induction n with
  | zero =>
    unfold driftState
    have e := chainState_congr (as := as) h
    rw [e, allpass_congr (y := apChain as y)]
    intro i hi
    obtain rfl : i = 0 := by omega
    rw [← chainState_last _ _ _ 0, ← chainState_last _ _ _ 0, e]
  | succ n ih => rw [driftState_succ, driftState_succ, ih fun i hi => h i (by omega), h (n + 1) le_rfl]

theorem driftState_tail (as : List F32) (x : ℕ → F32) (n m : ℕ) :
    driftState as x (n + m) = (List.range m).foldl (fun s i => driftStep as (x (n + i + 1)) s) (driftState as x n) := by
  induction m with
  | zero => rfl
  | succ m ih =>
    rw [← Nat.add_assoc, driftState_succ, ih]
    simp [List.range_succ]

theorem chainState_tail (as : List F32) (x : ℕ → F32) (n m : ℕ) :
    chainState as x (n + m) = (List.range m).foldl (fun s i => chainNext as (x (n + i + 1)) s) (chainState as x n) := by
  induction m with
  | zero => rfl
  | succ m ih =>
    rw [← Nat.add_assoc, chainState_succ, ih]
    simp [List.range_succ]

/-- The sign of the impulse response of branch `b` after `j` samples. -/
def peakSign : ℕ → ℕ → ℕ → ℚ
  | 8, 0, j => [1, 1].getD j ((-1) ^ j)
  | 8, _, j => [1].getD j ((-1) ^ (j + 1))
  | 12, 0, j => [1, 1, 1, -1].getD j ((-1) ^ (j + 1))
  | 12, _, j => [1, 1].getD j ((-1) ^ j)
  | _, 0, j => [1, 1, 1, 1, 1, -1, 1, -1, 1, -1].getD j ((-1) ^ (j + 1))
  | _, _, j => [1, 1, 1, 1, -1, 1].getD j ((-1) ^ j)

/-- The last pair of samples before the worst signs. -/
def peakFrom (p : ℕ) : ℕ := driftFrom p + driftLen p * driftMax p

/-- Pairs of input samples: `driftIn` and zeros until the error has built up, then the worst signs. -/
def peakIn (p n : ℕ) : ℚ :=
  if n / 2 ≤ peakFrom p then (if n % 2 = 0 then driftIn p (n / 2) else 0)
  else peakSign p (1 - n % 2) (peakFrom p + 80 - n / 2)

/-- The coefficients of branch 0. -/
private def coefs0 (p : ℕ) : List F32 := (branchDecs (iirDecs 2 p) 0).map fun d => Sample.ofDouble d.toRat

private def end1 (p : ℕ) : F32 :=
  ((List.range 80).foldl (fun s i => driftStep (driftCoefs p) (Fl.fin (peakSign p 1 (79 - i))) s)
    ((driftIter (driftCoefs p) (fun i => Fl.fin (driftIn p i)) (driftFrom p)).1,
      Fl.fin ((driftIter (driftCoefs p) (fun i => Fl.fin (driftIn p i)) (driftFrom p)).2.val + driftMax p * driftGain p))).2

private def end0 (p : ℕ) : F32 :=
  ((List.range 80).foldl (fun s i => chainNext (coefs0 p) (Fl.fin (peakSign p 0 (79 - i))) s)
    (List.replicate ((coefs0 p).length + 1) 0)).getLastD 0

private def exceeds (v : F32) (q : ℚ) : Bool :=
  match v with
  | some y => decide (q < y)
  | none => false

/-- What is added to the peak gain at least. -/
def peakMore : ℕ → ℚ
  | 8 => 49 / 1000
  | 12 => 24 / 1000
  | _ => 28 / 1000

private theorem ends : ∀ p ∈ [8, 12, 24], exceeds ((end1 p + end0 p) * Sample.half) ((peakMilli .down 2 p : ℚ) / 1000 + peakMore p) = true ∧
    chainNext (coefs0 p) 0 (List.replicate ((coefs0 p).length + 1) 0) = List.replicate ((coefs0 p).length + 1) 0 := by decide +kernel

private theorem end1_eq {p : ℕ} (hp : p ∈ [8, 12, 24]) {x : ℕ → F32} (h1 : ∀ i ≤ peakFrom p, x i = Fl.fin (driftIn p i))
    (h2 : ∀ i < 80, x (peakFrom p + i + 1) = Fl.fin (peakSign p 1 (79 - i))) : (driftState (driftCoefs p) x (peakFrom p + 80)).2 = end1 p := by
  obtain ⟨w, w1, w2⟩ := driftCert_state (driftCerts p hp) (fun n => by rw [driftIn_period])
  have st := w2 (driftMax p) le_rfl
  rw [driftState_tail, driftState_congr h1]
  unfold end1
  rw [peakFrom, st, driftIter_eq, w1]
  refine congrArg Prod.snd (List.foldl_ext _ _ _ fun s i hi => ?_)
  rw [← peakFrom, h2 i (List.mem_range.1 hi)]

private theorem end0_eq {p : ℕ} (hp : p ∈ [8, 12, 24]) {x : ℕ → F32} (h1 : ∀ i ≤ peakFrom p, x i = 0)
    (h2 : ∀ i < 80, x (peakFrom p + i + 1) = Fl.fin (peakSign p 0 (79 - i))) : apChain (coefs0 p) x (peakFrom p + 80) = end0 p := by
  have h0 := (ends p hp).2
  have hz : ∀ n ≤ peakFrom p, chainState (coefs0 p) x n = List.replicate ((coefs0 p).length + 1) 0 := by
    intro n
    induction n with
    | zero => intro hn; rw [chainState_zero, h1 0 hn, h0]
    | succ n ih => intro hn; rw [chainState_succ, ih (by omega), h1 _ hn, h0]
  rw [← chainState_last _ _ _ 0, chainState_tail, hz _ le_rfl]
  unfold end0
  refine congrArg (fun l => List.getLastD l 0) (List.foldl_ext _ _ _ fun s i hi => ?_)
  rw [h2 i (List.mem_range.1 hi)]

private theorem getD_le {l : List ℚ} {q : ℚ} (hl : ∀ v ∈ l, |v| ≤ 1) (hq : |q| ≤ 1) (j : ℕ) : |l.getD j q| ≤ 1 := by
  rw [List.getD_eq_getElem?_getD]
  rcases Nat.lt_or_ge j l.length with hi | hi
  · rw [List.getElem?_eq_getElem hi]
    exact hl _ (List.getElem_mem hi)
  · rw [List.getElem?_eq_none hi]
    exact hq

theorem peakSign_le (p b j : ℕ) : |peakSign p b j| ≤ 1 := by
  unfold peakSign
  split <;> exact getD_le (by decide +kernel) (by simp) _

theorem peakIn_le (p n : ℕ) : |peakIn p n| ≤ 1 := by
  unfold peakIn
  split
  · split
    · exact driftIn_le _ _
    · simp
  · exact peakSign_le _ _ _

/-- **C69 is false with SSE and an odd number of coefficients**, downsampling by 2 with 8, 12 or 24 bits. binary32, input samples
`peakIn` of magnitude at most 1 (`peakIn_le`): output sample `peakFrom + 80` exceeds the peak gain of exact arithmetic (C67) by more than
`peakMore`, 0.049, 0.024 and 0.028 for 8, 12 and 24 bits. -/
theorem C69_false_sse_down (cfg : Config) (hv : cfg.Valid) (hf : cfg.filter = .iir) (hm : cfg.mode = .down) (h2 : cfg.ratio = 2)
    (hp : cfg.precision ∈ [8, 12, 24]) (hsse : cfg.iirSse = true) (ops : List (Op F32)) (hc : ∀ op ∈ ops, cfg.OpOk op)
    (r : Resampler F32) (os : List (Option (Buf F32))) (h : cfg.session ops = .ok (r, os)) (N : ℕ)
    (hfed : fed ops = (List.range (2 * N)).map fun i => Fl.fin (peakIn cfg.precision i)) (hN : peakFrom cfg.precision + 80 < N) :
    ∃ y, seq (cfg.produced ops os) (peakFrom cfg.precision + 80) = Fl.fin y ∧
      (peakMilli cfg.mode cfg.ratio cfg.precision : ℚ) / 1000 + peakMore cfg.precision < y := by
  obtain ⟨g, ht⟩ := drift_table hp
  have hrel := Config.session_rel' hv hc h
  rw [Config.stages_two h2] at hrel
  simp only [Config.stage, hf, hm] at hrel
  rw [ht] at hrel
  obtain ⟨ys, hr, hz⟩ := hrel
  have hz : cfg.produced ops os = ys := hz
  set n := peakFrom cfg.precision + 80 with hn
  have hseq : ∀ i < 2 * N, seq (fed ops) i = Fl.fin (peakIn cfg.precision i) := by
    intro i hi
    rw [hfed]
    simp [seq, List.getD_eq_getElem?_getD, hi]
  have hlen : n < ys.length := by
    have e := hr.1
    rw [hfed] at e
    simp at e
    omega
  have hout := hr.2 n hlen
  rw [hsse, if_pos rfl, List.length_map] at hout
  have hodd : (iirDecs 2 cfg.precision).length % 2 = 1 := by
    have : ∀ p ∈ [8, 12, 24], (iirDecs 2 p).length % 2 = 1 := by decide +kernel
    exact this _ hp
  have e1 : iirBranch1 true (iirDecs 2 cfg.precision).length (seq ((iirDecs 2 cfg.precision).map fun d => (Sample.ofDouble d.toRat : F32)))
      (evens (seq (fed ops))) n = end1 cfg.precision := by
    unfold iirBranch1
    rw [if_pos ⟨rfl, hodd⟩, branchOut_eq_apChain]
    refine end1_eq hp (fun i hi => ?_) (fun i hi => ?_)
    · show seq (fed ops) (2 * i) = _
      rw [hseq _ (by omega), peakIn, if_pos (by omega), if_pos (by omega), show 2 * i / 2 = i by omega]
    · show seq (fed ops) (2 * (peakFrom cfg.precision + i + 1)) = _
      rw [hseq _ (by omega), peakIn, if_neg (by omega), show 1 - 2 * (peakFrom cfg.precision + i + 1) % 2 = 1 by omega,
        show peakFrom cfg.precision + 80 - 2 * (peakFrom cfg.precision + i + 1) / 2 = 79 - i by omega]
  have e0 : branchOut (iirDecs 2 cfg.precision).length (seq ((iirDecs 2 cfg.precision).map fun d => (Sample.ofDouble d.toRat : F32))) 0
      (odds (seq (fed ops))) n = end0 cfg.precision := by
    rw [branchOut_eq_apChain]
    refine end0_eq hp (fun i hi => ?_) (fun i hi => ?_)
    · show seq (fed ops) (2 * i + 1) = _
      rw [hseq _ (by omega), peakIn, if_pos (by omega), if_neg (by omega)]
      rfl
    · show seq (fed ops) (2 * (peakFrom cfg.precision + i + 1) + 1) = _
      rw [hseq _ (by omega), peakIn, if_neg (by omega), show 1 - (2 * (peakFrom cfg.precision + i + 1) + 1) % 2 = 0 by omega,
        show peakFrom cfg.precision + 80 - (2 * (peakFrom cfg.precision + i + 1) + 1) / 2 = 79 - i by omega]
  rw [e1, e0] at hout
  have he := (ends _ hp).1
  rw [hz, hm, h2]
  cases hv : (end1 cfg.precision + end0 cfg.precision) * Sample.half with
  | none => rw [hv] at he; cases he
  | some y =>
    rw [hv] at he hout
    exact ⟨y, hout, of_decide_eq_true he⟩

/-- A call with `n` pairs of samples of `peakIn`. -/
def peakCall (p n : ℕ) : Call F32 :=
  { st := { block16 := 5, tmpAddr := 4, tmp2Addr := 8, junk := fun _ => 0 },
    input := { addr := 4, len := 2 * n + 2, get := fun i => Fl.fin (peakIn p i) }, n := 2 * n,
    output := { addr := 100, len := n, get := fun _ => 0 } }

private theorem fed_peakCall (p n : ℕ) : fed [Op.process (peakCall p n)] = (List.range (2 * n)).map fun i => Fl.fin (peakIn p i) := rfl

/-- Such a session exists: 8 bits, one call with 4978290 samples of magnitude at most 1; the last output sample is above 2.328, although the
peak gain is at most 2.279. -/
example : ∃ q y, (cfg .down 2 8 true .iir).session [Op.process (peakCall 8 2489145)] = .ok q ∧
    (∀ v ∈ fed [Op.process (peakCall 8 2489145)], ∃ u, v = Fl.fin u ∧ |u| ≤ 1) ∧
    seq ((cfg .down 2 8 true .iir).produced [Op.process (peakCall 8 2489145)] q.2) 2489144 = Fl.fin y ∧ 2328 / 1000 < y := by
  have hc : ∀ op ∈ [Op.process (peakCall 8 2489145)], (cfg .down 2 8 true .iir).OpOk op := by
    intro op hop
    simp only [List.mem_cons, List.not_mem_nil, or_false] at hop
    subst hop
    exact ⟨by decide, by decide, by decide, by decide, by decide, by decide, by decide⟩
  have hv : (cfg .down 2 8 true .iir).Valid := ⟨by decide, by decide, by decide⟩
  obtain ⟨r, os, h, -⟩ := C04_output_frame _ hv _ hc
  obtain ⟨y, h1, h2⟩ := C69_false_sse_down _ hv rfl rfl rfl (by decide) (by decide) _ hc r os h 2489145 (fed_peakCall _ _) (by decide)
  refine ⟨_, y, h, ?_, h1, ?_⟩
  · rw [fed_peakCall]
    intro v hvm
    obtain ⟨i, -, rfl⟩ := List.mem_map.1 hvm
    exact ⟨_, rfl, peakIn_le _ _⟩
  · norm_num [peakMilli, peakMore, cfg] at h2 ⊢
    linarith

end Panda
