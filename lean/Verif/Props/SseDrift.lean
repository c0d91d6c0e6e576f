import Verif.Props.IirPeak
import Verif.Proofs.IirFinite

/-!
# Rounding errors build up in SSE filters with an odd number of coefficients (negation of C68)

Upsampler2xSse.hpp:61 and Downsampler2xSse.hpp:58 give the unused lane of the last stage the coefficient 1. In exact arithmetic that
section does nothing. In binary32 it never forgets a rounding error.
-/

namespace Panda

open Examples

/-- A period of the input, by precision. -/
def driftPer : ℕ → List ℚ
  | 8 => [1, -1 / 2, 1, -1 / 2, 1 / 2, 1]
  | 12 => [-3 / 4, 0, -3 / 4, -3 / 4, 1, -3 / 4]
  | 24 => [-1, 1, -1, 1, -1, 1, 0, 1]
  | _ => []

/-- The periodic input. -/
def driftIn (p n : ℕ) : ℚ := (driftPer p).getD (n % (driftPer p).length) 0

/-- The first sample from which on the error grows by the same amount in every two periods. -/
def driftFrom : ℕ → ℕ
  | 8 => 24
  | 12 => 42
  | _ => 88

/-- Two periods. -/
def driftLen (p : ℕ) : ℕ := 2 * (driftPer p).length

/-- Growth of the error in two periods. -/
def driftGain : ℕ → ℚ
  | 24 => 1 / 2 ^ 20
  | _ => 1 / 2 ^ 21

/-- Number of times two periods the growth is proved for. -/
def driftMax : ℕ → ℕ
  | 8 => 207420
  | 12 => 103808
  | _ => 68262

/-- The coefficients of branch 1. -/
def driftCoefs (p : ℕ) : List F32 := (branchDecs (iirDecs 2 p) 1).map fun d => Sample.ofDouble d.toRat

theorem driftCerts : ∀ p ∈ [8, 12, 24], driftCert (driftCoefs p) (fun i => Fl.fin (driftIn p i)) (driftFrom p) (driftLen p) (driftMax p) (driftGain p) = true := by
  decide +kernel

/-- The two sections differ by at most this much before the error starts to grow. -/
private theorem starts : ∀ p ∈ [8, 12, 24], ∃ v ∈ [(driftIter (driftCoefs p) (fun i => Fl.fin (driftIn p i)) (driftFrom p)).1.getLastD 0],
    ∃ w ∈ [(driftIter (driftCoefs p) (fun i => Fl.fin (driftIn p i)) (driftFrom p)).2], |w.val - v.val| ≤ 1 / 10 ^ 6 := by
  decide +kernel

theorem driftIn_period (p n : ℕ) : driftIn p (n + driftLen p) = driftIn p n := by
  unfold driftIn driftLen
  rw [Nat.add_mul_mod_self_right]

theorem driftIn_le (p n : ℕ) : |driftIn p n| ≤ 1 := by
  have h : ∀ p ∈ [8, 12, 24], ∀ q ∈ driftPer p, |q| ≤ 1 := by decide +kernel
  have h0 : ∀ l : List ℚ, (∀ q ∈ l, |q| ≤ 1) → ∀ i, |l.getD i 0| ≤ 1 := by
    intro l hl i
    rw [List.getD_eq_getElem?_getD]
    rcases Nat.lt_or_ge i l.length with hi | hi
    · rw [List.getElem?_eq_getElem hi]
      exact hl _ (List.getElem_mem hi)
    · rw [List.getElem?_eq_none hi]
      norm_num
  refine h0 _ ?_ _
  unfold driftPer
  split
  · exact h 8 (by decide)
  · exact h 12 (by decide)
  · exact h 24 (by decide)
  · simp

private theorem coefs32 : ∀ p ∈ [8, 12, 24], ∀ d ∈ iirDecs 2 p, |rnd32 d.toRat - d.toRat| ≤ u32r * d.toRat ∧ binary32.fits (rnd32 d.toRat) = true := by
  decide +kernel

private theorem small : ∀ p ∈ [8, 12, 24], (iirW 2 p 1 + 1 / 10 ^ 6 ≤ 5 / 10 ^ 5 ∧ iirW 2 p 0 ≤ 5 / 10 ^ 5) ∧
    (iirG 2 p 0 + iirW 2 p 0 ≤ 8 ∧ iirG 2 p 1 + iirW 2 p 1 ≤ 8 ∧ (driftMax p : ℚ) * driftGain p ≤ 1) ∧ (iirDecs 2 p).length % 2 = 1 := by
  decide +kernel

/-- Branch 1 with SSE for `driftIn`. -/
private theorem branch1_drift {p : ℕ} (hp : p ∈ [8, 12, 24]) {k : ℕ} (hk : k ≤ driftMax p) {x : ℕ → F32}
    (hx : ∀ i ≤ driftFrom p + driftLen p * k, x i = Fl.fin (driftIn p i)) {r : ℕ → ℚ} (hr : ∀ i ≤ driftFrom p + driftLen p * k, r i = driftIn p i) :
    ∃ w, iirBranch1 true (iirDecs 2 p).length (seq ((iirDecs 2 p).map fun d => (Sample.ofDouble d.toRat : F32))) x
        (driftFrom p + driftLen p * k) = Fl.fin w ∧ |w| ≤ 10 ∧
      |w - k * driftGain p - branchOut (iirDecs 2 p).length (seq ((iirDecs 2 p).map fun d => d.toRat)) 1 r (driftFrom p + driftLen p * k)| ≤ 5 / 10 ^ 5 := by
  obtain ⟨⟨s1, -⟩, ⟨-, s4, s5⟩, s3⟩ := small p hp
  set n := driftFrom p + driftLen p * k with hn
  obtain ⟨w, w1, w2⟩ := driftCert_state (driftCerts p hp) (fun n => by rw [driftIn_period])
  have st := w2 k hk
  have hb : ∀ x : ℕ → F32, branchOut (iirDecs 2 p).length (seq ((iirDecs 2 p).map fun d => (Sample.ofDouble d.toRat : F32))) 1 x = apChain (driftCoefs p) x :=
    fun x => branchOut_eq_apChain (iirDecs 2 p) _ 1 x
  have h5 : p ∈ [8, 12, 16, 20, 24] := by
    simp at hp ⊢
    omega
  obtain ⟨y, y1, yb, y2⟩ := branch_round (Fl.iirArith (binary32_acc (Ω := 2 ^ 127) (by norm_num))).toSecArith (stageBnd_tab (k := 2) (p := p) (by decide) h5)
    (coefs32 p hp) (b := 1) (by norm_num) (X0 := 1) (by norm_num [τ32]) (by norm_num) (xt := fun k => Fl.fin (driftIn p k)) (fun _ => rfl) (driftIn_le p)
  rw [hb] at y1
  -- the first sections are back at the same values
  have hlast : y n = y (driftFrom p) := by
    have e1 := congrArg (fun s => s.1.getLastD 0) st
    simp only [driftState, chainState_last] at e1
    rw [y1, y1] at e1
    exact Option.some.inj e1
  have hstart : |w - y n| ≤ 1 / 10 ^ 6 := by
    obtain ⟨v, hv, w', hw', hvw⟩ := starts p hp
    rw [List.mem_singleton] at hv hw'
    rw [driftIter_eq] at hv hw'
    rw [w1] at hw'
    simp only [driftState, chainState_last] at hv
    rw [y1] at hv
    rw [hv, hw'] at hvw
    rw [hlast]
    exact hvw
  have hout : iirBranch1 true (iirDecs 2 p).length (seq ((iirDecs 2 p).map fun d => (Sample.ofDouble d.toRat : F32))) x n =
      Fl.fin (w + k * driftGain p) := by
    rw [iirBranch1_congr hx]
    unfold iirBranch1
    rw [if_pos ⟨rfl, s3⟩, hb]
    exact congrArg Prod.snd st
  have e2 := y2 (n + 1) r 0 (fun i hi => by rw [hr i (by omega)]; simp) n (by omega)
  refine ⟨_, hout, ?_, ?_⟩
  · have hg : 0 ≤ driftGain p := by unfold driftGain; split <;> positivity
    have hk' : (k : ℚ) * driftGain p ≤ driftMax p * driftGain p := mul_le_mul_of_nonneg_right (by exact_mod_cast hk) hg
    have hk0 : 0 ≤ (k : ℚ) * driftGain p := by positivity
    have := yb n
    rw [abs_le] at this hstart ⊢
    constructor <;> linarith [this.1, this.2, hstart.1, hstart.2]
  · rw [abs_le] at e2 hstart ⊢
    constructor <;> linarith [e2.1, e2.2, hstart.1, hstart.2]

theorem drift_table {p : ℕ} (hp : p ∈ [8, 12, 24]) : ∃ g, iirTable 2 p = some (iirDecs 2 p, g) := by
  simp at hp
  rcases hp with rfl | rfl | rfl <;> exact ⟨_, rfl⟩

/-- **C68 is false with SSE and an odd number of coefficients**, upsampling by 2 with 8, 12 or 24 bits. binary32, periodic
input `driftIn` of magnitude at most 1: the error of output sample `2 (driftFrom + k driftLen) + 1` is `k driftGain`, up to
`5 * 10^-5`, for `k ≤ driftMax`. It grows linearly, to 0.0989 (8 bits), 0.0494 (12 bits), 0.0650 (24 bits) of full scale. -/
theorem C68_false_sse_drift (cfg : Config) (hv : cfg.Valid) (hf : cfg.filter = .iir) (hm : cfg.mode = .up) (h2 : cfg.ratio = 2)
    (hp : cfg.precision ∈ [8, 12, 24]) (hsse : cfg.iirSse = true) (ops : List (Op F32)) (hc : ∀ op ∈ ops, cfg.OpOk op)
    (r : Resampler F32) (os : List (Option (Buf F32))) (h : cfg.session ops = .ok (r, os)) (N : ℕ)
    (hfed : fed ops = (List.range N).map fun i => Fl.fin (driftIn cfg.precision i)) (k : ℕ) (hk : k ≤ driftMax cfg.precision)
    (n : ℕ) (hn : n = driftFrom cfg.precision + driftLen cfg.precision * k) (hN : n < N) :
    ∃ y, seq (cfg.produced ops os) (2 * n + 1) = Fl.fin y ∧
      |y - cfg.op (fun i => (seq (fed ops) i).val) (2 * n + 1) - k * driftGain cfg.precision| ≤ 5 / 10 ^ 5 := by
  obtain ⟨g, ht⟩ := drift_table hp
  have hrel := Config.session_rel' hv hc h
  rw [Config.stages_two h2] at hrel
  simp only [Config.stage, hf, hm] at hrel
  rw [ht] at hrel
  obtain ⟨ys, hr, hz⟩ := hrel
  have hz : cfg.produced ops os = ys := hz
  have hseq : ∀ i < N, seq (fed ops) i = Fl.fin (driftIn cfg.precision i) := by
    intro i hi
    rw [hfed]
    simp [seq, List.getD_eq_getElem?_getD, hi]
  have hout := (hr.2 n (by rw [hfed]; simpa using hN)).2
  rw [hsse, List.length_map] at hout
  obtain ⟨w, w1, -, w2⟩ := branch1_drift hp hk (x := seq (fed ops)) (fun i hi => hseq i (by omega)) (r := fun i => (seq (fed ops) i).val)
    (fun i hi => by rw [hseq i (by omega)]; rfl)
  rw [← hn] at w1 w2
  refine ⟨w, by rw [hz]; exact hout.trans w1, ?_⟩
  have hop : cfg.op (fun i => (seq (fed ops) i).val) (2 * n + 1) =
      branchOut (iirDecs 2 cfg.precision).length (seq ((iirDecs 2 cfg.precision).map fun d => d.toRat)) 1 (fun i => (seq (fed ops) i).val) n := by
    unfold Config.op
    rw [Config.stages_two h2]
    simp only [Config.stage, hf, hm]
    rw [ht]
    show iirUpOp _ _ _ _ = _
    unfold iirUpOp
    rw [show (2 * n + 1) % 2 = 1 by omega, show (2 * n + 1) / 2 = n by omega, List.length_map]
    rfl
  rw [hop]
  convert w2 using 2
  ring

/-- The same for downsampling by 2: `driftIn` in the even samples, zeros in the odd samples. The error of output sample
`driftFrom + k driftLen` is `k driftGain / 2`, up to `6 * 10^-5`. -/
theorem C68_false_sse_drift_down (cfg : Config) (hv : cfg.Valid) (hf : cfg.filter = .iir) (hm : cfg.mode = .down) (h2 : cfg.ratio = 2)
    (hp : cfg.precision ∈ [8, 12, 24]) (hsse : cfg.iirSse = true) (ops : List (Op F32)) (hc : ∀ op ∈ ops, cfg.OpOk op)
    (r : Resampler F32) (os : List (Option (Buf F32))) (h : cfg.session ops = .ok (r, os)) (N : ℕ)
    (hfed : fed ops = (List.range (2 * N)).map fun i => Fl.fin (if i % 2 = 0 then driftIn cfg.precision (i / 2) else 0))
    (k : ℕ) (hk : k ≤ driftMax cfg.precision) (n : ℕ) (hn : n = driftFrom cfg.precision + driftLen cfg.precision * k) (hN : n < N) :
    ∃ y, seq (cfg.produced ops os) n = Fl.fin y ∧
      |y - cfg.op (fun i => (seq (fed ops) i).val) n - k * driftGain cfg.precision / 2| ≤ 6 / 10 ^ 5 := by
  obtain ⟨g, ht⟩ := drift_table hp
  obtain ⟨⟨-, s2⟩, ⟨s4, -, -⟩, -⟩ := small _ hp
  have h5 : cfg.precision ∈ [8, 12, 16, 20, 24] := by
    simp at hp ⊢
    omega
  have hrel := Config.session_rel' hv hc h
  rw [Config.stages_two h2] at hrel
  simp only [Config.stage, hf, hm] at hrel
  rw [ht] at hrel
  obtain ⟨ys, hr, hz⟩ := hrel
  have hz : cfg.produced ops os = ys := hz
  have hseq : ∀ i < 2 * N, seq (fed ops) i = Fl.fin (if i % 2 = 0 then driftIn cfg.precision (i / 2) else 0) := by
    intro i hi
    rw [hfed]
    simp [seq, List.getD_eq_getElem?_getD, hi]
  have heven : ∀ i < N, evens (seq (fed ops)) i = Fl.fin (driftIn cfg.precision i) := by
    intro i hi
    show seq (fed ops) (2 * i) = _
    rw [hseq _ (by omega), if_pos (by omega), show 2 * i / 2 = i by omega]
  have hodd : ∀ i < N, odds (seq (fed ops)) i = Fl.fin 0 := by
    intro i hi
    show seq (fed ops) (2 * i + 1) = _
    rw [hseq _ (by omega), if_neg (by omega)]
  have hlen : n < ys.length := by
    have e := hr.1
    rw [hfed] at e
    simp at e
    omega
  have hout := hr.2 n hlen
  rw [hsse, if_pos rfl, List.length_map] at hout
  obtain ⟨w, w1, wb, w2⟩ := branch1_drift hp hk (x := evens (seq (fed ops))) (fun i hi => heven i (by omega))
    (r := evens fun i => (seq (fed ops) i).val)
    (fun i hi => by
      show (evens (seq (fed ops)) i).val = _
      rw [heven i (by omega)]; rfl)
  rw [← hn] at w1 w2
  obtain ⟨y, y1, yb, y2⟩ := branch_round (Fl.iirArith (binary32_acc (Ω := 2 ^ 127) (by norm_num))).toSecArith (stageBnd_tab (k := 2) (by decide) h5)
    (coefs32 _ hp) (b := 0) (by norm_num) (X0 := 1) (by norm_num [τ32]) (by norm_num) (x := fun _ => 0) (xt := fun _ => Fl.fin 0) (fun _ => rfl) (by simp)
  have e2 := y2 N (odds fun i => (seq (fed ops) i).val) 0 (fun i hi => by
    have : (odds fun i => (seq (fed ops) i).val) i = (odds (seq (fed ops)) i).val := rfl
    rw [this, hodd i hi]
    simp [Fl.val, Fl.fin]) n hN
  rw [w1, branchOut_congr (y := fun _ => Fl.fin 0) (fun i hi => hodd i (by omega)), y1] at hout
  have yb := yb n
  obtain ⟨z, z1, z2⟩ := half_round (binary32_acc (Ω := 2 ^ 127) (by norm_num)) (X0 := 1) (by norm_num [τ32]) (by norm_num) (by norm_num)
    (B := 18) (by norm_num) (p := w) (q := y n) (by
      refine (abs_add_le _ _).trans ?_
      linarith)
  refine ⟨z, by rw [hz]; exact hout.trans z1, ?_⟩
  have hop : cfg.op (fun i => (seq (fed ops) i).val) n = 1 / 2 *
      (branchOut (iirDecs 2 cfg.precision).length (seq ((iirDecs 2 cfg.precision).map fun d => d.toRat)) 0 (odds fun i => (seq (fed ops) i).val) n +
       branchOut (iirDecs 2 cfg.precision).length (seq ((iirDecs 2 cfg.precision).map fun d => d.toRat)) 1 (evens fun i => (seq (fed ops) i).val) n) := by
    unfold Config.op
    rw [Config.stages_two h2]
    simp only [Config.stage, hf, hm]
    rw [ht]
    show iirDownOp _ _ _ _ _ = _
    unfold iirDownOp
    rw [List.length_map]
    rfl
  rw [hop]
  have hz2 : (u32r * (1 + u32r) * 18 + 2 * τ32) * 1 ≤ 2 / 10 ^ 6 := by norm_num [u32r, τ32]
  have z2 := z2.trans hz2
  rw [abs_le] at z2 e2 w2 ⊢
  constructor <;> linarith [z2.1, z2.2, e2.1, e2.2, w2.1, w2.2]

/-- A call with `n` samples of `driftIn`. -/
def driftCall (p n : ℕ) : Call F32 :=
  { st := { block16 := 5, tmpAddr := 4, tmp2Addr := 8, junk := fun _ => 0 },
    input := { addr := 4, len := n, get := fun i => Fl.fin (driftIn p i) }, n := n,
    output := { addr := 100, len := 2 * n, get := fun _ => 0 } }

/-- The input for downsampling. -/
def driftCallDown (p n : ℕ) : Call F32 :=
  { st := { block16 := 5, tmpAddr := 4, tmp2Addr := 8, junk := fun _ => 0 },
    input := { addr := 4, len := 2 * n + 2, get := fun i => Fl.fin (if i % 2 = 0 then driftIn p (i / 2) else 0) }, n := 2 * n,
    output := { addr := 100, len := n, get := fun _ => 0 } }

private theorem fed_driftCall (p n : ℕ) : fed [Op.process (driftCall p n)] = (List.range n).map fun i => Fl.fin (driftIn p i) := rfl

private theorem fed_driftCallDown (p n : ℕ) : fed [Op.process (driftCallDown p n)] =
    (List.range (2 * n)).map fun i => Fl.fin (if i % 2 = 0 then driftIn p (i / 2) else 0) := rfl

/-- Such sessions exist. 24 bits: after 1092281 samples (25 seconds at 44.1 kHz) of magnitude at most 1 the upsampled signal is off by
more than 0.065, although C68 would allow 0.000031. -/
example : ∃ q y, (cfg .up 2 24 true .iir).session [Op.process (driftCall 24 1092281)] = .ok q ∧
    seq ((cfg .up 2 24 true .iir).produced [Op.process (driftCall 24 1092281)] q.2) (2 * 1092280 + 1) = Fl.fin y ∧
    65 / 1000 < y - (cfg .up 2 24 true .iir).op (fun i => (seq (fed [Op.process (driftCall 24 1092281)]) i).val) (2 * 1092280 + 1) ∧
    (iirRndNano .up 2 24 : ℚ) / 10 ^ 9 < 31 / 10 ^ 6 := by
  have hc : ∀ op ∈ [Op.process (driftCall 24 1092281)], (cfg .up 2 24 true .iir).OpOk op := by
    intro op hop
    simp only [List.mem_cons, List.not_mem_nil, or_false] at hop
    subst hop
    exact ⟨by decide, by decide, by decide, by decide, by decide, by decide, by decide⟩
  have hv : (cfg .up 2 24 true .iir).Valid := ⟨by decide, by decide, by decide⟩
  obtain ⟨r, os, h, -⟩ := C04_output_frame _ hv _ hc
  obtain ⟨y, h1, h2⟩ := C68_false_sse_drift _ hv rfl rfl rfl (by decide) (by decide) _ hc r os h 1092281 (fed_driftCall _ _) 68262 (by decide) 1092280
    (by decide) (by norm_num)
  refine ⟨_, y, h, h1, ?_, by norm_num [iirRndNano]⟩
  have := (abs_le.1 h2).1
  norm_num [driftGain, cfg] at this ⊢
  linarith

example : ∃ q, (cfg .down 2 8 true .iir).session [Op.process (driftCallDown 8 2489065)] = .ok q ∧
    ∃ y, seq ((cfg .down 2 8 true .iir).produced [Op.process (driftCallDown 8 2489065)] q.2) 2489064 = Fl.fin y ∧
    49 / 1000 < y - (cfg .down 2 8 true .iir).op (fun i => (seq (fed [Op.process (driftCallDown 8 2489065)]) i).val) 2489064 := by
  have hc : ∀ op ∈ [Op.process (driftCallDown 8 2489065)], (cfg .down 2 8 true .iir).OpOk op := by
    intro op hop
    simp only [List.mem_cons, List.not_mem_nil, or_false] at hop
    subst hop
    exact ⟨by decide, by decide, by decide, by decide, by decide, by decide, by decide⟩
  have hv : (cfg .down 2 8 true .iir).Valid := ⟨by decide, by decide, by decide⟩
  obtain ⟨r, os, h, -⟩ := C04_output_frame _ hv _ hc
  obtain ⟨y, h1, h2⟩ := C68_false_sse_drift_down _ hv rfl rfl rfl (by decide) (by decide) _ hc r os h 2489065 (fed_driftCallDown _ _) 207420 (by decide) 2489064
    (by decide) (by norm_num)
  refine ⟨_, h, y, h1, ?_⟩
  have := (abs_le.1 h2).1
  norm_num [driftGain, cfg] at this ⊢
  linarith

/-! ## No overflow in spite of the drift -/

private theorem gains : ∀ k ∈ [2, 4, 8], ∀ p ∈ [8, 12, 16, 20, 24], ∀ b < 2, iirG k p b + iirW k p b < 8 := by decide +kernel

private theorem coefsAll : ∀ k ∈ [2, 4, 8], ∀ p ∈ [8, 12, 16, 20, 24], ∀ d ∈ iirDecs k p,
    |rnd32 d.toRat - d.toRat| ≤ u32r * d.toRat ∧ binary32.fits (rnd32 d.toRat) = true := by decide +kernel

private theorem rates_length (cfg : Config) (hv : cfg.Valid) : cfg.rates.length ≤ 3 := by
  have h := hv.ratio
  simp at h
  rcases cfg with ⟨b, al, m, r, p, u, f⟩
  simp at h
  rcases h with rfl | rfl | rfl | rfl <;> cases m <;> simp [Config.rates]

/-- **C69**, the part that holds for every IIR configuration, also with SSE and odd numbers of coefficients: if the input samples are
finite and at most `2^36`, all output samples are finite (at most `2^120`), however long the session is. -/
theorem C69_finite (cfg : Config) (hv : cfg.Valid) (hf : cfg.filter = .iir) (ops : List (Op F32)) (hc : ∀ op ∈ ops, cfg.OpOk op)
    (r : Resampler F32) (os : List (Option (Buf F32))) (h : cfg.session ops = .ok (r, os))
    (hx : ∀ v ∈ fed ops, ∃ q, v = Fl.fin q ∧ |q| ≤ 2 ^ 36) :
    ∀ v ∈ cfg.produced ops os, ∃ y, v = Fl.fin y ∧ |y| ≤ 2 ^ 120 := by
  intro v hvm
  have hp : cfg.precision ∈ [8, 12, 16, 20, 24] := by
    have h1 := hv.precision
    have h2 := hv.iir hf
    simp at h1 ⊢
    omega
  have hrel := Config.session_rel' hv hc h
  obtain ⟨xs, hxs⟩ := exists_fin_list (fed ops) fun n hn => by
    obtain ⟨q, h1, -⟩ := hx (fed ops)[n] (List.getElem_mem hn)
    exact ⟨q, by rw [← h1]; simp [seq, List.getD_eq_getElem?_getD, hn]⟩
  have hxM : ∀ n, |seq xs n| ≤ (2 : ℚ) ^ (36 : ℤ) := by
    intro n
    rcases Nat.lt_or_ge n xs.length with h1 | h1
    · obtain ⟨q, h2, h3⟩ := hx (Fl.fin (seq xs n)) (by
        rw [hxs]
        refine List.mem_map.2 ⟨_, ?_, rfl⟩
        rw [seq_lt h1]
        exact List.getElem_mem h1)
      rw [Option.some.inj h2]
      exact_mod_cast h3
    · rw [seq_ge h1, abs_zero]
      positivity
  have hl := rates_length cfg hv
  rw [Config.stages_eq_iirTabs hv hf, hxs] at hrel
  obtain ⟨zq, hz, z1⟩ := iir_cascade_finite hp cfg.rates (fun k hk => (Config.mem_rates hk).1)
    (fun k hk => gains k (Config.mem_rates hk).1 _ hp) (fun k hk d hd => coefsAll k (Config.mem_rates hk).1 _ hp d hd)
    (e := 36) (by norm_num) (by omega) hrel hxM
  obtain ⟨n, hn, rfl⟩ := List.mem_iff_getElem.1 hvm
  refine ⟨seq zq n, ?_, (z1 n).trans ?_⟩
  · have := congrArg (fun l => seq l n) hz
    simp only [seq_fin] at this
    rw [← this]
    simp [seq, List.getD_eq_getElem?_getD, hn]
  · have : (2 : ℚ) ^ ((36 : ℤ) + 28 * cfg.rates.length) ≤ 2 ^ (120 : ℤ) := zpow_le_zpow_right₀ (by norm_num) (by omega)
    exact_mod_cast this

/-- 24 bits, ratio 8, with SSE: all three stages have odd numbers of coefficients. -/
example : (∀ k ∈ [2, 4, 8], ∀ t ∈ iirTable k 24, t.1.length % 2 = 1) ∧
    ∃ q, (cfg .up 8 24 true .iir).session [Op.process (rampCall32 100 800)] = .ok q ∧
      ∀ v ∈ (cfg .up 8 24 true .iir).produced [Op.process (rampCall32 100 800)] q.2, ∃ y, v = Fl.fin y ∧ |y| ≤ 2 ^ 120 := by
  have hc : ∀ op ∈ [Op.process (rampCall32 100 800)], (cfg .up 8 24 true .iir).OpOk op := by
    intro op hop
    simp only [List.mem_cons, List.not_mem_nil, or_false] at hop
    subst hop
    exact ⟨by decide, by decide, by decide, by decide, by decide, by decide, by decide⟩
  have hv : (cfg .up 8 24 true .iir).Valid := ⟨by decide, by decide, by decide⟩
  obtain ⟨r, os, h, -⟩ := C04_output_frame _ hv _ hc
  refine ⟨by decide +kernel, _, h, C69_finite _ hv rfl _ hc r os h ?_⟩
  intro v hv
  obtain ⟨i, hi, rfl⟩ := List.mem_map.1 (show v ∈ (List.range 100).map (fun i : ℕ => (Fl.fin ((i : ℚ) + 1) : F32)) from hv)
  refine ⟨_, rfl, ?_⟩
  rw [abs_of_nonneg (by positivity)]
  have : i + 1 ≤ 2 ^ 36 := by have := List.mem_range.1 hi; omega
  exact_mod_cast this

end Panda
