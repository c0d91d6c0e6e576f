import Verif.Proofs.Cycle

/-!
# IIR resamplers by 4 and by 8 at rest (negations of C70 and C24)

All stages together end in a cycle of length 2, which the kernel finds by computation.
-/

namespace Panda

open Examples

/-- `2^-126`, the smallest number that is not subnormal. -/
private def fxMin : Fx := .p 8388608

private def fxHalf : Fx := .p 356811923176489970264571492362373784095686656

private theorem fxHalf_eq : fxHalf.toFl = Sample.half := by
  refine congrArg some ?_
  show ((356811923176489970264571492362373784095686656 : ℕ) : ℚ) * 2 ^ (-149 : ℤ) = 1 / 2
  norm_num

private theorem fxMin_eq : fxMin.toFl = Fl.fin (2 ^ (-126 : ℤ)) := by
  refine congrArg some ?_
  show ((8388608 : ℕ) : ℚ) * 2 ^ (-149 : ℤ) = 2 ^ (-126 : ℤ)
  norm_num

/-- The last number is not zero, but at most `7 * 2^-149`. -/
private def tinyLast (l : List Fx) : Bool :=
  match l.getLastD 0 with
  | .p n => Nat.ble 1 n && Nat.ble n 7
  | .m n => Nat.ble 1 n && Nat.ble n 7
  | .bad => false

private theorem tinyLast_spec {l : List Fx} (h : tinyLast l = true) : ∃ y, (l.getLastD 0).toFl = Fl.fin y ∧ y ≠ 0 ∧ |y| ≤ 7 * 2 ^ (-149 : ℤ) := by
  unfold tinyLast at h
  have key : ∀ n : ℕ, (Nat.ble 1 n && Nat.ble n 7) = true → 0 < (n : ℚ) * 2 ^ (-149 : ℤ) ∧ (n : ℚ) * 2 ^ (-149 : ℤ) ≤ 7 * 2 ^ (-149 : ℤ) := by
    intro n hn
    rw [Bool.and_eq_true, Nat.ble_eq, Nat.ble_eq] at hn
    have h1 : (0 : ℚ) < n := by exact_mod_cast hn.1
    have h2 : (n : ℚ) ≤ 7 := by exact_mod_cast hn.2
    exact ⟨by positivity, mul_le_mul_of_nonneg_right h2 (by positivity)⟩
  split at h
  · rename_i n e
    rw [e]
    obtain ⟨h1, h2⟩ := key n h
    exact ⟨_, rfl, h1.ne', by rwa [abs_of_pos h1]⟩
  · rename_i n e
    rw [e]
    obtain ⟨h1, h2⟩ := key n h
    exact ⟨_, rfl, (neg_neg_of_pos h1).ne, by rwa [abs_neg, abs_of_pos h1]⟩
  · cases h

/-- The stages, by ratio. -/
private def upKs : ℕ → List ℕ
  | 2 => [2]
  | 4 => [2, 4]
  | _ => [2, 4, 8]

private def downKs : ℕ → List ℕ
  | 2 => [2]
  | 4 => [4, 2]
  | _ => [8, 4, 2]

/-- Number of zeros until the cycle has been reached (at any ratio). -/
def cascadeRestFrom : ℕ → ℕ
  | 8 => 65
  | 12 => 99
  | 16 => 115
  | 20 => 146
  | _ => 161

private def upCert (r p : ℕ) (sse : Bool) : Bool :=
  match (upKs r).map (stageBranches p sse) with
  | Ms => cycleCert (upRuns Ms) [fxMin] [0] (atStart Ms) (cascadeRestFrom p) tinyLast

private def downCert (r p : ℕ) (sse : Bool) : Bool :=
  match (downKs r).map (stageBranches p sse) with
  | Ms => cycleCert (downRuns fxHalf Ms) (fxMin :: List.replicate (r - 1) 0) (List.replicate (r - 1 + 1) 0) (atStart Ms) (cascadeRestFrom p) tinyLast

set_option maxRecDepth 100000 in
private theorem upCerts : ∀ r ∈ [4, 8], ∀ p ∈ [8, 12, 16, 20, 24], ∀ sse ∈ [false, true], upCert r p sse = true := by decide +kernel

set_option maxRecDepth 100000 in
private theorem downCerts : ∀ r ∈ [4, 8], ∀ p ∈ [8, 12, 16, 20, 24], ∀ sse ∈ [false, true], downCert r p sse = true := by decide +kernel

private theorem slice_last {F : Type} [Zero F] (x : ℕ → F) (n k : ℕ) (d : F) : (slice x n (k + 1)).getLastD d = x (n + k) := by
  induction k generalizing n d with
  | zero => rfl
  | succ k ih =>
    rw [slice, List.getLastD_cons, ih]
    congr 1
    omega

private theorem prec {cfg : Config} (hv : cfg.Valid) (hf : cfg.filter = .iir) : cfg.precision ∈ [8, 12, 16, 20, 24] := by
  have h1 := hv.precision
  have h2 := hv.iir hf
  simp at h1 ⊢
  omega

/-- **C70 is false for IIR resamplers**, upsampling by 4 and by 8 (with SSE or without, every precision). binary32, the sample `2^-126` (the
smallest one that is not subnormal) followed by `Z` zeros: the last output sample for each zero, however many there are, is a subnormal
number, not zero. -/
theorem C70_false_cascade_up (cfg : Config) (hv : cfg.Valid) (hf : cfg.filter = .iir) (hm : cfg.mode = .up) (hr : cfg.ratio ∈ [4, 8])
    (ops : List (Op F32)) (hc : ∀ op ∈ ops, cfg.OpOk op) (r : Resampler F32) (os : List (Option (Buf F32)))
    (h : cfg.session ops = .ok (r, os)) (Z : ℕ) (hx : fed ops = Fl.fin (2 ^ (-126 : ℤ)) :: List.replicate Z 0)
    (n : ℕ) (hn : cascadeRestFrom cfg.precision < n) (hnZ : n ≤ Z) :
    ∃ y, seq (cfg.produced ops os) (cfg.ratio * n + (cfg.ratio - 1)) = Fl.fin y ∧ y ≠ 0 ∧ |y| ≤ 7 * 2 ^ (-149 : ℤ) := by
  have hp := prec hv hf
  have hrel := Config.session_rel' hv hc h
  have hks : cfg.rates = upKs cfg.ratio ∧ (∀ k ∈ upKs cfg.ratio, k ∈ [2, 4, 8]) ∧ 2 ^ (upKs cfg.ratio).length = cfg.ratio - 1 + 1 := by
    unfold Config.rates
    rw [hm]
    simp at hr
    rcases hr with e | e <;> rw [e] <;> exact ⟨rfl, by decide, rfl⟩
  obtain ⟨k1, k2, k3⟩ := hks
  rw [Config.stages_eq_iirTabs hv hf, k1, hm] at hrel
  obtain ⟨l1, l2⟩ := hrel.upSeqs hp k2
  have hcert := cycleCert_all (upCerts _ hr _ hp cfg.iirSse (by cases cfg.iirSse <;> simp))
  obtain ⟨m, rfl⟩ : ∃ m, n = m + 1 := ⟨n - 1, by omega⟩
  have h1 := hcert m (by omega)
  obtain ⟨y, e, y1, y2⟩ := tinyLast_spec h1
  refine ⟨y, ?_, y1, y2⟩
  have hlen : cfg.ratio * (m + 1) + (cfg.ratio - 1) < (cfg.produced ops os).length := by
    rw [l1, hx, List.length_cons, List.length_replicate, k3]
    have h3 : cfg.ratio - 1 + 1 = cfg.ratio := by simp at hr; omega
    have h4 : cfg.ratio * (m + 2) ≤ cfg.ratio * (Z + 1) := Nat.mul_le_mul_left _ (by omega)
    rw [h3]
    have h5 : cfg.ratio * (m + 2) = cfg.ratio * (m + 1) + cfg.ratio := by ring
    omega
  rw [l2 _ hlen, ← e]
  have h2 := upSeqs_impulse ((upKs cfg.ratio).map (stageBranches cfg.precision cfg.iirSse)) (a := fxMin) (x := seq (fed ops))
    (by rw [hx, fxMin_eq]; rfl) (fun n => by rw [hx]; exact seq_impulse _ _ _) m
  rw [List.length_map, k3, List.map_map] at h2
  have h3 := congrArg (fun l => l.getLastD 0) h2
  simp only [slice_last, Fx.getLastD_toFl] at h3
  rw [← h3]
  have h4 : cfg.ratio - 1 + 1 = cfg.ratio := by simp at hr; omega
  rw [h4]
  rfl

/-- **C70 is false for IIR resamplers**, downsampling by 4 and by 8 (with SSE or without, every precision). binary32, the sample `2^-126`
(the smallest one that is not subnormal) followed by `Z` zeros: all output samples up to the end, however large `Z` is, are subnormal
numbers, not zero. -/
theorem C70_false_cascade_down (cfg : Config) (hv : cfg.Valid) (hf : cfg.filter = .iir) (hm : cfg.mode = .down) (hr : cfg.ratio ∈ [4, 8])
    (ops : List (Op F32)) (hc : ∀ op ∈ ops, cfg.OpOk op) (r : Resampler F32) (os : List (Option (Buf F32)))
    (h : cfg.session ops = .ok (r, os)) (Z : ℕ) (hx : fed ops = Fl.fin (2 ^ (-126 : ℤ)) :: List.replicate Z 0)
    (n : ℕ) (hn : cascadeRestFrom cfg.precision < n) (hnl : n < (cfg.produced ops os).length) :
    ∃ y, seq (cfg.produced ops os) n = Fl.fin y ∧ y ≠ 0 ∧ |y| ≤ 7 * 2 ^ (-149 : ℤ) := by
  have hp := prec hv hf
  have hrel := Config.session_rel' hv hc h
  have hks : cfg.rates = downKs cfg.ratio ∧ (∀ k ∈ downKs cfg.ratio, k ∈ [2, 4, 8]) ∧ 2 ^ (downKs cfg.ratio).length = cfg.ratio - 1 + 1 := by
    unfold Config.rates
    rw [hm]
    simp at hr
    rcases hr with e | e <;> rw [e] <;> exact ⟨rfl, by decide, rfl⟩
  obtain ⟨k1, k2, k3⟩ := hks
  rw [Config.stages_eq_iirTabs hv hf, k1, hm] at hrel
  obtain ⟨l1, l2⟩ := hrel.downSeqs hp k2
  have hcert := cycleCert_all (downCerts _ hr _ hp cfg.iirSse (by cases cfg.iirSse <;> simp))
  obtain ⟨m, rfl⟩ : ∃ m, n = m + 1 := ⟨n - 1, by omega⟩
  have h1 := hcert m (by omega)
  obtain ⟨y, e, y1, y2⟩ := tinyLast_spec h1
  refine ⟨y, ?_, y1, y2⟩
  rw [l2 _ hnl, ← e]
  have h2 := downSeqs_impulse fxHalf_eq ((downKs cfg.ratio).map (stageBranches cfg.precision cfg.iirSse)) (a := fxMin) (x := seq (fed ops))
    (by rw [hx, fxMin_eq]; rfl) (fun n => by rw [hx]; exact seq_impulse _ _ _) (by rw [List.length_map, k3]) m
  rw [List.map_map] at h2
  have h3 := congrArg (fun l => l.getLastD 0) h2
  simp only [Fx.getLastD_toFl] at h3
  rw [← h3]
  rfl

/-- A call with the sample `2^-126` and zeros. -/
def minCall (n m : ℕ) : Call F32 :=
  { st := { block16 := 5, tmpAddr := 4, tmp2Addr := 8, junk := fun _ => 0 },
    input := { addr := 4, len := n + 2, get := fun i => if i = 0 then Fl.fin (2 ^ (-126 : ℤ)) else 0 }, n := n,
    output := { addr := 100, len := m, get := fun _ => 0 } }

private theorem fed_minCall (Z m : ℕ) : fed [Op.process (minCall (Z + 1) m)] = Fl.fin (2 ^ (-126 : ℤ)) :: List.replicate Z 0 := by
  show (minCall (Z + 1) m).samples = _
  unfold Call.samples minCall
  simp only [List.range_succ_eq_map, List.map_cons, List.map_map]
  refine congrArg₂ _ rfl ?_
  rw [List.eq_replicate_iff]
  simp

/-- Real sessions: 24 bits, by 8, with SSE. -/
example : ∃ q, (cfg .up 8 24 true .iir).session [Op.process (minCall (999 + 1) 8000)] = .ok q ∧ ∀ n ≤ 999, 161 < n →
      ∃ y, seq ((cfg .up 8 24 true .iir).produced [Op.process (minCall (999 + 1) 8000)] q.2) (8 * n + 7) = Fl.fin y ∧ y ≠ 0 ∧ |y| ≤ 7 * 2 ^ (-149 : ℤ) := by
  have hv : (cfg .up 8 24 true .iir).Valid := ⟨by decide, by decide, by decide⟩
  have hc : ∀ op ∈ [Op.process (minCall (999 + 1) 8000)], (cfg .up 8 24 true .iir).OpOk op := by
    intro op hop
    simp only [List.mem_cons, List.not_mem_nil, or_false] at hop
    subst hop
    exact ⟨by decide, by decide, by decide, by decide, by decide, by decide, by decide⟩
  obtain ⟨r, os, h, -⟩ := C04_output_frame _ hv _ hc
  exact ⟨_, h, fun n hn hle => C70_false_cascade_up _ hv rfl rfl (by decide) _ hc r os h 999 (fed_minCall _ _) n hle hn⟩

example : ∃ q, (cfg .down 8 24 true .iir).session [Op.process (minCall (7999 + 1) 1000)] = .ok q ∧ ∀ n < 1000, 161 < n →
      ∃ y, seq ((cfg .down 8 24 true .iir).produced [Op.process (minCall (7999 + 1) 1000)] q.2) n = Fl.fin y ∧ y ≠ 0 ∧ |y| ≤ 7 * 2 ^ (-149 : ℤ) := by
  have hv : (cfg .down 8 24 true .iir).Valid := ⟨by decide, by decide, by decide⟩
  have hc : ∀ op ∈ [Op.process (minCall (7999 + 1) 1000)], (cfg .down 8 24 true .iir).OpOk op := by
    intro op hop
    simp only [List.mem_cons, List.not_mem_nil, or_false] at hop
    subst hop
    exact ⟨by decide, by decide, by decide, by decide, by decide, by decide, by decide⟩
  obtain ⟨r, os, h, -⟩ := C04_output_frame _ hv _ hc
  have hl := Config.produced_length hv (Config.session_rel' hv hc h)
  refine ⟨_, h, fun n hn hle => C70_false_cascade_down _ hv rfl rfl (by decide) _ hc r os h 7999 (fed_minCall _ _) n hle ?_⟩
  rw [hl, fed_minCall, List.length_cons, List.length_replicate]
  exact hn

/-! ## Ringing -/

/-- The last number is at least `2^b`. -/
private def loudLast (b : ℕ) (l : List Fx) : Bool :=
  match l.getLastD 0 with
  | .p n => Nat.ble (Nat.shiftLeft 1 b) n
  | .m n => Nat.ble (Nat.shiftLeft 1 b) n
  | .bad => false

private theorem loudLast_spec {b : ℕ} {l : List Fx} (h : loudLast b l = true) : ∃ y, (l.getLastD 0).toFl = Fl.fin y ∧ 2 ^ ((b : ℤ) - 149) ≤ |y| := by
  unfold loudLast at h
  have key : ∀ n : ℕ, Nat.ble (Nat.shiftLeft 1 b) n = true → (2 : ℚ) ^ ((b : ℤ) - 149) ≤ n * 2 ^ (-149 : ℤ) := by
    intro n hn
    rw [Nat.ble_eq] at hn
    have hn : 1 <<< b ≤ n := hn
    rw [Nat.shiftLeft_eq, one_mul] at hn
    have h1 : (2 : ℚ) ^ b ≤ n := by exact_mod_cast hn
    rw [sub_eq_add_neg, zpow_add₀ (by norm_num), zpow_natCast]
    exact mul_le_mul_of_nonneg_right h1 (by positivity)
  split at h
  · rename_i n e
    rw [e]
    exact ⟨_, rfl, (key n h).trans (le_abs_self _)⟩
  · rename_i n e
    rw [e]
    exact ⟨_, rfl, by rw [abs_neg]; exact (key n h).trans (le_abs_self _)⟩
  · cases h

/-- Number of zeros until the cycle has been reached. -/
def ringFrom : ℕ → ℕ
  | 8 => 457
  | 12 => 229
  | 16 => 261
  | _ => 416

/-- The level of the cycle is at least `2^-ringLog`. -/
def ringLog : ℕ → ℕ
  | 16 => 49
  | _ => 29

/-- Ratio and precision of downsampling filters with an odd number of coefficients in one of the stages. Not all: missing are 24 bits by 4 and 8,
and 20 bits by 8. -/
def ringCases : List (ℕ × ℕ) := [(2, 8), (2, 12), (2, 24), (4, 8), (4, 12), (4, 16), (8, 8), (8, 12), (8, 16)]

private def ringUpCert (r p : ℕ) : Bool :=
  match (upKs r).map (stageBranches p true) with
  | Ms => cycleCert (upRuns Ms) [1] [0] (atStart Ms) (ringFrom p) (loudLast (149 - ringLog p))

private def ringDownCert (r p : ℕ) : Bool :=
  match (downKs r).map (stageBranches p true) with
  | Ms => cycleCert (downRuns fxHalf Ms) (1 :: List.replicate (r - 1) 0) (List.replicate (r - 1 + 1) 0) (atStart Ms) (ringFrom p)
      (loudLast (149 - ringLog p))

set_option maxRecDepth 100000 in
private theorem ringUpCerts : ∀ r ∈ [4, 8], ringUpCert r 8 = true := by decide +kernel

set_option maxRecDepth 100000 in
private theorem ringDownCerts : ∀ c ∈ ringCases, ringDownCert c.1 c.2 = true := by decide +kernel

private theorem ringLog_eq (p : ℕ) : (((149 - ringLog p : ℕ) : ℤ) - 149) = -(ringLog p : ℤ) := by
  unfold ringLog
  split <;> rfl

/-- **C24 is false in binary32 arithmetic with SSE**, downsampling with the `ringCases` (see `C24_false_sse_rings` for upsampling by 2).
The input is a single 1 followed by zeros, however many; all output samples up to the end are at least `2^-29` (16 bits: `2^-49`) in magnitude. -/
theorem C24_false_sse_rings_down (cfg : Config) (hv : cfg.Valid) (hf : cfg.filter = .iir) (hm : cfg.mode = .down)
    (hr : (cfg.ratio, cfg.precision) ∈ ringCases) (hsse : cfg.iirSse = true)
    (ops : List (Op F32)) (hc : ∀ op ∈ ops, cfg.OpOk op) (r : Resampler F32) (os : List (Option (Buf F32)))
    (h : cfg.session ops = .ok (r, os)) (Z : ℕ) (hx : fed ops = 1 :: List.replicate Z 0)
    (n : ℕ) (hn : ringFrom cfg.precision < n) (hnl : n < (cfg.produced ops os).length) :
    ∃ y, seq (cfg.produced ops os) n = Fl.fin y ∧ 2 ^ (-(ringLog cfg.precision : ℤ)) ≤ |y| := by
  have hp := prec hv hf
  have hrel := Config.session_rel' hv hc h
  have hks : cfg.rates = downKs cfg.ratio ∧ (∀ k ∈ downKs cfg.ratio, k ∈ [2, 4, 8]) ∧ 2 ^ (downKs cfg.ratio).length = cfg.ratio - 1 + 1 := by
    unfold Config.rates
    rw [hm]
    have hr : cfg.ratio = 2 ∨ cfg.ratio = 4 ∨ cfg.ratio = 8 := by simp [ringCases] at hr; omega
    rcases hr with e | e | e <;> rw [e] <;> exact ⟨rfl, by decide, rfl⟩
  obtain ⟨k1, k2, k3⟩ := hks
  rw [Config.stages_eq_iirTabs hv hf, k1, hm, hsse] at hrel
  obtain ⟨l1, l2⟩ := hrel.downSeqs hp k2
  have hcert := cycleCert_all (ringDownCerts _ hr)
  obtain ⟨m, rfl⟩ : ∃ m, n = m + 1 := ⟨n - 1, by omega⟩
  have h1 := hcert m (by simpa using Nat.lt_succ_iff.1 hn)
  obtain ⟨y, e, y1⟩ := loudLast_spec h1
  rw [ringLog_eq] at y1
  refine ⟨y, ?_, y1⟩
  rw [l2 _ hnl, ← e]
  have h2 := downSeqs_impulse fxHalf_eq ((downKs cfg.ratio).map (stageBranches cfg.precision true)) (a := 1) (x := seq (fed ops))
    (by rw [hx, Fx.toFl_one]; rfl) (fun n => by rw [hx]; exact seq_impulse _ _ _) (by rw [List.length_map, k3]) m
  rw [List.map_map] at h2
  have h3 := congrArg (fun l => l.getLastD 0) h2
  simp only [Fx.getLastD_toFl] at h3
  rw [← h3]
  rfl

/-- The same for upsampling by 4 and by 8 with 8 bits: the last output sample for each zero is at least `2^-29` in magnitude. -/
theorem C24_false_sse_rings_up (cfg : Config) (hv : cfg.Valid) (hf : cfg.filter = .iir) (hm : cfg.mode = .up) (hr : cfg.ratio ∈ [4, 8])
    (hp8 : cfg.precision = 8) (hsse : cfg.iirSse = true) (ops : List (Op F32)) (hc : ∀ op ∈ ops, cfg.OpOk op) (r : Resampler F32)
    (os : List (Option (Buf F32))) (h : cfg.session ops = .ok (r, os)) (Z : ℕ) (hx : fed ops = 1 :: List.replicate Z 0)
    (n : ℕ) (hn : 457 < n) (hnZ : n ≤ Z) :
    ∃ y, seq (cfg.produced ops os) (cfg.ratio * n + (cfg.ratio - 1)) = Fl.fin y ∧ 2 ^ (-29 : ℤ) ≤ |y| := by
  have hp := prec hv hf
  have hrel := Config.session_rel' hv hc h
  have hks : cfg.rates = upKs cfg.ratio ∧ (∀ k ∈ upKs cfg.ratio, k ∈ [2, 4, 8]) ∧ 2 ^ (upKs cfg.ratio).length = cfg.ratio - 1 + 1 := by
    unfold Config.rates
    rw [hm]
    simp at hr
    rcases hr with e | e <;> rw [e] <;> exact ⟨rfl, by decide, rfl⟩
  obtain ⟨k1, k2, k3⟩ := hks
  rw [Config.stages_eq_iirTabs hv hf, k1, hm, hsse, hp8] at hrel
  obtain ⟨l1, l2⟩ := hrel.upSeqs (by decide) k2
  have hcert := cycleCert_all (ringUpCerts _ hr)
  obtain ⟨m, rfl⟩ : ∃ m, n = m + 1 := ⟨n - 1, by omega⟩
  have h1 := hcert m (by show 457 ≤ m; omega)
  obtain ⟨y, e, y1⟩ := loudLast_spec h1
  rw [ringLog_eq] at y1
  refine ⟨y, ?_, y1⟩
  have h4 : cfg.ratio - 1 + 1 = cfg.ratio := by simp at hr; omega
  have hlen : cfg.ratio * (m + 1) + (cfg.ratio - 1) < (cfg.produced ops os).length := by
    rw [l1, hx, List.length_cons, List.length_replicate, k3, h4]
    have h4 : cfg.ratio * (m + 2) ≤ cfg.ratio * (Z + 1) := Nat.mul_le_mul_left _ (by omega)
    have h5 : cfg.ratio * (m + 2) = cfg.ratio * (m + 1) + cfg.ratio := by ring
    omega
  rw [l2 _ hlen, ← e]
  have h2 := upSeqs_impulse ((upKs cfg.ratio).map (stageBranches 8 true)) (a := 1) (x := seq (fed ops))
    (by rw [hx, Fx.toFl_one]; rfl) (fun n => by rw [hx]; exact seq_impulse _ _ _) m
  rw [List.length_map, k3, List.map_map] at h2
  have h3 := congrArg (fun l => l.getLastD 0) h2
  simp only [slice_last, Fx.getLastD_toFl] at h3
  rw [← h3, h4]
  rfl

/-- A call with a one and zeros. -/
def unitImpCall (n m : ℕ) : Call F32 :=
  { st := { block16 := 5, tmpAddr := 4, tmp2Addr := 8, junk := fun _ => 0 },
    input := { addr := 4, len := n + 2, get := fun i => if i = 0 then 1 else 0 }, n := n,
    output := { addr := 100, len := m, get := fun _ => 0 } }

private theorem fed_unitImpCall (Z m : ℕ) : fed [Op.process (unitImpCall (Z + 1) m)] = 1 :: List.replicate Z 0 := by
  show (unitImpCall (Z + 1) m).samples = _
  unfold Call.samples unitImpCall
  simp only [List.range_succ_eq_map, List.map_cons, List.map_map]
  refine congrArg₂ _ rfl ?_
  rw [List.eq_replicate_iff]
  simp

example : ∃ q, (cfg .up 8 8 true .iir).session [Op.process (unitImpCall (999 + 1) 8000)] = .ok q ∧ ∀ n ≤ 999, 457 < n →
      ∃ y, seq ((cfg .up 8 8 true .iir).produced [Op.process (unitImpCall (999 + 1) 8000)] q.2) (8 * n + 7) = Fl.fin y ∧ 2 ^ (-29 : ℤ) ≤ |y| := by
  have hv : (cfg .up 8 8 true .iir).Valid := ⟨by decide, by decide, by decide⟩
  have hc : ∀ op ∈ [Op.process (unitImpCall (999 + 1) 8000)], (cfg .up 8 8 true .iir).OpOk op := by
    intro op hop
    simp only [List.mem_cons, List.not_mem_nil, or_false] at hop
    subst hop
    exact ⟨by decide, by decide, by decide, by decide, by decide, by decide, by decide⟩
  obtain ⟨r, os, h, -⟩ := C04_output_frame _ hv _ hc
  exact ⟨_, h, fun n hn hle => C24_false_sse_rings_up _ hv rfl rfl (by decide) rfl (by decide) _ hc r os h 999 (fed_unitImpCall _ _) n hle hn⟩

example : ∃ q, (cfg .down 8 16 true .iir).session [Op.process (unitImpCall (7999 + 1) 1000)] = .ok q ∧ ∀ n < 1000, 261 < n →
      ∃ y, seq ((cfg .down 8 16 true .iir).produced [Op.process (unitImpCall (7999 + 1) 1000)] q.2) n = Fl.fin y ∧ 2 ^ (-49 : ℤ) ≤ |y| := by
  have hv : (cfg .down 8 16 true .iir).Valid := ⟨by decide, by decide, by decide⟩
  have hc : ∀ op ∈ [Op.process (unitImpCall (7999 + 1) 1000)], (cfg .down 8 16 true .iir).OpOk op := by
    intro op hop
    simp only [List.mem_cons, List.not_mem_nil, or_false] at hop
    subst hop
    exact ⟨by decide, by decide, by decide, by decide, by decide, by decide, by decide⟩
  obtain ⟨r, os, h, -⟩ := C04_output_frame _ hv _ hc
  have hl := Config.produced_length hv (Config.session_rel' hv hc h)
  refine ⟨_, h, fun n hn hle => C24_false_sse_rings_down _ hv rfl rfl (by decide) (by decide) _ hc r os h 7999 (fed_unitImpCall _ _) n hle ?_⟩
  rw [hl, fed_unitImpCall, List.length_cons, List.length_replicate]
  exact hn

end Panda
