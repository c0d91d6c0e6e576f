import Verif.Model.Fir
import Verif.Spec.Fir
import Verif.Proofs.Hoare

/-!
# Correctness of the FIR dot product routines
-/

namespace Panda

variable {F : Type} [Zero F] [Add F] [Mul F]

theorem firScalar_congr {x y t s : Nat → F} {n : Nat} (h : ∀ i < n, x i = y i) (ht : ∀ i < n, t i = s i) :
    firScalar x t n = firScalar y s n := by
  induction n with
  | zero => rfl
  | succ n ih =>
    simp only [firScalar]
    rw [ih (fun i hi => h i (by omega)) (fun i hi => ht i (by omega)), h n (by omega), ht n (by omega)]

theorem firLane_congr {x y t : Nat → F} {O k r n : Nat} (h : ∀ i < 4 * (n + 1), x i = y i) (hr : r < 4) :
    firLane x t O k r n = firLane y t O k r n := by
  induction n with
  | zero => simp only [firLane]; rw [h r (by omega)]
  | succ n ih =>
    simp only [firLane]
    rw [ih (fun i hi => h i (by omega)), h (4 * (n + 1) + r) (by omega)]

theorem firVector_congr {x y t : Nat → F} {O k : Nat} (h : ∀ i < 4 * ((O + 6) / 4), x i = y i) :
    firVector x t O k = firVector y t O k := by
  have h' : ∀ i < 4 * ((O + 6) / 4 - 1 + 1), x i = y i := fun i hi => h i (by omega)
  simp only [firVector]
  rw [firLane_congr h' (by omega), firLane_congr h' (r := 1) (by omega), firLane_congr h' (r := 2) (by omega),
    firLane_congr h' (r := 3) (by omega)]

/-- `fir_process_one_sample` is safe and evaluates the dot product term by term. -/
theorem firProcessOneSample_eq {input taps : Buf F} {off order : Nat} (hi : off + order ≤ input.len)
    (ht : order ≤ taps.len) :
    firProcessOneSample input off taps order = .ok (firScalar (fun i => input.get (off + i)) taps.get order) := by
  have h := sat_forN (σ := F) (body := fun i out => do
      let x ← input.rd (off + i)
      let t ← taps.rd i
      pure (out + x * t)) (n := order) (s := 0)
      (fun i out => out = firScalar (fun i => input.get (off + i)) taps.get i) rfl (by
        intro i hio s hs
        rw [Buf.rd_eq (by omega), Buf.rd_eq (by omega)]
        exact sat_ok (by rw [hs]; rfl))
  obtain ⟨a, ha, h⟩ := h
  rw [firProcessOneSample, ha, h]

/-- The table `fir_compute_sse_taps` should compute: row `j` of the 4-vector for `input[i]`
holds the taps delayed by `j`. -/
def SseTapsOk (O : Nat) (t : Nat → F) (s : Buf F) : Prop :=
  s.len = (O + 6) / 4 * 16 ∧
  ∀ i < (O + 6) / 4, ∀ j < 4, ∀ r < 4, s.get (16 * i + 4 * j + r) = delayedTap t O j (4 * i + r)

omit [Add F] [Mul F] in
theorem firComputeSseTaps_sat (addr : Nat) (taps : Buf F) :
    Sat (firComputeSseTaps addr taps) (fun s => s.addr = addr ∧ SseTapsOk taps.len taps.get s) := by
  unfold firComputeSseTaps
  -- invariant: `done i j` of rows; entry (q, j, r) is final if j < j', else still zero
  let I : Nat → Nat → Buf F → Prop := fun j' i' s =>
    s.addr = addr ∧ s.len = (taps.len + 6) / 4 * 16 ∧
    ∀ q < (taps.len + 6) / 4, ∀ j < 4, ∀ r < 4, s.get (16 * q + 4 * j + r) =
      if j < j' ∨ (j = j' ∧ 4 * q + r < i' + j) then delayedTap taps.get taps.len j (4 * q + r) else 0
  have houter := sat_forN (σ := Buf F) (n := 4)
    (body := fun j s => forN (fun i s => do
      let k := i + j
      let t ← taps.rd i
      s.wr ((k / 4) * 16 + (k % 4) + j * 4) t) taps.len s)
    (s := { addr := addr, len := (taps.len + 6) / 4 * 16, get := fun _ => 0 })
    (fun j s => I j 0 s)
    (by
      refine ⟨rfl, rfl, ?_⟩
      intro q hq j hj r hr
      by_cases h : j < 0 ∨ (j = 0 ∧ 4 * q + r < 0 + j)
      · omega
      · rw [if_neg h])
    (by
      intro j hj s hs
      have hinner := sat_forN (σ := Buf F) (n := taps.len) (s := s)
        (body := fun i s => do
          let k := i + j
          let t ← taps.rd i
          s.wr ((k / 4) * 16 + (k % 4) + j * 4) t)
        (fun i s => I j i s)
        hs
        (by
          intro i hi s ⟨ha, hl, hg⟩
          simp only
          have hlen : (i + j) / 4 * 16 + (i + j) % 4 + j * 4 < s.len := by omega
          rw [Buf.rd_eq hi, ok_bind, Buf.wr_eq _ hlen]
          refine sat_ok ⟨ha, hl, ?_⟩
          intro q hq j2 hj2 r hr
          rw [Buf.upd_get]
          by_cases heq : 16 * q + 4 * j2 + r = (i + j) / 4 * 16 + (i + j) % 4 + j * 4
          · rw [if_pos heq]
            have h1 : j2 = j := by omega
            have h2 : 4 * q + r = i + j := by omega
            subst h1
            rw [if_pos (Or.inr ⟨rfl, by omega⟩)]
            unfold delayedTap
            rw [if_pos ⟨by omega, by omega⟩]
            congr 1
            omega
          · rw [if_neg heq, hg q hq j2 hj2 r hr]
            by_cases hc : j2 < j ∨ (j2 = j ∧ 4 * q + r < i + j2)
            · rw [if_pos hc, if_pos (by omega)]
            · rw [if_neg hc, if_neg]
              intro hc'
              have : j2 = j ∧ 4 * q + r = i + j := by omega
              obtain ⟨rfl, h4⟩ := this
              apply heq
              omega)
      refine sat_mono hinner ?_
      rintro s ⟨ha, hl, hg⟩
      refine ⟨ha, hl, ?_⟩
      intro q hq j2 hj2 r hr
      rw [hg q hq j2 hj2 r hr]
      by_cases h1 : j2 < j
      · rw [if_pos (Or.inl h1), if_pos (by omega)]
      · by_cases h2 : j2 = j
        · subst h2
          rw [if_pos (Or.inl (Nat.lt_succ_self _))]
          by_cases h3 : 4 * q + r < taps.len + j2
          · rw [if_pos (Or.inr ⟨rfl, h3⟩)]
          · rw [if_neg (by omega)]
            unfold delayedTap
            rw [if_neg (by omega)]
        · rw [if_neg (by omega)]
          by_cases h3 : j2 = j + 1
          · subst h3
            by_cases h4 : j + 1 < j + 1 ∨ (j + 1 = j + 1 ∧ 4 * q + r < 0 + (j + 1))
            · rw [if_pos h4]
              unfold delayedTap
              rw [if_neg (by omega)]
            · rw [if_neg h4]
          · rw [if_neg (by omega)])
  refine sat_mono houter ?_
  rintro s ⟨ha, hl, hg⟩
  refine ⟨ha, hl, ?_⟩
  intro q hq j hj r hr
  rw [hg q hq j hj r hr, if_pos (Or.inl hj)]

/-- Accumulator `k` of `fir_process_4samples_sse` holds the four lanes. -/
theorem firSseAcc_eq {input sse : Buf F} {off O k : Nat} {t : Nat → F} (hs : SseTapsOk O t sse)
    (hsa : sse.addr % 16 = 0) (hia : (input.addr + 4 * off) % 16 = 0)
    (hi : off + 4 * ((O + 6) / 4) ≤ input.len) (hk : k < 4) :
    firSseAcc input off sse O k = .ok
      ⟨firLane (fun i => input.get (off + i)) t O k 0 ((O + 6) / 4 - 1),
       firLane (fun i => input.get (off + i)) t O k 1 ((O + 6) / 4 - 1),
       firLane (fun i => input.get (off + i)) t O k 2 ((O + 6) / 4 - 1),
       firLane (fun i => input.get (off + i)) t O k 3 ((O + 6) / 4 - 1)⟩ := by
  obtain ⟨hl, hg⟩ := hs
  have hM : 1 ≤ (O + 6) / 4 := by omega
  unfold firSseAcc
  rw [Buf.ld4a_eq hia (by omega), ok_bind, Buf.ld4a_eq (by omega) (by omega), ok_bind]
  have h := sat_forN (σ := V4 F) (n := (O + 6) / 4 - 1)
    (s := V4.mul ⟨input.get off, input.get (off + 1), input.get (off + 2), input.get (off + 3)⟩
            ⟨sse.get (4 * k), sse.get (4 * k + 1), sse.get (4 * k + 2), sse.get (4 * k + 3)⟩)
    (body := fun j acc => do
      let i := j + 1
      let a ← input.ld4a (off + 4 * i)
      let t ← sse.ld4a (4 * (i * 4 + k))
      pure (acc.add (a.mul t)))
    (fun j acc => acc = ⟨firLane (fun i => input.get (off + i)) t O k 0 j,
       firLane (fun i => input.get (off + i)) t O k 1 j,
       firLane (fun i => input.get (off + i)) t O k 2 j,
       firLane (fun i => input.get (off + i)) t O k 3 j⟩)
    (by
      have h0 := hg 0 hM k hk
      have e0 := h0 0 (by omega)
      have e1 := h0 1 (by omega)
      have e2 := h0 2 (by omega)
      have e3 := h0 3 (by omega)
      simp only [Nat.mul_zero, Nat.zero_add, Nat.add_zero] at e0 e1 e2 e3
      simp only [V4.mul, firLane, e0, e1, e2, e3, Nat.add_zero])
    (by
      intro j hj acc hacc
      simp only
      rw [Buf.ld4a_eq (by omega) (by omega), ok_bind, Buf.ld4a_eq (by omega) (by omega), ok_bind]
      refine sat_ok ?_
      have h0 := hg (j + 1) (by omega) k hk
      have e0 := h0 0 (by omega)
      have e1 := h0 1 (by omega)
      have e2 := h0 2 (by omega)
      have e3 := h0 3 (by omega)
      have hidx : 4 * ((j + 1) * 4 + k) = 16 * (j + 1) + 4 * k := by omega
      subst hacc
      rw [hidx]
      simp only [Nat.add_zero] at e0
      simp only [V4.mul, V4.add, firLane, e0, e1, e2, e3, Nat.add_zero]
      simp only [Nat.add_assoc])
  obtain ⟨a, ha, h⟩ := h
  rw [ha, h]

/-- `fir_process_4samples_sse` is safe and computes the four dot products, vectorised. -/
theorem firProcess4SamplesSse_eq {input sse : Buf F} {off O : Nat} {t : Nat → F} (hs : SseTapsOk O t sse)
    (hsa : sse.addr % 16 = 0) (hia : (input.addr + 4 * off) % 16 = 0)
    (hi : off + 4 * ((O + 6) / 4) ≤ input.len) :
    firProcess4SamplesSse input off sse O = .ok
      ⟨firVector (fun i => input.get (off + i)) t O 0, firVector (fun i => input.get (off + i)) t O 1,
       firVector (fun i => input.get (off + i)) t O 2, firVector (fun i => input.get (off + i)) t O 3⟩ := by
  unfold firProcess4SamplesSse
  rw [firSseAcc_eq hs hsa hia hi (by omega), ok_bind, firSseAcc_eq hs hsa hia hi (by omega), ok_bind,
    firSseAcc_eq hs hsa hia hi (by omega), ok_bind, firSseAcc_eq hs hsa hia hi (by omega), ok_bind]
  rfl

end Panda
