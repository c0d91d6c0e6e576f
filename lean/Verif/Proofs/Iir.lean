import Verif.Model.Iir
import Verif.Spec.Iir
import Verif.Proofs.Hoare

/-!
# Correctness of the IIR filters (per call)
-/

namespace Panda

variable {F : Type} [Zero F] [One F] [Add F] [Sub F] [Mul F] [Sample F]

omit [One F] [Sample F] in
theorem allpass_eq (a : F) (x : Nat → F) (n : Nat) :
    allpass a x n = (x n - prev (allpass a x) n) * a + prev x n := by
  cases n <;> rfl

omit [One F] [Sample F] in
theorem branch_succ (c : Nat → F) (b : Nat) (x : Nat → F) (j n : Nat) :
    branch c b x (j + 1) n =
      (branch c b x j n - prev (branch c b x (j + 1)) n) * c (2 * j + b) + prev (branch c b x j) n := by
  rw [branch, allpass_eq]

omit [One F] [Sample F] in
theorem allpass_congr {a : F} {x y : Nat → F} {n : Nat} (h : ∀ i ≤ n, x i = y i) : allpass a x n = allpass a y n := by
  induction n with
  | zero => simp only [allpass]; rw [h 0 (by omega)]
  | succ n ih => simp only [allpass]; rw [ih fun i hi => h i (by omega), h (n + 1) (by omega), h n (by omega)]

omit [One F] [Sample F] in
theorem branch_congr {c : Nat → F} {b : Nat} {x y : Nat → F} {j n : Nat} (h : ∀ i ≤ n, x i = y i) :
    branch c b x j n = branch c b y j n := by
  induction j generalizing n with
  | zero => exact h n (by omega)
  | succ j ih => exact allpass_congr fun i hi => ih fun k hk => h k (by omega)

/-- Induction in steps of two. -/
theorem twoStep {P : Nat → Prop} (zero : P 0) (one : P 1) (more : ∀ n, P n → P (n + 2)) (n : Nat) : P n := by
  have : P n ∧ P (n + 1) := by
    induction n with
    | zero => exact ⟨zero, one⟩
    | succ n ih => exact ⟨ih.2, more n ih.1⟩
  exact this.1

/-! ## FPU version -/

/-- Coefficients and sizes as established by the constructor. -/
structure FpuFilter.Wf (f : FpuFilter F) (nc : Nat) (c : Nat → F) : Prop where
  nc_eq : f.nbrCoefs = nc
  nc_pos : 0 < nc
  coef_len : f.coef.len = nc + 2
  mem_len : f.mem.len = nc + 2
  coef_eq : ∀ i < nc, f.coef.get (i + 2) = c i
  mem_out : ∀ i, nc + 2 ≤ i → f.mem.get i = 0

/-- The memories hold, for every node of the two chains, its last value (before time `n`). -/
def FpuMem (nc : Nat) (c : Nat → F) (x0 x1 : Nat → F) (n : Nat) (mem : Buf F) : Prop :=
  ∀ j, (2 * j < nc + 2 → mem.get (2 * j) = prev (branch c 0 x0 j) n) ∧
    (2 * j + 1 < nc + 2 → mem.get (2 * j + 1) = prev (branch c 1 x1 j) n)

omit [One F] [Sample F] in
theorem stageProcFpuPos_sat {nc : Nat} {coef mem : Buf F} {c x0 x1 : Nat → F} {n rem j : Nat} {s0 s1 : F}
    (hcl : coef.len = nc + 2) (hml : mem.len = nc + 2) (hc : ∀ i < nc, coef.get (i + 2) = c i)
    (hrem : rem + 2 * j = nc)
    (hnew : ∀ i < j, mem.get (2 * i) = branch c 0 x0 i n ∧ mem.get (2 * i + 1) = branch c 1 x1 i n)
    (hold : ∀ i, j ≤ i → (2 * i < nc + 2 → mem.get (2 * i) = prev (branch c 0 x0 i) n) ∧
      (2 * i + 1 < nc + 2 → mem.get (2 * i + 1) = prev (branch c 1 x1 i) n))
    (h0 : s0 = branch c 0 x0 j n) (h1 : s1 = branch c 1 x1 j n) :
    Sat (stageProcFpuPos nc coef rem s0 s1 mem) (fun r =>
      r.1 = branchOut nc c 0 x0 n ∧ r.2.1 = branchOut nc c 1 x1 n ∧ r.2.2.len = mem.len ∧ r.2.2.addr = mem.addr ∧
      FpuMem nc c x0 x1 (n + 1) r.2.2 ∧ ∀ i, nc + 2 ≤ i → r.2.2.get i = mem.get i) := by
  induction rem using twoStep generalizing j s0 s1 mem with
  | zero =>
    have hnc : nc = 2 * j := by omega
    unfold stageProcFpuPos
    simp only
    rw [Buf.wr_eq _ (by omega), ok_bind, Buf.wr_eq _ (by simp only [Buf.upd_len]; omega), ok_bind]
    refine sat_ok ⟨?_, ?_, rfl, rfl, ?_, ?_⟩
    · simp only [branchOut, branchLen, h0]
      congr 2
      omega
    · simp only [branchOut, branchLen, h1]
      congr 2
      omega
    · intro i
      refine ⟨fun hi => ?_, fun hi => ?_⟩
      · simp only [Buf.upd_get]
        rw [if_neg (by omega)]
        by_cases hij : i = j
        · rw [if_pos (by omega), h0, hij]
          rfl
        · rw [if_neg (by omega)]
          exact (hnew i (by omega)).1
      · simp only [Buf.upd_get]
        by_cases hij : i = j
        · rw [if_pos (by omega), h1, hij]
          rfl
        · rw [if_neg (by omega), if_neg (by omega)]
          exact (hnew i (by omega)).2
    · intro i hi
      simp only [Buf.upd_get]
      rw [if_neg (by omega), if_neg (by omega)]
  | one =>
    have hnc : nc = 2 * j + 1 := by omega
    unfold stageProcFpuPos
    simp only
    have e1 : nc + 2 - 1 = 2 * (j + 1) := by omega
    have e2 : 2 * (j + 1) - 2 = 2 * j := by omega
    have e3 : 2 * (j + 1) - 1 = 2 * j + 1 := by omega
    rw [e1, e2, e3, Buf.rd_eq (by omega), ok_bind, Buf.rd_eq (by omega), ok_bind, Buf.rd_eq (by omega), ok_bind,
      Buf.wr_eq _ (by omega), ok_bind, Buf.wr_eq _ (by simp only [Buf.upd_len]; omega), ok_bind,
      Buf.wr_eq _ (by simp only [Buf.upd_len]; omega), ok_bind]
    have hy : (s0 - mem.get (2 * (j + 1))) * coef.get (2 * (j + 1)) + mem.get (2 * j) = branch c 0 x0 (j + 1) n := by
      rw [branch_succ, (hold (j + 1) (by omega)).1 (by omega), (hold j (by omega)).1 (by omega), h0,
        show 2 * (j + 1) = 2 * j + 2 by omega, hc (2 * j) (by omega)]
      rfl
    rw [hy]
    refine sat_ok ⟨?_, ?_, rfl, rfl, ?_, ?_⟩
    · simp only [branchOut, branchLen]
      congr 2
      omega
    · simp only [branchOut, branchLen, h1]
      congr 2
      omega
    · intro i
      refine ⟨fun hi => ?_, fun hi => ?_⟩
      · simp only [Buf.upd_get]
        by_cases hi1 : i = j + 1
        · rw [if_pos (by omega), hi1]
          rfl
        · rw [if_neg (by omega), if_neg (by omega)]
          by_cases hij : i = j
          · rw [if_pos (by omega), h0, hij]
            rfl
          · rw [if_neg (by omega)]
            exact (hnew i (by omega)).1
      · simp only [Buf.upd_get]
        rw [if_neg (by omega)]
        by_cases hij : i = j
        · rw [if_pos (by omega), h1, hij]
          rfl
        · rw [if_neg (by omega), if_neg (by omega)]
          exact (hnew i (by omega)).2
    · intro i hi
      simp only [Buf.upd_get]
      rw [if_neg (by omega), if_neg (by omega), if_neg (by omega)]
  | more rem ih =>
    unfold stageProcFpuPos
    simp only
    have e1 : nc + 2 - (rem + 2) = 2 * (j + 1) := by omega
    have e2 : 2 * (j + 1) - 2 = 2 * j := by omega
    have e3 : 2 * (j + 1) - 1 = 2 * j + 1 := by omega
    rw [e1, e2, e3, Buf.rd_eq (by omega), ok_bind, Buf.rd_eq (by omega), ok_bind, Buf.rd_eq (by omega), ok_bind,
      Buf.rd_eq (by omega), ok_bind, Buf.rd_eq (by omega), ok_bind, Buf.rd_eq (by omega), ok_bind,
      Buf.wr_eq _ (by omega), ok_bind, Buf.wr_eq _ (by simp only [Buf.upd_len]; omega), ok_bind]
    have hy0 : (s0 - mem.get (2 * (j + 1))) * coef.get (2 * (j + 1)) + mem.get (2 * j) = branch c 0 x0 (j + 1) n := by
      rw [branch_succ, (hold (j + 1) (by omega)).1 (by omega), (hold j (by omega)).1 (by omega), h0,
        show 2 * (j + 1) = 2 * j + 2 by omega, hc (2 * j) (by omega)]
      rfl
    have hy1 : (s1 - mem.get (2 * (j + 1) + 1)) * coef.get (2 * (j + 1) + 1) + mem.get (2 * j + 1) =
        branch c 1 x1 (j + 1) n := by
      rw [branch_succ, (hold (j + 1) (by omega)).2 (by omega), (hold j (by omega)).2 (by omega), h1,
        show 2 * (j + 1) + 1 = 2 * j + 1 + 2 by omega, hc (2 * j + 1) (by omega)]
    rw [hy0, hy1]
    refine sat_mono (ih (mem := (mem.upd (2 * j) s0).upd (2 * j + 1) s1) (by simp only [Buf.upd_len]; omega)
      (j := j + 1) (by omega) ?_ ?_ rfl rfl) ?_
    · intro i hi
      simp only [Buf.upd_get]
      by_cases hij : i = j
      · subst hij
        rw [if_neg (by omega), if_pos rfl, if_pos rfl, h0, h1]
        exact ⟨rfl, rfl⟩
      · rw [if_neg (by omega), if_neg (by omega), if_neg (by omega), if_neg (by omega)]
        exact hnew i (by omega)
    · intro i hi
      simp only [Buf.upd_get]
      rw [if_neg (by omega), if_neg (by omega), if_neg (by omega), if_neg (by omega)]
      exact hold i (by omega)
    · rintro ⟨a, b, m⟩ ⟨ha, hb, hl, had, hm, hfr⟩
      refine ⟨ha, hb, hl, had, hm, fun i hi => ?_⟩
      rw [hfr i hi]
      simp only [Buf.upd_get]
      rw [if_neg (by omega), if_neg (by omega)]

omit [One F] [Sample F] in
/-- The whole template recursion: one sample through both branches. -/
theorem stageProcFpuPos_full {f : FpuFilter F} {nc : Nat} {c x0 x1 : Nat → F} {n : Nat} {s0 s1 : F} (hf : f.Wf nc c)
    (hm : FpuMem nc c x0 x1 n f.mem) (h0 : s0 = x0 n) (h1 : s1 = x1 n) :
    Sat (stageProcFpuPos f.nbrCoefs f.coef f.nbrCoefs s0 s1 f.mem) (fun r =>
      r.1 = branchOut nc c 0 x0 n ∧ r.2.1 = branchOut nc c 1 x1 n ∧ r.2.2.len = f.mem.len ∧ r.2.2.addr = f.mem.addr ∧
      FpuMem nc c x0 x1 (n + 1) r.2.2 ∧ ∀ i, nc + 2 ≤ i → r.2.2.get i = f.mem.get i) := by
  rw [hf.nc_eq]
  exact stageProcFpuPos_sat (j := 0) hf.coef_len hf.mem_len hf.coef_eq (by omega) (by intro i hi; omega)
    (fun i _ => hm i) h0 h1

omit [One F] [Sample F] in
theorem FpuFilter.new_sat {cs : Buf F} (h : 0 < cs.len) :
    Sat (FpuFilter.new cs) (fun f => f.Wf cs.len cs.get ∧ (∀ i, f.mem.get i = 0) ∧
      ∀ c x0 x1, FpuMem cs.len c x0 x1 0 f.mem) := by
  unfold FpuFilter.new
  simp only
  refine sat_bind (sat_forN (fun n (b : Buf F) => b.len = cs.len + 2 ∧ ∀ i < n, b.get (i + 2) = cs.get i)
    ⟨rfl, by intro i hi; omega⟩ ?_) ?_
  · rintro i hi b ⟨hl, hg⟩
    rw [Buf.rd_eq hi, ok_bind, Buf.wr_eq _ (by omega)]
    refine sat_ok ⟨hl, ?_⟩
    intro k hk
    rw [Buf.upd_get]
    by_cases hki : k = i
    · rw [if_pos (by omega), hki]
    · rw [if_neg (by omega)]
      exact hg k (by omega)
  · rintro b ⟨hl, hg⟩
    refine sat_ok ⟨⟨rfl, h, hl, rfl, hg, fun _ _ => rfl⟩, fun _ => rfl, ?_⟩
    intro c x0 x1 j
    exact ⟨fun _ => rfl, fun _ => rfl⟩

omit [One F] [Sample F] in
theorem FpuFilter.clearBuffers_sat {f : FpuFilter F} {nc : Nat} {c : Nat → F} (hf : f.Wf nc c) :
    Sat f.clearBuffers (fun f' => f'.Wf nc c ∧ f' = { f with mem := { f.mem with get := fun _ => 0 } } ∧
      ∀ c x0 x1, FpuMem nc c x0 x1 0 f'.mem) := by
  have hn := hf.nc_eq
  have hl := hf.mem_len
  unfold FpuFilter.clearBuffers
  refine sat_bind (sat_forN (fun n (b : Buf F) => b.len = nc + 2 ∧ b.addr = f.mem.addr ∧ (∀ i < n, b.get i = 0) ∧
      ∀ i, nc + 2 ≤ i → b.get i = 0)
    ⟨hl, rfl, by intro i hi; omega, hf.mem_out⟩ ?_) ?_
  · rintro i hi b ⟨hl, ha, hg, ho⟩
    rw [Buf.wr_eq _ (by omega)]
    refine sat_ok ⟨hl, ha, ?_, ?_⟩
    · intro k hk
      rw [Buf.upd_get]
      by_cases hki : k = i
      · rw [if_pos (by omega)]
      · rw [if_neg (by omega)]
        exact hg k (by omega)
    · intro k hk
      rw [Buf.upd_get_ne _ _ _ (by omega)]
      exact ho k hk
  · rintro b ⟨hl, ha, hg, ho⟩
    have hz : b = { f.mem with get := fun _ => 0 } := by
      obtain ⟨ba, bl, bg⟩ := b
      simp only at hl ha hg ho
      rw [Buf.mk.injEq]
      refine ⟨ha, by rw [hl, hf.mem_len], funext fun i => ?_⟩
      rcases Nat.lt_or_ge i (nc + 2) with h | h
      · exact hg i (by omega)
      · exact ho i h
    subst hz
    refine sat_ok ⟨⟨hn, hf.nc_pos, hf.coef_len, hl, hf.coef_eq, ho⟩, rfl, ?_⟩
    intro c x0 x1 j
    exact ⟨fun h => hg _ (by omega), fun h => hg _ (by omega)⟩

/-- Everything except the memory contents stays the same. -/
def FpuFilter.Same (f f' : FpuFilter F) : Prop :=
  f'.nbrCoefs = f.nbrCoefs ∧ f'.coef = f.coef ∧ f'.mem.addr = f.mem.addr

omit [One F] [Sample F] in
/-- One call of `Upsampler2xFpu::process_block` with `k > 0` samples. -/
theorem FpuFilter.upBlock_sat {bld : Build} {f : FpuFilter F} {nc : Nat} {c x : Nat → F} {n k ioff ooff : Nat}
    {input output : Buf F} (hf : f.Wf nc c) (hm : FpuMem nc c x x n f.mem) (hk : 0 < k)
    (hin : ioff + k ≤ input.len) (hx : ∀ i < k, input.get (ioff + i) = x (n + i)) (hout : ooff + 2 * k ≤ output.len) :
    Sat (f.upBlock bld input ioff k output ooff) (fun r => r.1.Wf nc c ∧ f.Same r.1 ∧
      FpuMem nc c x x (n + k) r.1.mem ∧ r.2.len = output.len ∧ r.2.addr = output.addr ∧
      (∀ i < k, r.2.get (ooff + 2 * i) = branchOut nc c 0 x (n + i) ∧
        r.2.get (ooff + 2 * i + 1) = branchOut nc c 1 x (n + i)) ∧
      ∀ j, j < ooff ∨ ooff + 2 * k ≤ j → r.2.get j = output.get j) := by
  unfold FpuFilter.upBlock Build.assert doWhileN
  rw [show (bld.ndebug || decide (k > 0)) = true by simp [hk], if_pos rfl, pure_eq_ok, ok_bind,
    show max k 1 = k by omega]
  refine sat_forN (fun m (r : FpuFilter F × Buf F) => r.1.Wf nc c ∧ f.Same r.1 ∧
      FpuMem nc c x x (n + m) r.1.mem ∧ r.2.len = output.len ∧ r.2.addr = output.addr ∧
      (∀ i < m, r.2.get (ooff + 2 * i) = branchOut nc c 0 x (n + i) ∧
        r.2.get (ooff + 2 * i + 1) = branchOut nc c 1 x (n + i)) ∧
      ∀ j, j < ooff ∨ ooff + 2 * m ≤ j → r.2.get j = output.get j)
    ⟨hf, ⟨rfl, rfl, rfl⟩, hm, rfl, rfl, by intro i hi; omega, fun _ _ => rfl⟩ ?_
  rintro m hmk ⟨g, o⟩ ⟨hw, hs, hme, hl, ha, hv, hfr⟩
  simp only at hw hs hme hl ha hv hfr ⊢
  rw [Buf.rd_eq (by omega), ok_bind, hx m hmk]
  unfold FpuFilter.upSample
  refine sat_bind (sat_bind (stageProcFpuPos_full hw hme rfl rfl) (Q := fun r => r.1 = branchOut nc c 0 x (n + m) ∧
    r.2.1 = branchOut nc c 1 x (n + m) ∧ r.2.2.Wf nc c ∧ f.Same r.2.2 ∧ FpuMem nc c x x (n + m + 1) r.2.2.mem) ?_) ?_
  · rintro ⟨a, b, mm⟩ ⟨h1, h2, h3, h4, h5, h6⟩
    exact sat_ok ⟨h1, h2, ⟨hw.nc_eq, hw.nc_pos, hw.coef_len, h3.trans hw.mem_len, hw.coef_eq,
      fun i hi => (h6 i hi).trans (hw.mem_out i hi)⟩,
      ⟨hs.1, hs.2.1, h4.trans hs.2.2⟩, h5⟩
  · rintro ⟨a, b, g'⟩ ⟨h1, h2, h3, h4, h5⟩
    simp only at h1 h2 h3 h4 h5 ⊢
    rw [Buf.wr_eq _ (by omega), ok_bind, Buf.wr_eq _ (by simp only [Buf.upd_len]; omega), ok_bind]
    refine sat_ok ⟨h3, h4, h5, hl, ha, ?_, ?_⟩
    · intro i hi
      simp only [Buf.upd_get]
      by_cases him : i = m
      · subst him
        rw [if_neg (by omega), if_pos (by omega), if_pos (by omega)]
        exact ⟨h1, h2⟩
      · rw [if_neg (by omega), if_neg (by omega), if_neg (by omega), if_neg (by omega)]
        exact hv i (by omega)
    · intro j hj
      simp only [Buf.upd_get]
      rw [if_neg (by omega), if_neg (by omega)]
      exact hfr j (by omega)

omit [One F] in
/-- One call of `Downsampler2xFpu::process_block` producing `k > 0` samples. `xe`, `xo` are the even- and
odd-indexed input samples. -/
theorem FpuFilter.downBlock_sat {bld : Build} {f : FpuFilter F} {nc : Nat} {c xe xo : Nat → F} {n k ioff ooff : Nat}
    {input output : Buf F} (hf : f.Wf nc c) (hm : FpuMem nc c xo xe n f.mem) (hk : 0 < k)
    (hin : ioff + 2 * k ≤ input.len) (hxe : ∀ i < k, input.get (ioff + 2 * i) = xe (n + i))
    (hxo : ∀ i < k, input.get (ioff + 2 * i + 1) = xo (n + i)) (hout : ooff + k ≤ output.len) :
    Sat (f.downBlock bld input ioff k output ooff) (fun r => r.1.Wf nc c ∧ f.Same r.1 ∧
      FpuMem nc c xo xe (n + k) r.1.mem ∧ r.2.len = output.len ∧ r.2.addr = output.addr ∧
      (∀ i < k, r.2.get (ooff + i) =
        Sample.half * (branchOut nc c 0 xo (n + i) + branchOut nc c 1 xe (n + i))) ∧
      ∀ j, j < ooff ∨ ooff + k ≤ j → r.2.get j = output.get j) := by
  unfold FpuFilter.downBlock Build.assert doWhileN
  rw [show (bld.ndebug || decide (k > 0)) = true by simp [hk], if_pos rfl, pure_eq_ok, ok_bind,
    show max k 1 = k by omega]
  refine sat_forN (fun m (r : FpuFilter F × Buf F) => r.1.Wf nc c ∧ f.Same r.1 ∧
      FpuMem nc c xo xe (n + m) r.1.mem ∧ r.2.len = output.len ∧ r.2.addr = output.addr ∧
      (∀ i < m, r.2.get (ooff + i) =
        Sample.half * (branchOut nc c 0 xo (n + i) + branchOut nc c 1 xe (n + i))) ∧
      ∀ j, j < ooff ∨ ooff + m ≤ j → r.2.get j = output.get j)
    ⟨hf, ⟨rfl, rfl, rfl⟩, hm, rfl, rfl, by intro i hi; omega, fun _ _ => rfl⟩ ?_
  rintro m hmk ⟨g, o⟩ ⟨hw, hs, hme, hl, ha, hv, hfr⟩
  simp only at hw hs hme hl ha hv hfr ⊢
  have e1 : ioff + (m * 2 + 1) = ioff + 2 * m + 1 := by omega
  have e2 : ioff + m * 2 = ioff + 2 * m := by omega
  rw [e1, e2, Buf.rd_eq (by omega), ok_bind, Buf.rd_eq (by omega), ok_bind, hxo m hmk, hxe m hmk]
  unfold FpuFilter.downSample
  refine sat_bind (sat_bind (stageProcFpuPos_full hw hme rfl rfl) (Q := fun r =>
    r.1 = Sample.half * (branchOut nc c 0 xo (n + m) + branchOut nc c 1 xe (n + m)) ∧
    r.2.Wf nc c ∧ f.Same r.2 ∧ FpuMem nc c xo xe (n + m + 1) r.2.mem) ?_) ?_
  · rintro ⟨a, b, mm⟩ ⟨h1, h2, h3, h4, h5, h6⟩
    simp only at h1 h2
    exact sat_ok ⟨by simp only [h1, h2], ⟨hw.nc_eq, hw.nc_pos, hw.coef_len, h3.trans hw.mem_len, hw.coef_eq,
      fun i hi => (h6 i hi).trans (hw.mem_out i hi)⟩,
      ⟨hs.1, hs.2.1, h4.trans hs.2.2⟩, h5⟩
  · rintro ⟨a, g'⟩ ⟨h1, h3, h4, h5⟩
    simp only at h1 h3 h4 h5 ⊢
    rw [Buf.wr_eq _ (by omega), ok_bind]
    refine sat_ok ⟨h3, h4, h5, hl, ha, ?_, ?_⟩
    · intro i hi
      simp only [Buf.upd_get]
      by_cases him : i = m
      · subst him
        rw [if_pos rfl]
        exact h1
      · rw [if_neg (by omega)]
        exact hv i (by omega)
    · intro j hj
      simp only [Buf.upd_get]
      rw [if_neg (by omega)]
      exact hfr j (by omega)

/-! ## SSE version -/

/-- Signal after `j` sections of a chain with coefficients `a 0, a 1, ...`. -/
def chain (a : Nat → F) (x : Nat → F) : Nat → Nat → F
  | 0 => x
  | j + 1 => allpass (a j) (chain a x j)

omit [One F] [Sample F] in
theorem chain_succ (a : Nat → F) (x : Nat → F) (j n : Nat) :
    chain a x (j + 1) n = (chain a x j n - prev (chain a x (j + 1)) n) * a j + prev (chain a x j) n := by
  rw [chain, allpass_eq]

omit [One F] [Sample F] in
theorem branch_eq_chain (c : Nat → F) (b : Nat) (x : Nat → F) (j : Nat) :
    branch c b x j = chain (fun i => c (2 * i + b)) x j := by
  induction j with
  | zero => rfl
  | succ j ih => rw [branch, chain, ih]

omit [One F] [Sample F] in
theorem chain_congr_coef {a a' : Nat → F} {x : Nat → F} {j : Nat} (h : ∀ i < j, a i = a' i) :
    chain a x j = chain a' x j := by
  induction j with
  | zero => rfl
  | succ j ih => rw [chain, chain, ih fun i hi => h i (by omega), h j (by omega)]

/-- Coefficients of lane 0 (odd-indexed ones, padded with 1) for a filter with `nc` coefficients. -/
def sseCoef0 (nc : Nat) (c : Nat → F) (j : Nat) : F := if 2 * j + 1 < nc then c (2 * j + 1) else 1

/-- Coefficients and sizes as established by the constructor. -/
structure SseFilter.Wf (f : SseFilter F) (nc : Nat) (c : Nat → F) : Prop where
  nc_eq : f.nbrCoefs = nc
  nc_pos : 0 < nc
  addr_ok : f.addr % 16 = 0
  coef_len : f.coef.len = (nc + 1) / 2 + 1
  mem_len : f.mem.len = (nc + 1) / 2 + 1
  coef0 : ∀ j < (nc + 1) / 2, (f.coef.get (j + 1)).x0 = sseCoef0 nc c j
  coef1 : ∀ j < (nc + 1) / 2, (f.coef.get (j + 1)).x1 = c (2 * j)
  mem_out : ∀ k, (nc + 1) / 2 < k → f.mem.get k = ⟨0, 0, 0, 0⟩

/-- Lanes 0 and 1 of the memories hold the last value of every node of the two chains. -/
def SseMem (nc : Nat) (a0 a1 x0 x1 : Nat → F) (n : Nat) (mem : Buf (V4 F)) : Prop :=
  ∀ k ≤ (nc + 1) / 2, (mem.get k).x0 = prev (chain a0 x0 k) n ∧ (mem.get k).x1 = prev (chain a1 x1 k) n

omit [One F] [Zero F] [Add F] [Sub F] [Mul F] [Sample F] in
theorem ldStage_eq {addr : Nat} {b : Buf (V4 F)} {i : Nat} (ha : addr % 16 = 0) (h : i < b.len) :
    ldStage addr b i = .ok (b.get i) := by
  unfold ldStage
  rw [if_pos (by omega), Buf.rd_eq h]

omit [One F] [Zero F] [Add F] [Sub F] [Mul F] [Sample F] in
theorem stStage_eq {addr : Nat} {b : Buf (V4 F)} {i : Nat} (v : V4 F) (ha : addr % 16 = 0) (h : i < b.len) :
    stStage addr b i v = .ok (b.upd i v) := by
  unfold stStage
  rw [if_pos (by omega), Buf.wr_eq _ h]

omit [One F] [Sample F] in
theorem stageProcSsePosRec_sat {addr : Nat} {coef mem : Buf (V4 F)} {M n : Nat} {a0 a1 x0 x1 : Nat → F} {x : V4 F}
    (ha : addr % 16 = 0) (hcl : coef.len = M + 1) (hml : mem.len = M + 1)
    (hc0 : ∀ j < M, (coef.get (j + 1)).x0 = a0 j) (hc1 : ∀ j < M, (coef.get (j + 1)).x1 = a1 j)
    (hm : ∀ k ≤ M, (mem.get k).x0 = prev (chain a0 x0 k) n ∧ (mem.get k).x1 = prev (chain a1 x1 k) n)
    (hx0 : x.x0 = x0 n) (hx1 : x.x1 = x1 n) {cur : Nat} (hcur : cur ≤ M) :
    Sat (stageProcSsePosRec addr coef cur x mem) (fun r =>
      r.1.x0 = chain a0 x0 cur n ∧ r.1.x1 = chain a1 x1 cur n ∧ r.2.len = mem.len ∧ r.2.addr = mem.addr ∧
      (∀ k < cur, (r.2.get k).x0 = chain a0 x0 k n ∧ (r.2.get k).x1 = chain a1 x1 k n) ∧
      ∀ k, cur ≤ k → r.2.get k = mem.get k) := by
  induction cur with
  | zero => exact sat_ok ⟨hx0, hx1, rfl, rfl, by intro k hk; omega, fun _ _ => rfl⟩
  | succ cur ih =>
    unfold stageProcSsePosRec
    refine sat_bind (ih (by omega)) ?_
    rintro ⟨y, m⟩ ⟨h0, h1, hl, had, hnew, hold⟩
    simp only at h0 h1 hl had hnew hold ⊢
    rw [ldStage_eq ha (by omega), ok_bind, stStage_eq _ ha (by omega), ok_bind,
      ldStage_eq ha (by simp only [Buf.upd_len]; omega), ok_bind, ldStage_eq ha (by omega), ok_bind]
    refine sat_ok ⟨?_, ?_, hl, had, ?_, ?_⟩
    · simp only [V4.stage]
      rw [chain_succ, Buf.upd_get_ne _ _ _ (by omega), hold cur (by omega), hold (cur + 1) (by omega),
        (hm cur (by omega)).1, (hm (cur + 1) (by omega)).1, hc0 cur (by omega), h0]
    · simp only [V4.stage]
      rw [chain_succ, Buf.upd_get_ne _ _ _ (by omega), hold cur (by omega), hold (cur + 1) (by omega),
        (hm cur (by omega)).2, (hm (cur + 1) (by omega)).2, hc1 cur (by omega), h1]
    · intro k hk
      simp only [Buf.upd_get]
      by_cases hkc : k = cur
      · rw [if_pos hkc, hkc]
        exact ⟨h0, h1⟩
      · rw [if_neg hkc]
        exact hnew k (by omega)
    · intro k hk
      simp only [Buf.upd_get]
      rw [if_neg (by omega)]
      exact hold k (by omega)

omit [Sample F] in
theorem stageProcSsePos_sat {f : SseFilter F} {nc n : Nat} {c x0 x1 : Nat → F} {x : V4 F} (hf : f.Wf nc c)
    (hm : SseMem nc (sseCoef0 nc c) (fun j => c (2 * j)) x0 x1 n f.mem) (hx0 : x.x0 = x0 n) (hx1 : x.x1 = x1 n) :
    Sat (stageProcSsePos f.addr f.coef (nbrStages f.nbrCoefs) x f.mem) (fun r =>
      r.1.x0 = chain (sseCoef0 nc c) x0 ((nc + 1) / 2) n ∧ r.1.x1 = chain (fun j => c (2 * j)) x1 ((nc + 1) / 2) n ∧
      r.2.len = f.mem.len ∧ r.2.addr = f.mem.addr ∧
      SseMem nc (sseCoef0 nc c) (fun j => c (2 * j)) x0 x1 (n + 1) r.2 ∧
      ∀ k, (nc + 1) / 2 < k → r.2.get k = f.mem.get k) := by
  unfold stageProcSsePos nbrStages
  rw [hf.nc_eq, show nc + 2 - 1 = nc + 1 by omega]
  refine sat_bind (stageProcSsePosRec_sat hf.addr_ok hf.coef_len hf.mem_len hf.coef0 hf.coef1 hm hx0 hx1
    (Nat.le_refl _)) ?_
  rintro ⟨y, m⟩ ⟨h0, h1, hl, had, hnew, hold⟩
  simp only at h0 h1 hl had hnew hold ⊢
  have hml := hf.mem_len
  rw [stStage_eq _ hf.addr_ok (by omega), ok_bind]
  refine sat_ok ⟨h0, h1, hl, had, ?_, ?_⟩
  · intro k hk
    simp only [Buf.upd_get]
    by_cases hkc : k = (nc + 1) / 2
    · rw [if_pos hkc, hkc]
      exact ⟨h0, h1⟩
    · rw [if_neg hkc]
      exact hnew k (by omega)
  · intro k hk
    simp only [Buf.upd_get]
    rw [if_neg (by omega)]
    exact hold k (by omega)

omit [Sample F] in
theorem SseFilter.new_sat {addr : Nat} {cs : Buf F} (ha : addr % 16 = 0) (h : 0 < cs.len) :
    Sat (SseFilter.new addr cs) (fun f => f.Wf cs.len cs.get ∧ (∀ i, f.mem.get i = ⟨0, 0, 0, 0⟩) ∧
      ∀ a0 a1 x0 x1, SseMem cs.len a0 a1 x0 x1 0 f.mem) := by
  unfold SseFilter.new nbrStages
  simp only
  rw [show cs.len + 2 - 1 = cs.len + 1 by omega]
  refine sat_bind (sat_forN (fun n (b : Buf (V4 F)) => b.len = (cs.len + 1) / 2 + 1 ∧ ∀ k, b.get k = ⟨0, 0, 0, 0⟩)
    ⟨rfl, fun _ => rfl⟩ ?_) ?_
  · rintro i hi b ⟨hl, hg⟩
    rw [stStage_eq _ ha (by omega)]
    refine sat_ok ⟨hl, ?_⟩
    intro k
    rw [Buf.upd_get]
    by_cases hki : k = i
    · rw [if_pos hki]
    · rw [if_neg hki]
      exact hg k
  rintro b ⟨hl, hg⟩
  refine sat_bind (P := fun b : Buf (V4 F) => b.len = (cs.len + 1) / 2 + 1 ∧
    (cs.len < (cs.len + 1) / 2 * 2 → (b.get ((cs.len + 1) / 2)).x0 = 1)) ?_ ?_
  · by_cases hc : cs.len < (cs.len + 1) / 2 * 2
    · rw [if_pos hc, Buf.rd_eq (by omega), ok_bind, Buf.wr_eq _ (by omega)]
      exact sat_ok ⟨hl, fun _ => by simp [V4.set]⟩
    · rw [if_neg hc]
      exact sat_ok ⟨hl, fun h => absurd h hc⟩
  clear hl hg b
  rintro b ⟨hl, hone⟩
  refine sat_bind (sat_forN (fun n (b : Buf (V4 F)) => b.len = (cs.len + 1) / 2 + 1 ∧ ∀ k, b.get k = ⟨0, 0, 0, 0⟩)
    ⟨rfl, fun _ => rfl⟩ ?_) ?_
  · rintro i hi b ⟨hl, hg⟩
    rw [stStage_eq _ ha (by omega)]
    refine sat_ok ⟨hl, ?_⟩
    intro k
    rw [Buf.upd_get]
    by_cases hki : k = i
    · rw [if_pos hki]
    · rw [if_neg hki]
      exact hg k
  rintro m ⟨hml, hmg⟩
  refine sat_bind (sat_forN (fun n (b : Buf (V4 F)) => b.len = (cs.len + 1) / 2 + 1 ∧
    (cs.len < (cs.len + 1) / 2 * 2 → (b.get ((cs.len + 1) / 2)).x0 = 1) ∧
    ∀ i < n, (i % 2 = 1 → (b.get (i / 2 + 1)).x0 = cs.get i) ∧ (i % 2 = 0 → (b.get (i / 2 + 1)).x1 = cs.get i))
    ⟨hl, hone, by intro i hi; omega⟩ ?_) ?_
  · rintro i hi b ⟨hl, hone, hg⟩
    have hx : (i ^^^ 1) % 2 = (i + 1) % 2 := by
      rw [← Nat.and_one_is_mod, Nat.and_xor_distrib_right]
      rcases Nat.mod_two_eq_zero_or_one i with h | h <;> simp [Nat.and_one_is_mod, h, Nat.add_mod]
    rw [hx, Buf.rd_eq (by omega), ok_bind, Buf.rd_eq hi, ok_bind, Buf.wr_eq _ (by omega)]
    refine sat_ok ⟨hl, ?_, ?_⟩
    · intro hc
      rw [Buf.upd_get]
      by_cases hk : (cs.len + 1) / 2 = i / 2 + 1
      · rw [if_pos hk]
        unfold V4.set
        rw [if_neg (by omega), ← hk]
        exact hone hc
      · rw [if_neg hk]
        exact hone hc
    · intro k hk
      rw [Buf.upd_get]
      by_cases hki : k / 2 + 1 = i / 2 + 1
      · rw [if_pos hki]
        unfold V4.set
        by_cases hke : k = i
        · subst hke
          refine ⟨fun h => ?_, fun h => ?_⟩
          · rw [if_pos (by omega)]
          · rw [if_neg (by omega)]
        · have := hg k (by omega)
          rw [← hki]
          refine ⟨fun h => ?_, fun h => ?_⟩
          · omega
          · rw [if_pos (by omega)]
            exact this.2 h
      · rw [if_neg hki]
        exact hg k (by
          rcases Nat.lt_or_ge k i with h | h
          · exact h
          · have : k = i := by omega
            omega)
  rintro b ⟨hl, hone, hg⟩
  refine sat_ok ⟨⟨rfl, h, ha, hl, hml, ?_, ?_, fun k _ => hmg k⟩, hmg, ?_⟩
  · intro j hj
    unfold sseCoef0
    by_cases hc : 2 * j + 1 < cs.len
    · rw [if_pos hc]
      have := (hg (2 * j + 1) hc).1 (by omega)
      rwa [show (2 * j + 1) / 2 = j by omega] at this
    · rw [if_neg hc]
      have : j + 1 = (cs.len + 1) / 2 := by omega
      simp only
      rw [this]
      exact hone (by omega)
  · intro j hj
    have := (hg (2 * j) (by omega)).2 (by omega)
    rwa [show (2 * j) / 2 = j by omega] at this
  · intro a0 a1 x0 x1 k hk
    simp only
    rw [hmg k]
    exact ⟨rfl, rfl⟩

omit [Sample F] in
theorem SseFilter.clearBuffers_sat {f : SseFilter F} {nc : Nat} {c : Nat → F} (hf : f.Wf nc c) :
    Sat f.clearBuffers (fun f' => f'.Wf nc c ∧ f' = { f with mem := { f.mem with get := fun _ => ⟨0, 0, 0, 0⟩ } } ∧
      ∀ a0 a1 x0 x1, SseMem nc a0 a1 x0 x1 0 f'.mem) := by
  have hl := hf.mem_len
  unfold SseFilter.clearBuffers nbrStages
  rw [show (f.nbrCoefs + 2 - 1) / 2 + 1 = (nc + 1) / 2 + 1 by rw [hf.nc_eq]; omega]
  refine sat_bind (sat_forN (fun n (b : Buf (V4 F)) => b.len = (nc + 1) / 2 + 1 ∧ b.addr = f.mem.addr ∧
    (∀ i < n, b.get i = ⟨0, 0, 0, 0⟩) ∧ ∀ k, (nc + 1) / 2 < k → b.get k = ⟨0, 0, 0, 0⟩)
    ⟨hl, rfl, by intro i hi; omega, hf.mem_out⟩ ?_) ?_
  · rintro i hi b ⟨hl, had, hg, ho⟩
    rw [stStage_eq _ hf.addr_ok (by omega)]
    refine sat_ok ⟨hl, had, ?_, ?_⟩
    · intro k hk
      rw [Buf.upd_get]
      by_cases hki : k = i
      · rw [if_pos (by omega)]
      · rw [if_neg (by omega)]
        exact hg k (by omega)
    · intro k hk
      rw [Buf.upd_get_ne _ _ _ (by omega)]
      exact ho k hk
  · rintro b ⟨hl, had, hg, ho⟩
    have hz : b = { f.mem with get := fun _ => ⟨0, 0, 0, 0⟩ } := by
      obtain ⟨ba, bl, bg⟩ := b
      simp only at hl had hg ho
      rw [Buf.mk.injEq]
      refine ⟨had, by rw [hl, hf.mem_len], funext fun i => ?_⟩
      rcases Nat.lt_or_ge i ((nc + 1) / 2 + 1) with h | h
      · exact hg i (by omega)
      · exact ho i (by omega)
    subst hz
    refine sat_ok ⟨⟨hf.nc_eq, hf.nc_pos, hf.addr_ok, hf.coef_len, hl, hf.coef0, hf.coef1, ho⟩, rfl, ?_⟩
    intro a0 a1 x0 x1 k hk
    exact ⟨rfl, rfl⟩

/-- Everything except the memory contents stays the same. -/
def SseFilter.Same (f f' : SseFilter F) : Prop :=
  f'.nbrCoefs = f.nbrCoefs ∧ f'.coef = f.coef ∧ f'.addr = f.addr ∧ f'.mem.addr = f.mem.addr

omit [Sample F] in
/-- One call of `Upsampler2xSse::process_block`. With asserts enabled, `k > 0` is required. -/
theorem SseFilter.upBlock_sat {bld : Build} {f : SseFilter F} {nc : Nat} {c x : Nat → F} {n k ioff ooff : Nat}
    {input output : Buf F} (hf : f.Wf nc c) (hm : SseMem nc (sseCoef0 nc c) (fun j => c (2 * j)) x x n f.mem)
    (hk : bld.ndebug = true ∨ 0 < k)
    (hin : ioff + k ≤ input.len) (hx : ∀ i < k, input.get (ioff + i) = x (n + i)) (hout : ooff + 2 * k ≤ output.len) :
    Sat (f.upBlock bld input ioff k output ooff) (fun r => r.1.Wf nc c ∧ f.Same r.1 ∧
      SseMem nc (sseCoef0 nc c) (fun j => c (2 * j)) x x (n + k) r.1.mem ∧ r.2.len = output.len ∧
      r.2.addr = output.addr ∧
      (∀ i < k, r.2.get (ooff + 2 * i) = chain (fun j => c (2 * j)) x ((nc + 1) / 2) (n + i) ∧
        r.2.get (ooff + 2 * i + 1) = chain (sseCoef0 nc c) x ((nc + 1) / 2) (n + i)) ∧
      ∀ j, j < ooff ∨ ooff + 2 * k ≤ j → r.2.get j = output.get j) := by
  unfold SseFilter.upBlock Build.assert
  rw [show (bld.ndebug || decide (k > 0)) = true by simpa using hk, if_pos rfl, pure_eq_ok, ok_bind]
  refine sat_forN (fun m (r : SseFilter F × Buf F) => r.1.Wf nc c ∧ f.Same r.1 ∧
      SseMem nc (sseCoef0 nc c) (fun j => c (2 * j)) x x (n + m) r.1.mem ∧ r.2.len = output.len ∧
      r.2.addr = output.addr ∧
      (∀ i < m, r.2.get (ooff + 2 * i) = chain (fun j => c (2 * j)) x ((nc + 1) / 2) (n + i) ∧
        r.2.get (ooff + 2 * i + 1) = chain (sseCoef0 nc c) x ((nc + 1) / 2) (n + i)) ∧
      ∀ j, j < ooff ∨ ooff + 2 * m ≤ j → r.2.get j = output.get j)
    ⟨hf, ⟨rfl, rfl, rfl, rfl⟩, hm, rfl, rfl, by intro i hi; omega, fun _ _ => rfl⟩ ?_
  rintro m hmk ⟨g, o⟩ ⟨hw, hs, hme, hl, ha, hv, hfr⟩
  simp only at hw hs hme hl ha hv hfr ⊢
  rw [Buf.rd_eq (by omega), ok_bind, hx m hmk]
  refine sat_bind (stageProcSsePos_sat hw hme rfl rfl) ?_
  rintro ⟨y, mm⟩ ⟨h1, h2, h3, h4, h5, h6⟩
  simp only at h1 h2 h3 h4 h5 ⊢
  rw [Buf.wr_eq _ (by omega), ok_bind, Buf.wr_eq _ (by simp only [Buf.upd_len]; omega), ok_bind]
  refine sat_ok ⟨⟨hw.nc_eq, hw.nc_pos, hw.addr_ok, hw.coef_len, h3.trans hw.mem_len, hw.coef0, hw.coef1,
      fun k hk => (h6 k hk).trans (hw.mem_out k hk)⟩,
    ⟨hs.1, hs.2.1, hs.2.2.1, h4.trans hs.2.2.2⟩, h5, hl, ha, ?_, ?_⟩
  · intro i hi
    simp only [Buf.upd_get]
    by_cases him : i = m
    · subst him
      rw [if_neg (by omega), if_pos (by omega), if_pos (by omega)]
      exact ⟨h2, h1⟩
    · rw [if_neg (by omega), if_neg (by omega), if_neg (by omega), if_neg (by omega)]
      exact hv i (by omega)
  · intro j hj
    simp only [Buf.upd_get]
    rw [if_neg (by omega), if_neg (by omega)]
    exact hfr j (by omega)

/-- One call of `Downsampler2xSse::process_block` producing `k` samples, provided the input buffer extends
two samples beyond the `2 * k` samples to be processed. -/
theorem SseFilter.downBlock_sat {bld : Build} {f : SseFilter F} {nc : Nat} {c xe xo : Nat → F} {n k ioff ooff : Nat}
    {input output : Buf F} (hf : f.Wf nc c) (hm : SseMem nc (sseCoef0 nc c) (fun j => c (2 * j)) xe xo n f.mem)
    (hk : bld.ndebug = true ∨ 0 < k)
    (hin : 0 < k → ioff + 2 * k + 2 ≤ input.len) (hxe : ∀ i < k, input.get (ioff + 2 * i) = xe (n + i))
    (hxo : ∀ i < k, input.get (ioff + 2 * i + 1) = xo (n + i)) (hout : ooff + k ≤ output.len) :
    Sat (f.downBlock bld input ioff k output ooff) (fun r => r.1.Wf nc c ∧ f.Same r.1 ∧
      SseMem nc (sseCoef0 nc c) (fun j => c (2 * j)) xe xo (n + k) r.1.mem ∧ r.2.len = output.len ∧
      r.2.addr = output.addr ∧
      (∀ i < k, r.2.get (ooff + i) =
        (chain (sseCoef0 nc c) xe ((nc + 1) / 2) (n + i) + chain (fun j => c (2 * j)) xo ((nc + 1) / 2) (n + i))
          * Sample.half) ∧
      ∀ j, j < ooff ∨ ooff + k ≤ j → r.2.get j = output.get j) := by
  unfold SseFilter.downBlock Build.assert
  rw [show (bld.ndebug || decide (k > 0)) = true by simpa using hk, if_pos rfl, pure_eq_ok, ok_bind]
  refine sat_forN (fun m (r : SseFilter F × Buf F) => r.1.Wf nc c ∧ f.Same r.1 ∧
      SseMem nc (sseCoef0 nc c) (fun j => c (2 * j)) xe xo (n + m) r.1.mem ∧ r.2.len = output.len ∧
      r.2.addr = output.addr ∧
      (∀ i < m, r.2.get (ooff + i) =
        (chain (sseCoef0 nc c) xe ((nc + 1) / 2) (n + i) + chain (fun j => c (2 * j)) xo ((nc + 1) / 2) (n + i))
          * Sample.half) ∧
      ∀ j, j < ooff ∨ ooff + m ≤ j → r.2.get j = output.get j)
    ⟨hf, ⟨rfl, rfl, rfl, rfl⟩, hm, rfl, rfl, by intro i hi; omega, fun _ _ => rfl⟩ ?_
  rintro m hmk ⟨g, o⟩ ⟨hw, hs, hme, hl, ha, hv, hfr⟩
  simp only at hw hs hme hl ha hv hfr ⊢
  have hin' := hin (by omega)
  have e2 : ioff + m * 2 = ioff + 2 * m := by omega
  rw [e2, Buf.ld4u_eq (by omega), ok_bind]
  refine sat_bind (stageProcSsePos_sat hw hme (hxe m hmk) (hxo m hmk)) ?_
  rintro ⟨y, mm⟩ ⟨h1, h2, h3, h4, h5, h6⟩
  simp only at h1 h2 h3 h4 h5 ⊢
  rw [Buf.wr_eq _ (by omega), ok_bind]
  refine sat_ok ⟨⟨hw.nc_eq, hw.nc_pos, hw.addr_ok, hw.coef_len, h3.trans hw.mem_len, hw.coef0, hw.coef1,
      fun k hk => (h6 k hk).trans (hw.mem_out k hk)⟩,
    ⟨hs.1, hs.2.1, hs.2.2.1, h4.trans hs.2.2.2⟩, h5, hl, ha, ?_, ?_⟩
  · intro i hi
    simp only [Buf.upd_get]
    by_cases him : i = m
    · subst him
      rw [if_pos rfl, h1, h2]
    · rw [if_neg (by omega)]
      exact hv i (by omega)
  · intro j hj
    simp only [Buf.upd_get]
    rw [if_neg (by omega)]
    exact hfr j (by omega)

end Panda
