import Verif.Proofs.FirCore

/-!
# Correctness of `Upsampler2`, one call of `process_block`
-/

namespace Panda

variable {F : Type} [Zero F] [Add F] [Mul F]

/-- What the constructor of `Upsampler2` establishes and every call preserves. -/
structure Up2.Wf (u : Up2 F) : Prop where
  order_ge : 2 ≤ u.order
  order_lt : u.order < 2 ^ 30
  taps_len : u.taps.len = u.order
  hist_len : u.history.len = 2 * u.order
  hist_addr : u.history.addr % 16 = 0
  sse_addr : u.sseTaps.addr % 16 = 0
  sse_ok : SseTapsOk u.order u.taps.get u.sseTaps

/-- `o'` is `o` with `2 * cnt` upsampled values written from index `ooff` on: they belong to positions
`p, p+1, ...` of the padded input stream `X`. -/
structure UpOut (vec : Bool) (t : Nat → F) (O : Nat) (X : Nat → F) (N p ooff : Nat) (o : Buf F) (cnt : Nat) (o' : Buf F) :
    Prop where
  len : o'.len = o.len
  addr : o'.addr = o.addr
  even : ∀ m < cnt, FirVal vec t O X N (p + m) (o'.get (ooff + 2 * m))
  odd : ∀ m < cnt, o'.get (ooff + 2 * m + 1) = X (p + m + O / 2)
  frame : ∀ j, j < ooff ∨ ooff + 2 * cnt ≤ j → o'.get j = o.get j

theorem UpOut.refl {vec : Bool} {t X : Nat → F} {O N p ooff : Nat} {o : Buf F} : UpOut vec t O X N p ooff o 0 o :=
  ⟨rfl, rfl, by intro m hm; omega, by intro m hm; omega, fun _ _ => rfl⟩

theorem UpOut.trans {vec : Bool} {t X : Nat → F} {O N p ooff c1 c2 p2 off2 : Nat} {o o1 o2 : Buf F}
    (h1 : UpOut vec t O X N p ooff o c1 o1) (h2 : UpOut vec t O X N p2 off2 o1 c2 o2)
    (hp : p2 = p + c1) (ho : off2 = ooff + 2 * c1) :
    UpOut vec t O X N p ooff o (c1 + c2) o2 := by
  subst hp ho
  refine ⟨h2.len.trans h1.len, h2.addr.trans h1.addr, ?_, ?_, ?_⟩
  · intro m hm
    by_cases hlt : m < c1
    · rw [h2.frame _ (Or.inl (by omega))]
      exact h1.even m hlt
    · have h := h2.even (m - c1) (by omega)
      rwa [show p + c1 + (m - c1) = p + m by omega, show ooff + 2 * c1 + 2 * (m - c1) = ooff + 2 * m by omega] at h
  · intro m hm
    by_cases hlt : m < c1
    · rw [h2.frame _ (Or.inl (by omega))]
      exact h1.odd m hlt
    · have h := h2.odd (m - c1) (by omega)
      rwa [show p + c1 + (m - c1) = p + m by omega, show ooff + 2 * c1 + 2 * (m - c1) = ooff + 2 * m by omega] at h
  · intro j hj
    rw [h2.frame j (by omega), h1.frame j (by omega)]

/-- `FirVal` is monotone in the sample bound. -/
theorem FirVal.mono {vec : Bool} {t X : Nat → F} {O N N' m : Nat} {v : F} (h : FirVal vec t O X N m v) (hN : N ≤ N') :
    FirVal vec t O X N' m v := by
  rcases h with h | ⟨hv, k, hk, hkm, hb, h⟩
  · exact Or.inl h
  · exact Or.inr ⟨hv, k, hk, hkm, by omega, h⟩

/-- `FirVal` only looks at samples below the bound. -/
theorem FirVal.congr {vec : Bool} {t X Y : Nat → F} {O N m : Nat} {v : F} (h : FirVal vec t O X N m v)
    (hm : m + O ≤ N) (hXY : ∀ j < N, X j = Y j) : FirVal vec t O Y N m v := by
  rcases h with h | ⟨hv, k, hk, hkm, hb, h⟩
  · left
    rw [h]
    exact firScalar_congr (fun i hi => hXY _ (by omega)) (fun _ _ => rfl)
  · refine Or.inr ⟨hv, k, hk, hkm, hb, ?_⟩
    rw [h]
    exact firVector_congr fun i hi => hXY _ (by omega)

theorem UpOut.mono {vec : Bool} {t X : Nat → F} {O N N' p ooff cnt : Nat} {o o' : Buf F}
    (h : UpOut vec t O X N p ooff o cnt o') (hN : N ≤ N') : UpOut vec t O X N' p ooff o cnt o' :=
  ⟨h.len, h.addr, fun m hm => (h.even m hm).mono hN, h.odd, h.frame⟩

/-- Buffer `b` from `boff` on holds `cnt` samples of `X`, starting at position `p`. -/
def Holds (b : Buf F) (boff : Nat) (X : Nat → F) (p cnt : Nat) : Prop :=
  boff + cnt ≤ b.len ∧ ∀ i < cnt, b.get (boff + i) = X (p + i)

omit [Zero F] [Add F] [Mul F] in
theorem Holds.sub {b : Buf F} {boff p cnt : Nat} {X : Nat → F} (h : Holds b boff X p cnt) {i c : Nat}
    (hic : i + c ≤ cnt) : Holds b (boff + i) X (p + i) c := by
  refine ⟨by have := h.1; omega, fun j hj => ?_⟩
  rw [Nat.add_assoc, h.2 _ (by omega), Nat.add_assoc]

theorem Up2.processSampleUnaligned_sat {u : Up2 F} (hu : u.Wf) {input output : Buf F} {ioff ooff p N : Nat}
    {X : Nat → F} (hin : Holds input ioff X p u.order) (hout : ooff + 2 ≤ output.len) :
    Sat (u.processSampleUnaligned input ioff output ooff)
      (fun o => UpOut u.useSse u.taps.get u.order X N p ooff output 1 o) := by
  obtain ⟨hl, hg⟩ := hin
  have ho := hu.order_ge
  have ht := hu.taps_len
  unfold Up2.processSampleUnaligned
  simp only
  rw [firProcessOneSample_eq hl (by omega), ok_bind, Buf.wr_eq _ (by omega), ok_bind,
    Buf.rd_eq (by omega), ok_bind, Buf.wr_eq _ (by rw [Buf.upd_len]; omega)]
  refine sat_ok ⟨rfl, rfl, ?_, ?_, ?_⟩
  · intro m hm
    obtain rfl : m = 0 := by omega
    left
    rw [Buf.upd_get_ne _ _ _ (by omega)]
    simp only [Nat.mul_zero, Nat.add_zero, Buf.upd_get_same]
    exact firScalar_congr hg (fun _ _ => rfl)
  · intro m hm
    obtain rfl : m = 0 := by omega
    simp only [Nat.mul_zero, Nat.add_zero, Buf.upd_get_same]
    exact hg _ (by omega)
  · intro j hj
    rw [Buf.upd_get_ne _ _ _ (by omega), Buf.upd_get_ne _ _ _ (by omega)]

theorem Up2.process4SamplesAligned_sat {u : Up2 F} (hu : u.Wf) (hsse : u.useSse = true)
    {input output : Buf F} {ioff ooff p N cnt : Nat}
    {X : Nat → F} (hin : Holds input ioff X p cnt) (hc : 4 * ((u.order + 6) / 4) ≤ cnt) (hc2 : u.order + 3 ≤ cnt)
    (ha : (input.addr + 4 * ioff) % 16 = 0) (hN : p + 4 * ((u.order + 6) / 4) ≤ N)
    (hout : ooff + 8 ≤ output.len) :
    Sat (u.process4SamplesAligned input ioff output ooff)
      (fun o => UpOut u.useSse u.taps.get u.order X N p ooff output 4 o) := by
  obtain ⟨hl, hg⟩ := hin
  have ho := hu.order_ge
  have hfir := firProcess4SamplesSse_eq (input := input) (off := ioff) hu.sse_ok hu.sse_addr ha (by omega)
  unfold Up2.process4SamplesAligned
  simp only
  rw [Buf.rd_eq (by omega), ok_bind, Buf.wr_eq _ (by omega), ok_bind,
    Buf.rd_eq (by omega), ok_bind, Buf.wr_eq _ (by simp only [Buf.upd_len]; omega), ok_bind,
    Buf.rd_eq (by omega), ok_bind, Buf.wr_eq _ (by simp only [Buf.upd_len]; omega), ok_bind,
    Buf.rd_eq (by omega), ok_bind, Buf.wr_eq _ (by simp only [Buf.upd_len]; omega), ok_bind,
    hfir, ok_bind,
    Buf.wr_eq _ (by simp only [Buf.upd_len]; omega), ok_bind,
    Buf.wr_eq _ (by simp only [Buf.upd_len]; omega), ok_bind,
    Buf.wr_eq _ (by simp only [Buf.upd_len]; omega), ok_bind,
    Buf.wr_eq _ (by simp only [Buf.upd_len]; omega)]
  have hv : ∀ k, firVector (fun i => input.get (ioff + i)) u.taps.get u.order k =
      firVector (fun i => X (p + i)) u.taps.get u.order k := fun k =>
    firVector_congr fun i hi => hg i (by omega)
  refine sat_ok ⟨rfl, rfl, ?_, ?_, ?_⟩
  · intro m hm
    refine Or.inr ⟨hsse, m, hm, by omega, by omega, ?_⟩
    have hm' : m = 0 ∨ m = 1 ∨ m = 2 ∨ m = 3 := by omega
    rcases hm' with rfl | rfl | rfl | rfl <;>
      simp [Buf.upd_get, hv]
  · intro m hm
    have hm' : m = 0 ∨ m = 1 ∨ m = 2 ∨ m = 3 := by omega
    have e0 := hg (u.order / 2) (by omega)
    have e1 := hg (u.order / 2 + 1) (by omega)
    have e2 := hg (u.order / 2 + 2) (by omega)
    have e3 := hg (u.order / 2 + 3) (by omega)
    rcases hm' with rfl | rfl | rfl | rfl <;>
      simp [Buf.upd_get, Nat.add_assoc, e0, e1, e2, e3] <;> congr 1 <;> omega
  · intro j hj
    rw [Buf.upd_get_ne _ _ _ (by omega), Buf.upd_get_ne _ _ _ (by omega), Buf.upd_get_ne _ _ _ (by omega),
      Buf.upd_get_ne _ _ _ (by omega), Buf.upd_get_ne _ _ _ (by omega), Buf.upd_get_ne _ _ _ (by omega),
      Buf.upd_get_ne _ _ _ (by omega), Buf.upd_get_ne _ _ _ (by omega)]

theorem Up2.processBlockAligned_sat {u : Up2 F} (hu : u.Wf) {input output : Buf F} {ioff ooff p N n : Nat}
    {X : Nat → F} (hn : n < 2 ^ 31) (hin : Holds input ioff X p (n + u.order - 1))
    (ha : u.useSse = true → 6 < n → (input.addr + 4 * ioff) % 16 = 0) (hN : p + n + u.order - 1 ≤ N)
    (hout : ooff + 2 * n ≤ output.len) :
    Sat (u.processBlockAligned input ioff n output ooff)
      (fun o => UpOut u.useSse u.taps.get u.order X N p ooff output n o) := by
  have ho := hu.order_ge
  unfold Up2.processBlockAligned
  refine sat_bind (P := fun s : Nat × Buf F => s.1 ≤ n ∧
    UpOut u.useSse u.taps.get u.order X N p ooff output s.1 s.2) ?_ ?_
  · by_cases hs : u.useSse = true
    · rw [if_pos hs]
      refine sat_mono (sat_whileF (fun s : Nat × Buf F => s.1 % 4 = 0 ∧ s.1 ≤ n ∧
        UpOut u.useSse u.taps.get u.order X N p ooff output s.1 s.2) (fun s => n - s.1)
        ⟨rfl, Nat.zero_le _, UpOut.refl⟩ (by omega) ?_) (fun s h => h.1.2)
      rintro ⟨i, o⟩ ⟨hi4, hin', hO⟩ hc
      simp only [decide_eq_true_eq] at hc hi4 hin' hO ⊢
      rw [u32_of_lt (by omega)] at hc
      rw [u32_of_lt (by omega), u32_of_lt (by omega)]
      refine sat_bind (Up2.process4SamplesAligned_sat (N := N) hu hs
        (hin.sub (i := i) (c := n + u.order - 1 - i) (by omega)) (by omega) (by omega)
        (by have := ha hs (by omega); omega) (by omega) (by rw [hO.len]; omega)) ?_
      intro o' ho'
      refine sat_ok ⟨⟨by simp only; omega, by simp only; omega, ?_⟩, by simp only; omega⟩
      exact hO.trans ho' rfl (by omega)
    · rw [if_neg hs]
      exact sat_pure ⟨Nat.zero_le _, UpOut.refl⟩
  · rintro ⟨i, o⟩ ⟨hi, hO⟩
    simp only at hi hO ⊢
    refine sat_bind (sat_whileF (fun s : Nat × Buf F => s.1 ≤ n ∧
        UpOut u.useSse u.taps.get u.order X N p ooff output s.1 s.2) (fun s => n - s.1)
        ⟨hi, hO⟩ (by simp only; omega) ?_) ?_
    · rintro ⟨i, o⟩ ⟨hi, hO⟩ hc
      simp only [decide_eq_true_eq] at hc hi hO ⊢
      rw [u32_of_lt (by omega), u32_of_lt (by omega)]
      refine sat_bind (Up2.processSampleUnaligned_sat (N := N) hu
        (hin.sub (i := i) (c := u.order) (by omega)) (by rw [hO.len]; omega)) ?_
      intro o' ho'
      refine sat_ok ⟨⟨by simp only; omega, ?_⟩, by simp only; omega⟩
      exact hO.trans ho' rfl (by omega)
    · rintro ⟨i, o⟩ ⟨⟨hi, hO⟩, hc⟩
      simp only [decide_eq_false_iff_not] at hc hi hO ⊢
      obtain rfl : i = n := by omega
      exact sat_ok hO

theorem Up2.processBlockUnaligned_sat {u : Up2 F} (hu : u.Wf) {input output : Buf F} {ioff ooff p N n : Nat}
    {X : Nat → F} (hn : n < 2 ^ 31) (hin : Holds input ioff X p (n + u.order - 1)) (hN : p + n + u.order - 1 ≤ N)
    (hout : ooff + 2 * n ≤ output.len) :
    Sat (u.processBlockUnaligned input ioff n output ooff)
      (fun o => UpOut u.useSse u.taps.get u.order X N p ooff output n o) := by
  have ho := hu.order_ge
  unfold Up2.processBlockUnaligned
  refine sat_bind (P := fun s : Nat × Buf F => s.1 ≤ n ∧
    (u.useSse = true → s.1 < n → (input.addr + 4 * (ioff + s.1)) % 16 = 0) ∧
    UpOut u.useSse u.taps.get u.order X N p ooff output s.1 s.2) ?_ ?_
  · by_cases hs : u.useSse = true
    · rw [if_pos hs]
      refine sat_mono (sat_whileF (fun s : Nat × Buf F => s.1 ≤ n ∧
        UpOut u.useSse u.taps.get u.order X N p ooff output s.1 s.2) (fun s => n - s.1)
        ⟨Nat.zero_le _, UpOut.refl⟩ (by simp only; omega) ?_) ?_
      · rintro ⟨i, o⟩ ⟨hin', hO⟩ hc
        simp only [Bool.and_eq_true, decide_eq_true_eq] at hc hin' hO ⊢
        rw [u32_of_lt (by omega), u32_of_lt (by omega)]
        refine sat_bind (Up2.processSampleUnaligned_sat (N := N) hu
          (hin.sub (i := i) (c := u.order) (by omega)) (by rw [hO.len]; omega)) ?_
        intro o' ho'
        refine sat_ok ⟨⟨by simp only; omega, ?_⟩, by simp only; omega⟩
        exact hO.trans ho' rfl (by omega)
      · rintro ⟨i, o⟩ ⟨⟨hi, hO⟩, hc⟩
        refine ⟨hi, ?_, hO⟩
        intro _ hlt
        simp only at hlt
        simpa [hlt] using hc
    · rw [if_neg hs]
      exact sat_pure ⟨Nat.zero_le _, fun h => absurd h hs, UpOut.refl⟩
  · rintro ⟨i, o⟩ ⟨hi, ha, hO⟩
    simp only at hi ha hO ⊢
    rw [u32_of_lt (by omega)]
    refine sat_mono (Up2.processBlockAligned_sat (N := N) hu (by omega)
      (hin.sub (i := i) (c := n - i + u.order - 1) (by omega)) (fun hs h => ha hs (by omega)) (by omega)
      (by rw [hO.len]; omega)) ?_
    intro o' ho'
    have := hO.trans ho' rfl rfl
    rwa [show i + (n - i) = n by omega] at this

omit [Zero F] [Add F] [Mul F] in
theorem copyN_sat {src dst : Buf F} {soff n doff : Nat} (hs : soff + n ≤ src.len) (hd : doff + n ≤ dst.len) :
    Sat (copyN src soff n dst doff) (fun d => d.len = dst.len ∧ d.addr = dst.addr ∧
      (∀ i < n, d.get (doff + i) = src.get (soff + i)) ∧
      ∀ j, j < doff ∨ doff + n ≤ j → d.get j = dst.get j) := by
  unfold copyN
  refine sat_forN (fun n (d : Buf F) => d.len = dst.len ∧ d.addr = dst.addr ∧
      (∀ i < n, d.get (doff + i) = src.get (soff + i)) ∧
      ∀ j, j < doff ∨ doff + n ≤ j → d.get j = dst.get j) ⟨rfl, rfl, by intro i hi; omega, fun _ _ => rfl⟩ ?_
  rintro i hi d ⟨hl, had, hg, hf⟩
  rw [Buf.rd_eq (by omega), ok_bind, Buf.wr_eq _ (by omega)]
  refine sat_ok ⟨hl, had, ?_, ?_⟩
  · intro j hj
    by_cases hji : j = i
    · rw [hji, Buf.upd_get_same]
    · rw [Buf.upd_get_ne _ _ _ (by omega)]
      exact hg j (by omega)
  · intro j hj
    rw [Buf.upd_get_ne _ _ _ (by omega)]
    exact hf j (by omega)

omit [Zero F] [Add F] [Mul F] in
theorem memmoveDown_sat {b : Buf F} {src n : Nat} (h : src + n ≤ b.len) :
    Sat (memmoveDown b src n) (fun d => d.len = b.len ∧ d.addr = b.addr ∧ ∀ i < n, d.get i = b.get (src + i)) := by
  unfold memmoveDown
  rw [if_pos h, if_pos (by omega)]
  exact sat_ok ⟨rfl, rfl, fun i hi => by simp [hi]⟩

/-- One call of `Upsampler2::process_block`: with the last `order - 1` samples of the stream `X` in the
history, it is safe, writes exactly `2 * n` values and leaves the new last samples in the history. -/
theorem Up2.processBlock_sat {u : Up2 F} (hu : u.Wf) {input output : Buf F} {ioff ooff p n : Nat} {X : Nat → F}
    (hn : n < 2 ^ 31) (hhist : ∀ k < u.order - 1, u.history.get k = X (p + k))
    (hin : Holds input ioff X (p + (u.order - 1)) n) (hout : ooff + 2 * n ≤ output.len) :
    Sat (u.processBlock input ioff n output ooff)
      (fun r => r.1.Wf ∧ r.1.order = u.order ∧ r.1.useSse = u.useSse ∧ r.1.taps = u.taps ∧ r.1.sseTaps = u.sseTaps ∧
        r.1.history.addr = u.history.addr ∧
        (∀ k < u.order - 1, r.1.history.get k = X (p + n + k)) ∧
        UpOut u.useSse u.taps.get u.order X (p + n + (u.order - 1)) p ooff output n r.2) := by
  have ho := hu.order_ge
  have ho2 := hu.order_lt
  have hhl := hu.hist_len
  obtain ⟨hil, hig⟩ := hin
  unfold Up2.processBlock
  simp only
  refine sat_bind (copyN_sat (src := input) (dst := u.history) (by omega) (by omega)) ?_
  rintro h1 ⟨h1l, h1a, h1g, h1f⟩
  -- the history buffer now holds a window of X
  have hw : Holds h1 0 X p (min n (u.order - 1) + u.order - 1) := by
    refine ⟨by omega, ?_⟩
    intro i hi
    rw [Nat.zero_add]
    by_cases hlt : i < u.order - 1
    · rw [h1f i (Or.inl hlt), hhist i hlt]
    · have := h1g (i - (u.order - 1)) (by omega)
      rw [show u.order - 1 + (i - (u.order - 1)) = i by omega] at this
      rw [this, hig _ (by omega)]
      congr 1
      omega
  refine sat_bind (Up2.processBlockAligned_sat (N := p + n + (u.order - 1)) hu (by omega) hw
    (fun _ _ => by rw [h1a]; have := hu.hist_addr; omega) (by omega) (by omega)) ?_
  intro o1 ho1
  by_cases hgt : n > min n (u.order - 1)
  · rw [if_pos hgt]
    have hmin : min n (u.order - 1) = u.order - 1 := by omega
    simp only [hmin] at ho1 hw hgt ⊢
    rw [u32_of_lt (by omega)]
    have hin2 : Holds input ioff X (p + (u.order - 1)) (n - (u.order - 1) + u.order - 1) :=
      ⟨by omega, fun i hi => hig i (by omega)⟩
    refine sat_bind (Up2.processBlockUnaligned_sat (N := p + n + (u.order - 1)) hu (by omega) hin2 (by omega)
      (by rw [ho1.len]; omega)) ?_
    intro o2 ho2'
    refine sat_bind (copyN_sat (src := input) (dst := h1) (by omega) (by omega)) ?_
    rintro h2 ⟨h2l, h2a, h2g, h2f⟩
    refine sat_ok ⟨⟨hu.order_ge, hu.order_lt, hu.taps_len, ?_, ?_, hu.sse_addr, hu.sse_ok⟩, rfl, rfl, rfl, rfl, ?_, ?_, ?_⟩
    · simp only; omega
    · simp only [h2a, h1a]; exact hu.hist_addr
    · simp only [h2a, h1a]
    · intro k hk
      have := h2g k (by omega)
      rw [Nat.zero_add] at this
      simp only [this]
      rw [show ioff + n - (u.order - 1) + k = ioff + (n - (u.order - 1) + k) by omega, hig _ (by omega)]
      congr 1
      omega
    · have := ho1.trans ho2' rfl rfl
      rwa [show u.order - 1 + (n - (u.order - 1)) = n by omega] at this
  · rw [if_neg hgt]
    have hmin : min n (u.order - 1) = n := by omega
    simp only [hmin] at ho1 hw hgt ⊢
    refine sat_bind (memmoveDown_sat (b := h1) (by omega)) ?_
    rintro h2 ⟨h2l, h2a, h2g⟩
    refine sat_ok ⟨⟨hu.order_ge, hu.order_lt, hu.taps_len, ?_, ?_, hu.sse_addr, hu.sse_ok⟩, rfl, rfl, rfl, rfl, ?_, ?_, ho1⟩
    · simp only; omega
    · simp only [h2a, h1a]; exact hu.hist_addr
    · simp only [h2a, h1a]
    · intro k hk
      simp only
      rw [h2g k hk]
      have := hw.2 (n + k) (by omega)
      rw [Nat.zero_add] at this
      rw [this]
      congr 1
      omega

end Panda
