import Verif.Proofs.FirUp

/-!
# Correctness of `Downsampler2`, one call of `process_block`
-/

namespace Panda

variable {F : Type} [Zero F] [Add F] [Mul F] [Sample F]

/-- What the constructor of `Downsampler2` establishes and every call preserves. -/
structure Down2.Wf (d : Down2 F) : Prop where
  order_ge : 2 ≤ d.order
  order_lt : d.order < 2 ^ 30
  taps_len : d.taps.len = d.order
  even_len : d.historyEven.len = 2 * d.order
  even_addr : d.historyEven.addr % 16 = 0
  odd_len : d.historyOdd.len = 2 * d.order
  sse_addr : d.sseTaps.addr % 16 = 0
  sse_ok : SseTapsOk d.order d.taps.get d.sseTaps

/-- `o'` is `o` with `cnt` downsampled values written from index `ooff` on: they belong to positions
`p, p+1, ...` of the padded streams `XE`, `XO` of even and odd input samples. -/
structure DownOut (vec : Bool) (t : Nat → F) (O : Nat) (XE XO : Nat → F) (N p ooff : Nat) (o : Buf F) (cnt : Nat)
    (o' : Buf F) : Prop where
  len : o'.len = o.len
  addr : o'.addr = o.addr
  val : ∀ m < cnt, ∃ v, FirVal vec t O XE N (p + m) v ∧
    o'.get (ooff + m) = v + Sample.half * XO (p + m + (O / 2 - 1))
  frame : ∀ j, j < ooff ∨ ooff + cnt ≤ j → o'.get j = o.get j

theorem DownOut.refl {vec : Bool} {t XE XO : Nat → F} {O N p ooff : Nat} {o : Buf F} :
    DownOut vec t O XE XO N p ooff o 0 o :=
  ⟨rfl, rfl, by intro m hm; omega, fun _ _ => rfl⟩

theorem DownOut.trans {vec : Bool} {t XE XO : Nat → F} {O N p ooff c1 c2 p2 off2 : Nat} {o o1 o2 : Buf F}
    (h1 : DownOut vec t O XE XO N p ooff o c1 o1) (h2 : DownOut vec t O XE XO N p2 off2 o1 c2 o2)
    (hp : p2 = p + c1) (ho : off2 = ooff + c1) :
    DownOut vec t O XE XO N p ooff o (c1 + c2) o2 := by
  subst hp ho
  refine ⟨h2.len.trans h1.len, h2.addr.trans h1.addr, ?_, ?_⟩
  · intro m hm
    by_cases hlt : m < c1
    · rw [h2.frame _ (Or.inl (by omega))]
      exact h1.val m hlt
    · have h := h2.val (m - c1) (by omega)
      rwa [show p + c1 + (m - c1) = p + m by omega, show ooff + c1 + (m - c1) = ooff + m by omega] at h
  · intro j hj
    rw [h2.frame j (by omega), h1.frame j (by omega)]

theorem DownOut.mono {vec : Bool} {t XE XO : Nat → F} {O N N' p ooff cnt : Nat} {o o' : Buf F}
    (h : DownOut vec t O XE XO N p ooff o cnt o') (hN : N ≤ N') : DownOut vec t O XE XO N' p ooff o cnt o' :=
  ⟨h.len, h.addr, fun m hm => by obtain ⟨v, hv, h⟩ := h.val m hm; exact ⟨v, hv.mono hN, h⟩, h.frame⟩

/-- Buffer `b` from `boff` on holds, with stride `step`, `cnt` samples of `X` from position `p`. -/
def HoldsS (b : Buf F) (boff step : Nat) (X : Nat → F) (p cnt : Nat) : Prop :=
  ∀ i < cnt, boff + i * step < b.len ∧ b.get (boff + i * step) = X (p + i)

omit [Zero F] [Add F] [Mul F] [Sample F] in
theorem HoldsS.sub {b : Buf F} {boff step p cnt : Nat} {X : Nat → F} (h : HoldsS b boff step X p cnt) {i c : Nat}
    (hic : i + c ≤ cnt) : HoldsS b (boff + i * step) step X (p + i) c := by
  intro j hj
  have := h (i + j) (by omega)
  rw [Nat.add_mul, ← Nat.add_assoc] at this
  rwa [Nat.add_assoc p i j]

theorem Down2.processSampleUnaligned_sat {d : Down2 F} (hd : d.Wf) {even odd : Buf F} {step eoff doff p N cnt : Nat}
    {XE XO : Nat → F} (he : Holds even eoff XE p d.order) (ho : HoldsS odd doff step XO p cnt)
    (hc : d.order ≤ cnt + 1) :
    Sat (d.processSampleUnaligned step even eoff odd doff)
      (fun y => ∃ v, FirVal d.useSse d.taps.get d.order XE N p v ∧ y = v + Sample.half * XO (p + (d.order / 2 - 1))) := by
  have hge := hd.order_ge
  have ht := hd.taps_len
  obtain ⟨hl, hg⟩ := he
  unfold Down2.processSampleUnaligned
  simp only
  obtain ⟨hb, hx⟩ := ho (d.order / 2 - 1) (by omega)
  rw [firProcessOneSample_eq hl (by omega), ok_bind, Buf.rd_eq hb, ok_bind]
  exact sat_ok ⟨_, Or.inl (firScalar_congr hg fun _ _ => rfl), by rw [hx]⟩

theorem DownOut.one {vec : Bool} {t XE XO : Nat → F} {O N p ooff : Nat} {o : Buf F} {y : F}
    (h : ∃ v, FirVal vec t O XE N p v ∧ y = v + Sample.half * XO (p + (O / 2 - 1))) :
    DownOut vec t O XE XO N p ooff o 1 (o.upd ooff y) := by
  refine ⟨rfl, rfl, ?_, ?_⟩
  · intro m hm
    obtain rfl : m = 0 := by omega
    obtain ⟨v, hv, rfl⟩ := h
    exact ⟨v, hv, by simp⟩
  · intro j hj
    rw [Buf.upd_get_ne _ _ _ (by omega)]

theorem Down2.process4SamplesAligned_sat {d : Down2 F} (hd : d.Wf) (hsse : d.useSse = true) {even odd output : Buf F}
    {step eoff doff ooff p N cnt : Nat} {XE XO : Nat → F} (he : Holds even eoff XE p cnt)
    (ho : HoldsS odd doff step XO p cnt)
    (hc : 4 * ((d.order + 6) / 4) ≤ cnt) (hc2 : d.order + 3 ≤ cnt)
    (ha : (even.addr + 4 * eoff) % 16 = 0) (hN : p + 4 * ((d.order + 6) / 4) ≤ N)
    (hout : ooff + 4 ≤ output.len) :
    Sat (d.process4SamplesAligned step even eoff odd doff output ooff)
      (fun o => DownOut d.useSse d.taps.get d.order XE XO N p ooff output 4 o) := by
  obtain ⟨hl, hg⟩ := he
  have hge := hd.order_ge
  have hfir := firProcess4SamplesSse_eq (input := even) (off := eoff) hd.sse_ok hd.sse_addr ha (by omega)
  obtain ⟨b0, x0⟩ := ho (d.order / 2 - 1) (by omega)
  obtain ⟨b1, x1⟩ := ho (d.order / 2 - 1 + 1) (by omega)
  obtain ⟨b2, x2⟩ := ho (d.order / 2 - 1 + 2) (by omega)
  obtain ⟨b3, x3⟩ := ho (d.order / 2 - 1 + 3) (by omega)
  have hv : ∀ k, firVector (fun i => even.get (eoff + i)) d.taps.get d.order k =
      firVector (fun i => XE (p + i)) d.taps.get d.order k := fun k =>
    firVector_congr fun i hi => hg i (by omega)
  unfold Down2.process4SamplesAligned
  simp only
  rw [hfir, ok_bind, Buf.wr_eq _ (by omega), ok_bind,
    Buf.wr_eq _ (by simp only [Buf.upd_len]; omega), ok_bind,
    Buf.wr_eq _ (by simp only [Buf.upd_len]; omega), ok_bind,
    Buf.wr_eq _ (by simp only [Buf.upd_len]; omega), ok_bind,
    Buf.rd_eq (by simp only [Buf.upd_len]; omega), ok_bind, Buf.rd_eq b0, ok_bind,
    Buf.wr_eq _ (by simp only [Buf.upd_len]; omega), ok_bind,
    Buf.rd_eq (by simp only [Buf.upd_len]; omega), ok_bind, Buf.rd_eq b1, ok_bind,
    Buf.wr_eq _ (by simp only [Buf.upd_len]; omega), ok_bind,
    Buf.rd_eq (by simp only [Buf.upd_len]; omega), ok_bind, Buf.rd_eq b2, ok_bind,
    Buf.wr_eq _ (by simp only [Buf.upd_len]; omega), ok_bind,
    Buf.rd_eq (by simp only [Buf.upd_len]; omega), ok_bind, Buf.rd_eq b3, ok_bind,
    Buf.wr_eq _ (by simp only [Buf.upd_len]; omega), x0, x1, x2, x3]
  refine sat_ok ⟨rfl, rfl, ?_, ?_⟩
  · intro m hm
    refine ⟨firVector (fun i => XE (p + i)) d.taps.get d.order m, Or.inr ⟨hsse, m, hm, by omega, by omega, ?_⟩, ?_⟩
    · rw [show p + m - m = p by omega]
    have e : p + m + (d.order / 2 - 1) = p + (d.order / 2 - 1 + m) := by omega
    have hm' : m = 0 ∨ m = 1 ∨ m = 2 ∨ m = 3 := by omega
    rcases hm' with rfl | rfl | rfl | rfl <;> simp [Buf.upd_get, hv, e]
  · intro j hj
    rw [Buf.upd_get_ne _ _ _ (by omega), Buf.upd_get_ne _ _ _ (by omega), Buf.upd_get_ne _ _ _ (by omega),
      Buf.upd_get_ne _ _ _ (by omega), Buf.upd_get_ne _ _ _ (by omega), Buf.upd_get_ne _ _ _ (by omega),
      Buf.upd_get_ne _ _ _ (by omega), Buf.upd_get_ne _ _ _ (by omega)]

theorem Down2.processBlockAligned_sat {d : Down2 F} (hd : d.Wf) {even odd output : Buf F}
    {step eoff doff ooff p N n : Nat} {XE XO : Nat → F} (he : Holds even eoff XE p (n + d.order - 1))
    (ho : HoldsS odd doff step XO p (n + d.order - 1))
    (ha : d.useSse = true → 6 < n → (even.addr + 4 * eoff) % 16 = 0) (hN : p + n + d.order - 1 ≤ N)
    (hout : ooff + n ≤ output.len) :
    Sat (d.processBlockAligned step even eoff odd doff output ooff n)
      (fun o => DownOut d.useSse d.taps.get d.order XE XO N p ooff output n o) := by
  have hge := hd.order_ge
  unfold Down2.processBlockAligned
  refine sat_bind (P := fun s : Nat × Buf F => s.1 ≤ n ∧
    DownOut d.useSse d.taps.get d.order XE XO N p ooff output s.1 s.2) ?_ ?_
  · by_cases hs : d.useSse = true
    · rw [if_pos hs]
      refine sat_mono (sat_whileF (fun s : Nat × Buf F => s.1 % 4 = 0 ∧ s.1 ≤ n ∧
        DownOut d.useSse d.taps.get d.order XE XO N p ooff output s.1 s.2) (fun s => n - s.1)
        ⟨rfl, Nat.zero_le _, DownOut.refl⟩ (by omega) ?_) (fun s h => h.1.2)
      rintro ⟨i, o⟩ ⟨hi4, hin', hO⟩ hc
      simp only [decide_eq_true_eq] at hc hi4 hin' hO ⊢
      refine sat_bind (Down2.process4SamplesAligned_sat (N := N) hd hs
        (he.sub (i := i) (c := n + d.order - 1 - i) (by omega)) 
        (ho.sub (i := i) (c := n + d.order - 1 - i) (by omega)) (by omega) (by omega)
        (by have := ha hs (by omega); omega) (by omega) (by rw [hO.len]; omega)) ?_
      intro o' ho'
      refine sat_ok ⟨⟨by simp only; omega, by simp only; omega, ?_⟩, by simp only; omega⟩
      exact hO.trans ho' rfl rfl
    · rw [if_neg hs]
      exact sat_pure ⟨Nat.zero_le _, DownOut.refl⟩
  · rintro ⟨i, o⟩ ⟨hi, hO⟩
    simp only at hi hO ⊢
    refine sat_bind (sat_whileF (fun s : Nat × Buf F => s.1 ≤ n ∧
        DownOut d.useSse d.taps.get d.order XE XO N p ooff output s.1 s.2) (fun s => n - s.1)
        ⟨hi, hO⟩ (by simp only; omega) ?_) ?_
    · rintro ⟨i, o⟩ ⟨hi, hO⟩ hc
      simp only [decide_eq_true_eq] at hc hi hO ⊢
      refine sat_bind (Down2.processSampleUnaligned_sat (N := N) hd
        (he.sub (i := i) (c := d.order) (by omega)) 
        (ho.sub (i := i) (c := d.order) (by omega)) (by omega)) ?_
      intro y hy
      rw [Buf.wr_eq _ (by rw [hO.len]; omega), ok_bind]
      refine sat_ok ⟨⟨by simp only; omega, ?_⟩, by simp only; omega⟩
      exact hO.trans (DownOut.one hy) rfl rfl
    · rintro ⟨i, o⟩ ⟨⟨hi, hO⟩, hc⟩
      simp only [decide_eq_false_iff_not] at hc hi hO ⊢
      obtain rfl : i = n := by omega
      exact sat_ok hO

/-- `process_block_unaligned` with an aligned start (the only way it is called). -/
theorem Down2.processBlockUnaligned_sat {d : Down2 F} (hd : d.Wf) {even odd output : Buf F}
    {step eoff doff ooff p N n : Nat} {XE XO : Nat → F} (he : Holds even eoff XE p (n + d.order - 1))
    (ho : HoldsS odd doff step XO p (n + d.order - 1))
    (ha : (even.addr + 4 * eoff) % 16 = 0) (hN : p + n + d.order - 1 ≤ N)
    (hout : ooff + n ≤ output.len) :
    Sat (d.processBlockUnaligned step even eoff odd doff output ooff n)
      (fun o => DownOut d.useSse d.taps.get d.order XE XO N p ooff output n o) := by
  have hge := hd.order_ge
  unfold Down2.processBlockUnaligned
  refine sat_bind (P := fun s : Nat × Buf F => s = (0, output)) ?_ ?_
  · by_cases hs : d.useSse = true
    · rw [if_pos hs]
      refine sat_mono (sat_whileF (fun s : Nat × Buf F => s = (0, output)) (fun s => 0) rfl (by omega) ?_)
        (fun s h => h.1)
      rintro s rfl hc
      simp [ha] at hc
    · rw [if_neg hs]
      exact sat_pure rfl
  · rintro _ rfl
    simp only [Nat.add_zero, Nat.zero_mul]
    exact Down2.processBlockAligned_sat hd he ho (fun _ _ => ha) hN hout

omit [Zero F] [Add F] [Mul F] [Sample F] in
theorem deinterleave2_sat {src dst : Buf F} {soff n doff : Nat} (hs : ∀ j, j < (n + 1) / 2 → soff + 2 * j < src.len)
    (hd : doff + (n + 1) / 2 ≤ dst.len) :
    Sat (deinterleave2 src soff n dst doff) (fun d => d.len = dst.len ∧ d.addr = dst.addr ∧
      (∀ i < (n + 1) / 2, d.get (doff + i) = src.get (soff + 2 * i)) ∧
      ∀ j, j < doff ∨ doff + (n + 1) / 2 ≤ j → d.get j = dst.get j) := by
  unfold deinterleave2
  refine sat_forN (fun n (d : Buf F) => d.len = dst.len ∧ d.addr = dst.addr ∧
      (∀ i < n, d.get (doff + i) = src.get (soff + 2 * i)) ∧
      ∀ j, j < doff ∨ doff + n ≤ j → d.get j = dst.get j) ⟨rfl, rfl, by intro i hi; omega, fun _ _ => rfl⟩ ?_
  rintro i hi d ⟨hl, had, hg, hf⟩
  rw [Buf.rd_eq (hs i hi), ok_bind, Buf.wr_eq _ (by omega)]
  refine sat_ok ⟨hl, had, ?_, ?_⟩
  · intro j hj
    by_cases hji : j = i
    · rw [hji, Buf.upd_get_same]
    · rw [Buf.upd_get_ne _ _ _ (by omega)]
      exact hg j (by omega)
  · intro j hj
    rw [Buf.upd_get_ne _ _ _ (by omega)]
    exact hf j (by omega)

/-- The parts of a `Downsampler2` that no call changes. -/
def Down2.SameParams (d d' : Down2 F) : Prop :=
  d'.order = d.order ∧ d'.useSse = d.useSse ∧ d'.taps = d.taps ∧ d'.sseTaps = d.sseTaps ∧
    d'.historyEven.addr = d.historyEven.addr ∧ d'.historyOdd.addr = d.historyOdd.addr

omit [Zero F] [Add F] [Mul F] [Sample F] in
theorem Down2.SameParams.refl (d : Down2 F) : d.SameParams d := ⟨rfl, rfl, rfl, rfl, rfl, rfl⟩

omit [Zero F] [Add F] [Mul F] [Sample F] in
theorem Down2.SameParams.trans {d d1 d2 : Down2 F} (h1 : d.SameParams d1) (h2 : d1.SameParams d2) :
    d.SameParams d2 := by
  obtain ⟨a1, a2, a3, a4, a5, a6⟩ := h1
  obtain ⟨b1, b2, b3, b4, b5, b6⟩ := h2
  exact ⟨b1.trans a1, b2.trans a2, b3.trans a3, b4.trans a4, b5.trans a5, b6.trans a6⟩

/-- History contents: the last `order - 1` samples before position `p + (order - 1)`. -/
def Down2.Hist (d : Down2 F) (XE XO : Nat → F) (p : Nat) : Prop :=
  (∀ k < d.order - 1, d.historyEven.get k = XE (p + k)) ∧ (∀ k < d.order - 1, d.historyOdd.get k = XO (p + k))

/-- One round (at most 2048 input samples) of the loop in `Downsampler2::process_block`. -/
theorem Down2.loopBody_sat {st : Stack F} {s : DownLoop F} (hd : s.d.Wf) {input : Buf F} {p k : Nat}
    {XE XO : Nat → F} (hn : s.n = 2 * k) (hk : 0 < k) (hh : s.d.Hist XE XO p)
    (hl : s.ioff + 2 * k ≤ input.len)
    (hE : ∀ i < k, input.get (s.ioff + 2 * i) = XE (p + (s.d.order - 1) + i))
    (hO : ∀ i < k, input.get (s.ioff + 2 * i + 1) = XO (p + (s.d.order - 1) + i))
    (hout : s.ooff + k ≤ s.output.len) :
    Sat (Down2.loopBody st input s) (fun s' =>
      s'.d.Wf ∧ s.d.SameParams s'.d ∧ s'.d.Hist XE XO (p + min k 1024) ∧
      s'.n = 2 * (k - min k 1024) ∧ s'.ioff = s.ioff + 2 * min k 1024 ∧ s'.ooff = s.ooff + min k 1024 ∧
      DownOut s.d.useSse s.d.taps.get s.d.order XE XO (p + min k 1024 + (s.d.order - 1)) p s.ooff s.output
        (min k 1024) s'.output) := by
  obtain ⟨d, n, ioff, output, ooff⟩ := s
  simp only at *
  subst hn
  obtain ⟨hhe, hho⟩ := hh
  have hge := hd.order_ge
  have hel := hd.even_len
  have hol := hd.odd_len
  have hea := hd.even_addr
  have hmin : min (2 * k) (1024 * 2) = 2 * min k 1024 := by omega
  have hq : (2 * min k 1024) / 2 = min k 1024 := by omega
  have hq1 : (2 * min k 1024 + 1) / 2 = min k 1024 := by omega
  have hc : min k 1024 ≤ 1024 := by omega
  have hck : min k 1024 ≤ k := by omega
  unfold Down2.loopBody
  simp only [hmin, hq]
  generalize min k 1024 = c at *
  have hm2 : (min c (d.order - 1) * 2 + 1) / 2 = min c (d.order - 1) := by omega
  refine sat_bind (deinterleave2_sat (src := input) (soff := ioff)
    (by rw [hq1]; intro j hj; omega) (by rw [hq1]; simp only; omega)) ?_
  rintro ev ⟨evl, eva, evg, -⟩
  simp only [hq1, Nat.zero_add] at evl eva evg
  refine sat_bind (copyN_sat (src := ev) (dst := d.historyEven) (by omega) (by omega)) ?_
  rintro he1 ⟨he1l, he1a, he1g, he1f⟩
  refine sat_bind (deinterleave2_sat (src := input) (soff := ioff + 1) (dst := d.historyOdd)
    (by rw [hm2]; intro j hj; omega) (by rw [hm2]; omega)) ?_
  rintro ho1 ⟨ho1l, ho1a, ho1g, ho1f⟩
  simp only [hm2] at ho1g ho1f
  -- windows of the two history buffers
  have hwe : Holds he1 0 XE p (min c (d.order - 1) + d.order - 1) := by
    refine ⟨by omega, ?_⟩
    intro i hi
    rw [Nat.zero_add]
    by_cases hlt : i < d.order - 1
    · rw [he1f i (Or.inl hlt), hhe i hlt]
    · have := he1g (i - (d.order - 1)) (by omega)
      rw [show d.order - 1 + (i - (d.order - 1)) = i by omega, Nat.zero_add, evg _ (by omega), hE _ (by omega)] at this
      rw [this]
      congr 1
      omega
  have hwo : HoldsS ho1 0 1 XO p (min c (d.order - 1) + d.order - 1) := by
    intro i hi
    rw [Nat.zero_add, Nat.mul_one]
    refine ⟨by omega, ?_⟩
    by_cases hlt : i < d.order - 1
    · rw [ho1f i (Or.inl hlt), hho i hlt]
    · have := ho1g (i - (d.order - 1)) (by omega)
      rw [show d.order - 1 + (i - (d.order - 1)) = i by omega,
        show ioff + 1 + 2 * (i - (d.order - 1)) = ioff + 2 * (i - (d.order - 1)) + 1 by omega, hO _ (by omega)] at this
      rw [this]
      congr 1
      omega
  refine sat_bind (Down2.processBlockAligned_sat (N := p + c + (d.order - 1)) hd hwe hwo
    (fun _ _ => by rw [he1a]; omega) (by omega) (by omega)) ?_
  intro o1 hD1
  refine sat_bind (P := fun r : Buf F × Buf F × Buf F =>
    r.1.len = d.historyEven.len ∧ r.1.addr = d.historyEven.addr ∧
    r.2.1.len = d.historyOdd.len ∧ r.2.1.addr = d.historyOdd.addr ∧
    (∀ k < d.order - 1, r.1.get k = XE (p + c + k)) ∧ (∀ k < d.order - 1, r.2.1.get k = XO (p + c + k)) ∧
    DownOut d.useSse d.taps.get d.order XE XO (p + c + (d.order - 1)) p ooff output c r.2.2) ?_ ?_
  · by_cases hgt : c > min c (d.order - 1)
    · rw [if_pos hgt]
      have hmm : min c (d.order - 1) = d.order - 1 := by omega
      simp only [hmm] at hD1 hgt ⊢
      have hwe2 : Holds ev 0 XE (p + (d.order - 1)) (c - (d.order - 1) + d.order - 1) := by
        refine ⟨by omega, ?_⟩
        intro i hi
        rw [Nat.zero_add, evg i (by omega), hE i (by omega)]
      have hwo2 : HoldsS input (ioff + 1) 2 XO (p + (d.order - 1)) (c - (d.order - 1) + d.order - 1) := by
        intro i hi
        refine ⟨by omega, ?_⟩
        rw [show ioff + 1 + i * 2 = ioff + 2 * i + 1 by omega, hO i (by omega)]
      refine sat_bind (Down2.processBlockUnaligned_sat (N := p + c + (d.order - 1)) hd hwe2 hwo2
        (by rw [eva]; omega) (by omega) (by rw [hD1.len]; omega)) ?_
      intro o2 hD2
      refine sat_bind (copyN_sat (src := ev) (dst := he1) (by omega) (by omega)) ?_
      rintro he2 ⟨he2l, he2a, he2g, -⟩
      have hm3 : ((d.order - 1) * 2 + 1) / 2 = d.order - 1 := by omega
      refine sat_bind (deinterleave2_sat (src := input) (dst := ho1)
        (by rw [hm3]; intro j hj; omega) (by rw [hm3]; omega)) ?_
      rintro ho2 ⟨ho2l, ho2a, ho2g, -⟩
      rw [hm3] at ho2g
      refine sat_ok ⟨by simp only; omega, by simp only; omega, by simp only; omega, by simp only; omega, ?_, ?_, ?_⟩
      · intro j hj
        have := he2g j hj
        rw [Nat.zero_add] at this
        simp only
        rw [this, evg _ (by omega), hE _ (by omega)]
        congr 1
        omega
      · intro j hj
        have := ho2g j hj
        rw [Nat.zero_add] at this
        simp only
        rw [this, show ioff + 1 + 2 * c - (d.order - 1) * 2 + 2 * j = ioff + 2 * (c - (d.order - 1) + j) + 1 by omega,
          hO _ (by omega)]
        congr 1
        omega
      · have := hD1.trans hD2 rfl rfl
        rwa [show d.order - 1 + (c - (d.order - 1)) = c by omega] at this
    · rw [if_neg hgt]
      have hmm : min c (d.order - 1) = c := by omega
      simp only [hmm] at hD1 hgt hwe hwo ⊢
      refine sat_bind (memmoveDown_sat (b := he1) (by omega)) ?_
      rintro he2 ⟨he2l, he2a, he2g⟩
      refine sat_bind (memmoveDown_sat (b := ho1) (by omega)) ?_
      rintro ho2 ⟨ho2l, ho2a, ho2g⟩
      refine sat_ok ⟨by simp only; omega, by simp only; omega, by simp only; omega, by simp only; omega, ?_, ?_, hD1⟩
      · intro j hj
        simp only
        have := hwe.2 (c + j) (by omega)
        rw [Nat.zero_add] at this
        rw [he2g j hj, this, Nat.add_assoc]
      · intro j hj
        simp only
        have := (hwo (c + j) (by omega)).2
        rw [Nat.zero_add, Nat.mul_one] at this
        rw [ho2g j hj, this, Nat.add_assoc]
  · rintro ⟨he, ho, o⟩ ⟨h1, h2, h3, h4, h5, h6, h7⟩
    simp only at h1 h2 h3 h4 h5 h6 h7 ⊢
    refine sat_ok ⟨⟨hd.order_ge, hd.order_lt, hd.taps_len, by simp only; omega, by simp only; omega, by simp only; omega,
      hd.sse_addr, hd.sse_ok⟩, ⟨rfl, rfl, rfl, rfl, h2, h4⟩, ⟨h5, h6⟩, by simp only; omega, rfl, rfl, h7⟩

/-- One call of `Downsampler2::process_block` with an even number `2 * k` of input samples: safe, writes exactly
`k` values, and leaves the new last samples in the histories. -/
theorem Down2.processBlock_sat {st : Stack F} {d : Down2 F} (hd : d.Wf) {input output : Buf F} {ioff ooff p k : Nat}
    {XE XO : Nat → F} (hh : d.Hist XE XO p) (hl : ioff + 2 * k ≤ input.len)
    (hE : ∀ i < k, input.get (ioff + 2 * i) = XE (p + (d.order - 1) + i))
    (hO : ∀ i < k, input.get (ioff + 2 * i + 1) = XO (p + (d.order - 1) + i))
    (hout : ooff + k ≤ output.len) :
    Sat (Down2.processBlock st d input ioff (2 * k) output ooff)
      (fun r => r.1.Wf ∧ d.SameParams r.1 ∧ r.1.Hist XE XO (p + k) ∧
        DownOut d.useSse d.taps.get d.order XE XO (p + k + (d.order - 1)) p ooff output k r.2) := by
  unfold Down2.processBlock
  rw [if_neg (by omega)]
  refine sat_bind (sat_whileF (fun s : DownLoop F => ∃ c ≤ k, s.n = 2 * (k - c) ∧ s.ioff = ioff + 2 * c ∧
    s.ooff = ooff + c ∧ s.d.Wf ∧ d.SameParams s.d ∧ s.d.Hist XE XO (p + c) ∧
    DownOut d.useSse d.taps.get d.order XE XO (p + k + (d.order - 1)) p ooff output c s.output)
    (fun s => s.n) ⟨0, Nat.zero_le _, rfl, rfl, rfl, hd, Down2.SameParams.refl d, hh, DownOut.refl⟩
    (Nat.le_refl _) ?_) ?_
  · rintro s ⟨c, hc, hn, hio, hoo, hw, hsp, hh', hD⟩ hcond
    simp only [ne_eq, decide_not, Bool.not_eq_true', decide_eq_false_iff_not] at hcond
    have hord : s.d.order = d.order := hsp.1
    have hus : s.d.useSse = d.useSse := hsp.2.1
    have htp : s.d.taps = d.taps := hsp.2.2.1
    refine sat_mono (Down2.loopBody_sat (p := p + c) (k := k - c) hw hn (by omega) hh' (by omega) ?_ ?_
      (by rw [hD.len]; omega)) ?_
    · intro i hi
      rw [hio, show ioff + 2 * c + 2 * i = ioff + 2 * (c + i) by omega, hE _ (by omega), hord]
      congr 1
      omega
    · intro i hi
      rw [hio, show ioff + 2 * c + 2 * i + 1 = ioff + 2 * (c + i) + 1 by omega, hO _ (by omega), hord]
      congr 1
      omega
    · rintro s' ⟨hw', hsp', hh'', hn', hio', hoo', hD'⟩
      rw [hord, hus, htp] at hD'
      refine ⟨⟨c + min (k - c) 1024, by omega, by omega, by omega, by omega, hw', hsp.trans hsp', ?_, ?_⟩, by omega⟩
      · rwa [← Nat.add_assoc]
      · exact hD.trans (hD'.mono (by omega)) rfl (by omega)
  · rintro s ⟨⟨c, hc, hn, hio, hoo, hw, hsp, hh', hD⟩, hcond⟩
    simp at hcond
    obtain rfl : c = k := by omega
    exact sat_ok ⟨hw, hsp, hh', hD⟩

/-- An odd number of input samples is rejected without any effect. -/
theorem Down2.processBlock_odd {st : Stack F} {d : Down2 F} {input output : Buf F} {ioff ooff n : Nat}
    (h : n % 2 = 1) : Down2.processBlock st d input ioff n output ooff = .ok (d, output) := by
  unfold Down2.processBlock
  rw [if_pos h]
  rfl

end Panda
