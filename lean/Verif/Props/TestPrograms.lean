import Verif.Model.TestPrograms
import Verif.Proofs.EdgeDown
import Verif.Proofs.Query
import Verif.Props.Safety

/-!
# C97: the smaller test programs are free of undefined behaviour
-/

set_option linter.unusedSectionVars false

namespace Panda

open Examples

variable {F : Type} [Zero F] [One F] [Add F] [Sub F] [Mul F] [Sample F]

/-- **C27**, the exact condition for SSE IIR downsamplers: in every state that can occur, `process_block` for a whole number of output
samples (at least one) is defined if and only if two more samples behind the input are readable. -/
theorem C27_false_sse_down_iff (cfg : Config) (hv : cfg.Valid) (hf : cfg.filter = .iir) (hm : cfg.mode = .down)
    (hr : cfg.ratio ≠ 1) (hsse : cfg.iirSse = true) (r : Resampler F) (h : cfg.Reachable r) (st : Stack F)
    (input output : Buf F) (n : Nat) (h0 : 0 < n) (hn : n < 2 ^ 32) (hd : n % cfg.ratio = 0) (ho : n / cfg.ratio ≤ output.len) :
    (∃ q, r.processBlock cfg.bld st input n output = .ok q) ↔ n + 2 ≤ input.len := by
  have hr4 : cfg.ratio = 2 ∨ cfg.ratio = 4 ∨ cfg.ratio = 8 := by
    have := hv.ratio
    simp only [List.mem_cons, List.not_mem_nil, or_false] at this
    rcases this with h | h
    · exact absurd h hr
    · exact h
  constructor
  · rintro ⟨q, hq⟩
    refine processBlock_down_needs hv h hf hm hsse hr ?_ ?_ hq
    · rcases hr4 with h | h | h <;> rw [h] at hd <;> omega
    · rcases hr4 with h | h | h <;> rw [h] at hd <;> omega
  · intro hl
    obtain ⟨r0, xs, zs, -, hfr, hs⟩ := h.state hv
    obtain ⟨q, hq, -⟩ := hs.step hv hfr (c := ⟨st, input, n, output⟩) ⟨hn, by simp only; omega, by
      unfold Config.outLen
      rw [hm]
      exact ho, fun _ => hd, by simp [hf], fun _ _ => Or.inr h0, fun _ _ _ _ _ => hl⟩
    exact ⟨q, hq⟩

example : (cfg .down 8 24 true .iir).Valid ∧ (cfg .down 8 24 true .iir).iirSse = true ∧ 4000 % (cfg .down 8 24 true .iir).ratio = 0 ∧
    ∃ r : Resampler Rat, (cfg .down 8 24 true .iir).Reachable r := by
  have hv : (cfg .down 8 24 true .iir).Valid := ⟨by decide, by decide, by decide⟩
  refine ⟨hv, rfl, rfl, ?_⟩
  obtain ⟨r, h, -⟩ := Resampler.new_fresh (F := Rat) hv
  exact ⟨r, [], [], by simp, by simp [Config.session, h, Resampler.runOps]⟩

end Panda

namespace Panda.Tool

open Panda Examples

variable {F : Type} [Zero F] [One F] [Add F] [Sub F] [Mul F] [Sample F]

/-- A resampler in use. -/
private def Alive (cfg : Config) (r : Resampler F) : Prop := ∃ r0 xs zs, r0.Fresh cfg ∧ r.State cfg r0 xs zs

private theorem new_alive {cfg : Config} (hv : cfg.Valid) : Sat (cfg.new (F := F)) (Alive cfg) :=
  sat_mono (Resampler.new_fresh hv) fun r h => ⟨r, [], [], h, h.state⟩

private theorem Alive.step {cfg : Config} (hv : cfg.Valid) {r : Resampler F} (h : Alive cfg r) (st : Stack F) {input output : Buf F} {n : Nat}
    (h1 : n < 2 ^ 31) (h2 : n ≤ input.len) (h3 : cfg.outLen n ≤ output.len) (h4 : cfg.mode = .down → n % cfg.ratio = 0)
    (h5 : cfg.filter = .iir → cfg.ratio = 2 → 0 < n)
    (h6 : cfg.filter = .iir → cfg.mode = .down → cfg.iirSse = true → n ≠ 0 → 2 ≤ cfg.ratio → n + 2 ≤ input.len) :
    Sat (r.processBlock cfg.bld st input n output) fun q => Alive cfg q.1 ∧ q.2.len = output.len := by
  obtain ⟨r0, xs, zs, h0, hs⟩ := h
  exact sat_mono (hs.step hv h0 (c := ⟨st, input, n, output⟩)
    ⟨by simp only; omega, h2, h3, h4, fun _ _ _ => h1, fun a b => Or.inr (h5 a b), h6⟩) fun q hq => ⟨⟨r0, _, _, h0, hq.1⟩, hq.2.1⟩

private theorem Alive.delay {cfg : Config} (hv : cfg.Valid) {r : Resampler F} (h : Alive cfg r) : ∃ d, r.delay = .ok d := by
  obtain ⟨r0, xs, zs, h0, hs⟩ := h
  exact ⟨_, by rw [hs.evolves.delay, h0.delay hv]⟩

theorem new_reachable {cfg : Config} {r : Resampler F} (h : cfg.new = .ok r) : cfg.Reachable r :=
  ⟨[], [], by simp, by simp [Config.session, h, Resampler.runOps]⟩

/-! ## testaddr -/

private theorem prec_addr : ∀ p ∈ [1, 8, 12, 16, 20, 24], findPrecisionForBits p ∈ [1, 8, 12, 16, 20, 24] := by decide

/-- **C97** testaddr: for every number of samples (the source tries those below 100), all ratios and precisions, the vectors having just
the right sizes, nothing is read or written outside of them. -/
theorem C97_addr (bld : Build) (al : Alloc) (limit : Nat) (hl : limit ≤ 2 ^ 28) (ad : Nat → Nat → Nat × Nat)
    (stk : Nat → Nat → Nat → Stack F × Stack F) : addr bld al limit ad stk = .ok () := by
  have step : ∀ m < limit, ∀ over ∈ [1, 2, 4, 8], ∀ p ∈ [1, 8, 12, 16, 20, 24], ∀ s : Buf F × Buf F, s.1.len = m → s.2.len = m * over →
      Sat (addrStep bld al m over (stk m over) s p) fun s' => s'.1.len = m ∧ s'.2.len = m * over := by
    intro m hm over ho p hp s h1 h2
    have hb : m * over < 2 ^ 31 := by
      simp only [List.mem_cons, List.not_mem_nil, or_false] at ho
      rcases ho with rfl | rfl | rfl | rfl <;> omega
    have hm' : m < 2 ^ 31 := by omega
    have hu : u32 (m * over) = m * over := Nat.mod_eq_of_lt (by omega)
    have vu : (⟨bld, al, .up, over, findPrecisionForBits p, true, .fir⟩ : Config).Valid := ⟨ho, prec_addr p hp, by simp⟩
    have vd : (⟨bld, al, .down, over, findPrecisionForBits p, true, .fir⟩ : Config).Valid := ⟨ho, prec_addr p hp, by simp⟩
    have ho0 : 0 < over := by
      simp only [List.mem_cons, List.not_mem_nil, or_false] at ho
      omega
    unfold addrStep
    refine sat_bind (new_alive vu) fun ups au => ?_
    refine sat_bind (new_alive vd) fun downs ad => ?_
    refine sat_bind (au.step vu (stk m over p).1 hm' (by omega) (by simp [Config.outLen, h2]) (by simp) (by simp) (by simp)) ?_
    rintro ⟨u, out⟩ ⟨-, hout⟩
    simp only at hout ⊢
    rw [hu]
    refine sat_bind (ad.step vd (stk m over p).2 hb (by omega) (by
      simp only [Config.outLen]
      rw [Nat.mul_div_cancel _ ho0, h1]
      exact Nat.le_refl _) (by simp) (by simp) (by simp)) ?_
    rintro ⟨d, inp⟩ ⟨-, hin⟩
    exact sat_ok ⟨hin.trans h1, hout.trans h2⟩
  have ratio : ∀ m < limit, ∀ over ∈ [1, 2, 4, 8], addrRatio bld al m (ad m) (stk m) over = .ok () := by
    intro m hm over ho
    have hu : u32 (m * over) = m * over := by
      refine Nat.mod_eq_of_lt ?_
      simp only [List.mem_cons, List.not_mem_nil, or_false] at ho
      rcases ho with rfl | rfl | rfl | rfl <;> omega
    have fold : ∀ l : List Nat, (∀ p ∈ l, p ∈ [1, 8, 12, 16, 20, 24]) → ∀ s : Buf F × Buf F, s.1.len = m → s.2.len = m * over →
        Sat (l.foldlM (addrStep bld al m over (stk m over)) s) fun _ => True := by
      intro l
      induction l with
      | nil => exact fun _ s _ _ => sat_ok trivial
      | cons p l ih =>
        intro hl s h1 h2
        rw [List.foldlM_cons]
        exact sat_bind (step m hm over ho p (hl p (by simp)) s h1 h2) fun s' h => ih (fun q hq => hl q (by simp [hq])) s' h.1 h.2
    obtain ⟨s, hs, -⟩ := fold [1, 8, 12, 16, 20, 24] (fun _ h => h) (⟨(ad m over).1, m, fun _ => 0⟩, ⟨(ad m over).2, u32 (m * over), fun _ => 0⟩)
      rfl hu
    unfold addrRatio
    rw [hs]
    rfl
  have all : ∀ n ≤ limit, addr bld al n ad stk = .ok () := by
    intro n hn
    induction n with
    | zero => rfl
    | succ n ih =>
      have := ih (by omega)
      unfold addr at this ⊢
      rw [forN, this, ok_bind]
      simp only [List.foldlM_cons, List.foldlM_nil, ratio n (by omega) 1 (by simp), ratio n (by omega) 2 (by simp),
        ratio n (by omega) 4 (by simp), ratio n (by omega) 8 (by simp), ok_bind, pure_eq_ok]
  exact all limit (Nat.le_refl _)

example : addr (F := Rat) x86 someAlloc 100 (fun m over => (4 * m, 4 * over)) (fun _ _ _ => (someStack, someStack)) = .ok () :=
  C97_addr x86 someAlloc 100 (by decide) _ _

/-! ## testmultiperf and testmultidelay -/

/-- Arguments that make sense: a ratio the library supports, and not IIR filters with 1 bit. -/
structure Multi.Ok (t : Multi) : Prop where
  ratio : t.ratio ∈ [1, 2, 4, 8]
  bits : t.kind = .fir ∨ findPrecisionForBits t.bits ≠ 1

private theorem prec_mem (b : Nat) : findPrecisionForBits b ∈ [1, 8, 12, 16, 20, 24] := by
  unfold findPrecisionForBits
  repeat' split
  all_goals simp

private theorem Multi.Ok.valid {t : Multi} (h : t.Ok) (m : Mode) : (t.cfg m).Valid := by
  refine ⟨h.ratio, prec_mem _, fun hf => ?_⟩
  rcases h.bits with hk | hb
  · simp [Multi.cfg, hk] at hf
  · exact hb

private theorem Multi.Ok.le {t : Multi} (h : t.Ok) : 1 ≤ t.ratio ∧ t.ratio ≤ 8 := by
  have := h.ratio
  simp only [List.mem_cons, List.not_mem_nil, or_false] at this
  omega

private theorem Multi.Ok.assert {t : Multi} (h : t.Ok) : t.bld.assert (t.ratio ≤ 8) = .ok () := by
  simp [Build.assert, h.le.2]

/-- The vectorised IIR classes are used. -/
def Multi.Sse (t : Multi) : Prop := t.kind = .iirSse ∧ t.bld.sse = true

private theorem Multi.sse {t : Multi} {m : Mode} (hf : (t.cfg m).filter = .iir) (hs : (t.cfg m).iirSse = true) : t.Sse := by
  unfold Multi.cfg Config.iirSse at *
  simp only at *
  cases hk : t.kind <;> simp [hk] at hf hs
  exact ⟨hk, hs⟩

private theorem Multi.sse' {t : Multi} (h : t.Sse) (m : Mode) : (t.cfg m).filter = .iir ∧ (t.cfg m).iirSse = true := by
  unfold Multi.cfg Config.iirSse
  simp [h.1, h.2]

/-- **C97 (partial)** testmultiperf (`up`, `down` or `over`, that is, both): no undefined behaviour, for all ratios the library supports, all
numbers of bits, any number of iterations. Missing: the combination of `iir-sse`, downsampling and ratio 8, see `C97_false_multiperf`;
1 bit with IIR filters, see `C97_false_linear`. -/
theorem C97_multiperf_partial (t : Multi) (ht : t.Ok) (up down : Bool) (h8 : ¬ (t.Sse ∧ down = true ∧ t.ratio = 8)) (ia oa : Nat)
    (stk : Nat → Stack F × Stack F) (iters : Nat) : ∃ s, multiPerf t up down ia oa stk iters = .ok s := by
  have hle := ht.le
  suffices h : Sat (multiPerf t up down ia oa stk iters) fun _ => True from let ⟨s, hs, _⟩ := h; ⟨s, hs⟩
  unfold multiPerf
  refine sat_bind (new_alive (ht.valid .up)) fun ups au => ?_
  refine sat_bind (new_alive (ht.valid .down)) fun downs ad => ?_
  rw [ht.assert, ok_bind]
  refine sat_mono (sat_forN (fun _ (s : PerfSt F) => Alive (t.cfg .up) s.ups ∧ Alive (t.cfg .down) s.downs ∧ s.inp.len = 128 ∧ s.out.len = 1024)
    ⟨au, ad, rfl, rfl⟩ ?_) fun _ _ => trivial
  rintro i - s ⟨hu, hd, hi, ho⟩
  unfold multiPerfStep perfDown perfUp
  refine sat_bind (P := fun s : PerfSt F => Alive (t.cfg .up) s.ups ∧ Alive (t.cfg .down) s.downs ∧ s.inp.len = 128 ∧ s.out.len = 1024) ?_ ?_
  · cases up
    · exact sat_ok ⟨hu, hd, hi, ho⟩
    · refine sat_bind (hu.step (ht.valid .up) (stk i).1 (by omega) (by omega) (by
        show 128 * t.ratio ≤ _
        omega) (by simp [Multi.cfg]) (by simp) (by simp [Multi.cfg])) ?_
      rintro ⟨r, o⟩ ⟨h1, h2⟩
      exact sat_ok ⟨h1, hd, hi, h2.trans ho⟩
  · rintro s ⟨hu, hd, hi, ho⟩
    cases down
    · exact sat_ok ⟨hu, hd, hi, ho⟩
    · refine sat_bind (hd.step (ht.valid .down) (stk i).2 (by omega) (by omega) (by
        show 128 * t.ratio / t.ratio ≤ _
        rw [Nat.mul_div_cancel _ (by omega)]
        omega) (by
        intro _
        exact Nat.mul_mod_left _ _) (by omega) (by
        intro hf _ hs _ _
        have : t.ratio ≠ 8 := fun h => h8 ⟨Multi.sse hf hs, rfl, h⟩
        have hr := ht.ratio
        simp only [List.mem_cons, List.not_mem_nil, or_false] at hr
        omega)) ?_
      rintro ⟨r, o⟩ ⟨h1, h2⟩
      exact sat_ok ⟨hu, h1, h2.trans hi, ho⟩

example : (⟨x86, someAlloc, 4, 24, .iirSse⟩ : Multi).Ok ∧
    ¬ ((⟨x86, someAlloc, 4, 24, .iirSse⟩ : Multi).Sse ∧ true = true ∧ (⟨x86, someAlloc, 4, 24, .iirSse⟩ : Multi).ratio = 8) :=
  ⟨⟨by decide, by decide⟩, by simp⟩

private theorem forN_ok_one {σ : Type} {body : Nat → σ → Res σ} {n : Nat} {s s' : σ} (hn : 0 < n) (h : forN body n s = .ok s') :
    ∃ s1, body 0 s = .ok s1 := by
  induction n generalizing s' with
  | zero => omega
  | succ n ih =>
    rw [forN] at h
    obtain ⟨a, ha, hb⟩ := bind_ok h
    cases n with
    | zero =>
      cases ha
      exact ⟨s', hb⟩
    | succ n => exact ih (by omega) ha

/-- **C97 is false** of testmultiperf: `testmultiperf down 8 <bits> iir-sse` and `testmultiperf over 8 <bits> iir-sse` read behind the end of
the array `out`. -/
theorem C97_false_multiperf (t : Multi) (ht : t.Ok) (hs : t.Sse) (h8 : t.ratio = 8) (up : Bool) (ia oa : Nat)
    (stk : Nat → Stack F × Stack F) (iters : Nat) (hi : 0 < iters) : ¬ ∃ s, multiPerf t up true ia oa stk iters = .ok s := by
  rintro ⟨s, h⟩
  unfold multiPerf at h
  obtain ⟨ups, hu, h⟩ := bind_ok h
  obtain ⟨downs, hd, h⟩ := bind_ok h
  obtain ⟨_, -, h⟩ := bind_ok h
  obtain ⟨s1, h⟩ := forN_ok_one hi h
  unfold multiPerfStep perfDown perfUp at h
  obtain ⟨s2, h2, h⟩ := bind_ok h
  have hs2 : s2.downs = downs ∧ s2.out.len = 1024 := by
    cases up
    · cases h2
      exact ⟨rfl, rfl⟩
    · obtain ⟨a, au⟩ := new_alive (F := F) (ht.valid .up)
      rw [hu] at au
      obtain ⟨⟨⟩, au⟩ := au
      obtain ⟨q, hq, h2⟩ := bind_ok h2
      cases h2
      obtain ⟨q', hq', -, hl⟩ := au.step (ht.valid .up) (stk 0).1 (input := ⟨ia, 128, fun _ => 0⟩) (output := ⟨oa, 128 * 8, fun _ => 0⟩)
        (n := 128) (by omega) (by simp) (by
          show 128 * t.ratio ≤ _
          simp [h8]) (by simp [Multi.cfg]) (by simp) (by simp [Multi.cfg])
      have : q' = q := by
        have h1 : (.ok q' : Res _) = .ok q := hq'.symm.trans hq
        cases h1
        rfl
      subst this
      exact ⟨rfl, hl⟩
  obtain ⟨q, hq, -⟩ := bind_ok h
  have := processBlock_down_needs (ht.valid .down) (new_reachable hd) (Multi.sse' hs .down).1 rfl (Multi.sse' hs .down).2
    (by
      show t.ratio ≠ 1
      omega) (n := 128 * t.ratio) (by omega) (by omega) (by rw [← hs2.1]; exact hq)
  omega

example : (⟨x86, someAlloc, 8, 16, .iirSse⟩ : Multi).Ok ∧ (⟨x86, someAlloc, 8, 16, .iirSse⟩ : Multi).Sse :=
  ⟨⟨by decide, by decide⟩, rfl, rfl⟩

/-- **C97 is false** for IIR filters with less than 2 bits: null pointers are dereferenced. -/
theorem C97_false_linear (t : Multi) (hr : t.ratio ∈ [2, 4, 8]) (hk : t.kind ≠ .fir) (hb : t.bits ≤ 1) (up down : Bool)
    (hud : up = true ∨ down = true) (ia oa : Nat) (stk : Nat → Stack F × Stack F) (iters : Nat) (hi : 0 < iters) :
    ¬ ∃ s, multiPerf t up down ia oa stk iters = .ok s := by
  rintro ⟨s, h⟩
  have hp : findPrecisionForBits t.bits = 1 := by
    have : ∀ b ≤ 1, findPrecisionForBits b = 1 := by decide
    exact this _ hb
  have hr' : t.ratio = 2 ∨ t.ratio = 4 ∨ t.ratio = 8 := by simpa using hr
  have key : ∀ m, ∃ r : Resampler F, (t.cfg m).new = .ok r ∧ ∀ (st : Stack F) (input output : Buf F) (n : Nat), 0 < n →
      r.processBlock t.bld st input n output = .error .nullDeref := fun m =>
    C32_false_iir_linear (t.cfg m) (by simp [Multi.cfg, hk]) hp hr'
  unfold multiPerf at h
  obtain ⟨ups, hu, h⟩ := bind_ok h
  obtain ⟨downs, hd, h⟩ := bind_ok h
  obtain ⟨_, -, h⟩ := bind_ok h
  obtain ⟨s1, h⟩ := forN_ok_one hi h
  obtain ⟨u, hu', ku⟩ := key .up
  obtain ⟨d, hd', kd⟩ := key .down
  rw [hu] at hu'
  rw [hd] at hd'
  cases hu'
  cases hd'
  unfold multiPerfStep perfDown perfUp at h
  cases up
  · have : down = true := by simpa using hud
    subst this
    simp only [Bool.false_eq_true, if_false, pure_eq_ok, ok_bind, if_true] at h
    rw [kd _ _ _ _ (by omega)] at h
    cases h
  · simp only [if_true] at h
    rw [ku _ _ _ _ (by omega)] at h
    cases h

example : (⟨x86, someAlloc, 4, 1, .iir⟩ : Multi).ratio ∈ [2, 4, 8] ∧ (⟨x86, someAlloc, 4, 1, .iir⟩ : Multi).kind ≠ .fir :=
  ⟨by decide, by decide⟩

theorem readAll_sat {out : Buf F} {n : Nat} (h : n ≤ out.len) : Sat (readAll out n) fun l => l = out.toList n := by
  have : ∀ k ≤ n, readAll out k = .ok (out.toList k) := by
    intro k hk
    induction k with
    | zero => rfl
    | succ k ih =>
      have := ih (by omega)
      unfold readAll at this ⊢
      rw [forN, this, ok_bind, Buf.rd, if_pos (by omega)]
      simp [Buf.toList, List.range_succ, pure_eq_ok, ok_bind]
  exact ⟨_, this n (Nat.le_refl _), rfl⟩

/-- **C97 (partial)** testmultidelay: no undefined behaviour, for all ratios the library supports and all numbers of bits. Missing: `iir-sse`
for `down`, and for `over` with ratio 8, see `C97_false_multidelay`. -/
theorem C97_multidelay_partial (t : Multi) (ht : t.Ok) (dir : Dir)
    (hs : t.Sse → dir = .up ∨ t.ratio = 1 ∨ (dir = .over ∧ t.ratio ≠ 8)) (sig : Nat → F) (ia oa ta : Nat)
    (stk : Stack F × Stack F) : ∃ q, multiDelay t dir sig ia oa ta stk = .ok q := by
  have hle := ht.le
  suffices h : Sat (multiDelay t dir sig ia oa ta stk) fun _ => True from let ⟨s, hs, _⟩ := h; ⟨s, hs⟩
  unfold multiDelay
  refine sat_bind (new_alive (ht.valid .up)) fun ups au => ?_
  refine sat_bind (new_alive (ht.valid .down)) fun downs ad => ?_
  rw [ht.assert, ok_bind]
  have hr := ht.ratio
  simp only [List.mem_cons, List.not_mem_nil, or_false] at hr
  have hmod : 1024 % t.ratio = 0 := by rcases hr with h | h | h | h <;> rw [h]
  cases dir
  · refine sat_bind (au.step (ht.valid .up) stk.1 (by omega) (by simp) (by
        show 1024 * t.ratio ≤ _
        simp only
        omega) (by simp [Multi.cfg]) (by simp) (by simp [Multi.cfg])) ?_
    rintro ⟨r, o⟩ ⟨h1, h2⟩
    obtain ⟨d, hd⟩ := h1.delay (ht.valid .up)
    simp only [hd, ok_bind]
    refine sat_bind (readAll_sat (by simp only at h2; rw [h2]; omega)) fun _ _ => sat_ok trivial
  · refine sat_bind (ad.step (ht.valid .down) stk.1 (by omega) (by simp) (by
        show 1024 / t.ratio ≤ _
        have := Nat.div_le_self 1024 t.ratio
        simp only
        omega) (fun _ => hmod) (by simp) (by
        intro hf _ h _ h2
        rcases hs (Multi.sse hf h) with h | h | h
        · cases h
        · have : 2 ≤ t.ratio := h2
          omega
        · cases h.1)) ?_
    rintro ⟨r, o⟩ ⟨h1, h2⟩
    obtain ⟨d, hd⟩ := h1.delay (ht.valid .down)
    simp only [hd, ok_bind]
    refine sat_bind (readAll_sat (by
      have := Nat.div_le_self 1024 t.ratio
      simp only at h2
      rw [h2]
      omega)) fun _ _ => sat_ok trivial
  · obtain ⟨du, hdu⟩ := au.delay (ht.valid .up)
    obtain ⟨dd, hdd⟩ := ad.delay (ht.valid .down)
    simp only [hdu, hdd, ok_bind]
    refine sat_bind (au.step (ht.valid .up) stk.1 (by omega) (by simp) (by
        show 1024 * t.ratio ≤ _
        simp only
        omega) (by simp [Multi.cfg]) (by simp) (by simp [Multi.cfg])) ?_
    rintro ⟨r, o⟩ ⟨h1, h2⟩
    simp only at h2 ⊢
    refine sat_bind (ad.step (ht.valid .down) stk.2 (by omega) (by omega) (by
        show 1024 * t.ratio / t.ratio ≤ _
        rw [Nat.mul_div_cancel _ (by omega)]
        simp) (fun _ => Nat.mul_mod_left _ _) (by omega) (by
        intro hf _ h _ h2
        have : 2 ≤ t.ratio := h2
        rcases hs (Multi.sse hf h) with h | h | h
        · cases h
        · omega
        · omega)) ?_
    rintro ⟨r', o'⟩ ⟨h1', h2'⟩
    refine sat_bind (readAll_sat (by simp only at h2' ⊢; rw [h2']; omega)) fun _ _ => sat_ok trivial

example : (⟨x86, someAlloc, 4, 24, .iirSse⟩ : Multi).Ok ∧ (Dir.over = .up ∨ 4 = 1 ∨ (Dir.over = .over ∧ 4 ≠ 8)) :=
  ⟨⟨by decide, by decide⟩, by decide⟩

/-- **C97 is false** of testmultidelay: `testmultidelay down <ratio> <bits> iir-sse` and `testmultidelay over 8 <bits> iir-sse` read behind the
end of an array. -/
theorem C97_false_multidelay (t : Multi) (ht : t.Ok) (hs : t.Sse) (h1 : t.ratio ≠ 1) (dir : Dir)
    (hd : dir = .down ∨ (dir = .over ∧ t.ratio = 8)) (sig : Nat → F) (ia oa ta : Nat) (stk : Stack F × Stack F) :
    ¬ ∃ q, multiDelay t dir sig ia oa ta stk = .ok q := by
  rintro ⟨q, h⟩
  unfold multiDelay at h
  obtain ⟨ups, hu, h⟩ := bind_ok h
  obtain ⟨downs, hdn, h⟩ := bind_ok h
  obtain ⟨_, -, h⟩ := bind_ok h
  rcases hd with rfl | ⟨rfl, h8⟩
  · obtain ⟨p, hp, -⟩ := bind_ok h
    have := processBlock_down_needs (ht.valid .down) (new_reachable hdn) (Multi.sse' hs .down).1 rfl (Multi.sse' hs .down).2 h1
      (by omega) (by omega) hp
    simp at this
  · obtain ⟨_, -, h⟩ := bind_ok h
    obtain ⟨_, -, h⟩ := bind_ok h
    obtain ⟨q, hq, h⟩ := bind_ok h
    obtain ⟨p, hp, -⟩ := bind_ok h
    have := processBlock_down_needs (ht.valid .down) (new_reachable hdn) (Multi.sse' hs .down).1 rfl (Multi.sse' hs .down).2 h1
      (by omega) (by omega) hp
    obtain ⟨a, au⟩ := new_alive (F := F) (ht.valid .up)
    rw [hu] at au
    obtain ⟨⟨⟩, au⟩ := au
    obtain ⟨q', hq', -, hl⟩ := au.step (ht.valid .up) stk.1 (input := ⟨ia, 1024, sig⟩) (output := ⟨ta, 1024 * 8, fun _ => 0⟩)
      (n := 1024) (by omega) (by simp) (by
        show 1024 * t.ratio ≤ _
        simp [h8]) (by simp [Multi.cfg]) (by simp) (by simp [Multi.cfg])
    have e : q' = q := by
      have h1 : (.ok q' : Res _) = .ok q := hq'.symm.trans hq
      cases h1
      rfl
    subst e
    rw [hl] at this
    simp only at this
    omega

example : (⟨x86, someAlloc, 2, 16, .iirSse⟩ : Multi).Ok ∧ (⟨x86, someAlloc, 2, 16, .iirSse⟩ : Multi).Sse ∧
    (⟨x86, someAlloc, 2, 16, .iirSse⟩ : Multi).ratio ≠ 1 :=
  ⟨⟨by decide, by decide⟩, ⟨rfl, rfl⟩, by decide⟩

end Panda.Tool
