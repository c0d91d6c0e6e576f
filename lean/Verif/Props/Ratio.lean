import Verif.Props.ExactContract
import Verif.Proofs.Query

/-!
# C100: ratios that are not supported

`Resampler2` is documented for ratios 1, 2, 4 and 8. `PANDA_RESAMPLER_CHECK` prints a message for other ratios and execution continues.
-/

set_option linter.unusedSectionVars false

namespace Panda

open Examples

variable {F : Type} [Zero F] [One F] [Add F] [Sub F] [Mul F] [Sample F]

/-- The largest supported ratio not above `ratio` (1 for 0). -/
def supported (ratio : Nat) : Nat := if ratio < 2 then 1 else if ratio < 4 then 2 else if ratio < 8 then 4 else 8

/-- The same arguments, with the next lower supported ratio. -/
def Config.lower (cfg : Config) : Config := { cfg with ratio := supported cfg.ratio }

private theorem supported_mem (R : Nat) : supported R ∈ [1, 2, 4, 8] := by
  unfold supported
  repeat' split
  all_goals simp

private theorem le_supported {k : Nat} (hk : k ∈ [2, 4, 8]) (R : Nat) : k ≤ supported R ↔ k ≤ R := by
  simp only [List.mem_cons, List.not_mem_nil, or_false] at hk
  unfold supported
  repeat' split
  all_goals rcases hk with rfl | rfl | rfl <;> omega

private theorem initStage_lower (cfg : Config) (n : Nat) {k : Nat} (hk : k ∈ [2, 4, 8]) :
    initStage (F := F) cfg.bld cfg.al cfg.mode cfg.ratio cfg.precision cfg.useSse cfg.filter n k =
      initStage cfg.bld cfg.al cfg.mode (supported cfg.ratio) cfg.precision cfg.useSse cfg.filter n k := by
  unfold initStage
  have := le_supported hk cfg.ratio
  by_cases h : k ≤ cfg.ratio
  · rw [if_neg (by omega), if_neg (by omega)]
  · rw [if_pos (by omega), if_pos (by omega)]

/-- The object constructed is that of the next lower supported ratio, except for the number stored. -/
theorem C100_new_partial (cfg : Config) : cfg.new (F := F) = (fun r => { r with ratio := cfg.ratio }) <$> cfg.lower.new := by
  unfold Config.new Resampler.new Config.lower
  simp only [initStage_lower cfg 0 (k := 2) (by simp), initStage_lower cfg 1 (k := 4) (by simp), initStage_lower cfg 2 (k := 8) (by simp)]
  generalize initStage (F := F) cfg.bld cfg.al cfg.mode (supported cfg.ratio) cfg.precision cfg.useSse cfg.filter 0 2 = a
  generalize initStage (F := F) cfg.bld cfg.al cfg.mode (supported cfg.ratio) cfg.precision cfg.useSse cfg.filter 1 4 = b
  generalize initStage (F := F) cfg.bld cfg.al cfg.mode (supported cfg.ratio) cfg.precision cfg.useSse cfg.filter 2 8 = c
  cases a <;> try rfl
  cases b <;> try rfl
  cases c <;> rfl

/-- A ratio of 11 is stored in an object with the stages of ratio 8. -/
example : (cfg .down 11 24 true .fir).lower = cfg .down 8 24 true .fir := rfl

private theorem new_lower {cfg : Config} (hp : cfg.precision ∈ [1, 8, 12, 16, 20, 24]) (hi : cfg.filter = .iir → cfg.precision ≠ 1) :
    cfg.lower.Valid ∧ ∃ r0 : Resampler F, cfg.lower.new = .ok r0 ∧ r0.Fresh cfg.lower ∧ cfg.new = .ok { r0 with ratio := cfg.ratio } := by
  have hv : cfg.lower.Valid := ⟨supported_mem _, hp, hi⟩
  obtain ⟨r0, h1, h2⟩ := Resampler.new_fresh (F := F) hv
  refine ⟨hv, r0, h1, h2, ?_⟩
  rw [C100_new_partial, h1]
  rfl

private theorem whileF_zero {bld : Build} {st : Stack F} {input : Buf F} (m : Nat) {s : RLoop F} (h : s.n = 0) :
    whileF (fun s : RLoop F => s.n ≠ 0) (Resampler.loopBody bld st input) m s = .ok s := by
  cases m <;> simp [whileF, h, pure_eq_ok]

private theorem delay_lower {r : Resampler F} {R : Nat} (e : r.ratio = supported R) : Resampler.delay { r with ratio := R } = r.delay := by
  have g2 := le_supported (k := 2) (by simp) R
  have g4 := le_supported (k := 4) (by simp) R
  have g8 := le_supported (k := 8) (by simp) R
  unfold Resampler.delay
  rw [e]
  simp only [ge_iff_le, g2, g4, g8]

private theorem reset_lower {r r0 : Resampler F} {R : Nat} (e : r.ratio = supported R) (h : r.reset = .ok r0) :
    Resampler.reset { r with ratio := R } = .ok { r0 with ratio := R } := by
  have g2 := le_supported (k := 2) (by simp) R
  have g4 := le_supported (k := 4) (by simp) R
  have g8 := le_supported (k := 8) (by simp) R
  unfold Resampler.reset at h ⊢
  rw [e] at h
  simp only [ge_iff_le, g2, g4, g8] at h ⊢
  obtain ⟨x2, e2, h⟩ := bind_ok h
  obtain ⟨x4, e4, h⟩ := bind_ok h
  obtain ⟨x8, e8, h⟩ := bind_ok h
  simp only [e2, e4, e8, ok_bind]
  rw [← Except.ok.inj h]
  rfl

/-- **C100 (partial)** Constructing a resampler with any ratio is defined behaviour, as are `delay()` (the delay of the next lower
supported ratio), `reset()`, `order()` and `sse_enabled()` (ratios above 1) and (not for ratios 1, 2) processing no samples.
Missing: processing samples, see `C100_false_*`. -/
theorem C100_construct_partial (cfg : Config) (hp : cfg.precision ∈ [1, 8, 12, 16, 20, 24]) (hi : cfg.filter = .iir → cfg.precision ≠ 1) :
    ∃ r : Resampler F, cfg.new = .ok r ∧ r.ratio = cfg.ratio ∧ r.delay = .ok cfg.lower.totalDelay ∧ r.reset = .ok r ∧
      (2 ≤ cfg.ratio → r.order = .ok (cfg.stageOrder 2) ∧ r.sseEnabled = .ok cfg.stageSse) ∧
      (cfg.ratio ∉ [1, 2] → ∀ st input output, r.processBlock cfg.bld st input 0 output = .ok (r, output)) := by
  obtain ⟨hv, r0, h1, h2, h3⟩ := new_lower (F := F) hp hi
  refine ⟨_, h3, rfl, ?_, reset_lower h2.ratio h2.reset, fun hr => ?_, ?_⟩
  · rw [← h2.delay hv]
    exact delay_lower h2.ratio
  · have hr0 : cfg.lower.Reachable r0 := ⟨[], [], by simp, by simp [Config.session, h1, Resampler.runOps]⟩
    have hl := (le_supported (k := 2) (by simp) cfg.ratio).2 hr
    exact ⟨hr0.order hv hl, hr0.sseEnabled hv hl⟩
  · intro hr st input output
    simp only [List.mem_cons, List.not_mem_nil, or_false] at hr
    unfold Resampler.processBlock
    rw [if_neg (by simp only; omega), if_neg (by simp only; omega)]
    rfl

example : (cfg .up 0 16 true .iir).precision ∈ [1, 8, 12, 16, 20, 24] ∧ (cfg .up 0 16 true .iir).ratio ∉ [1, 2] := by decide

/-- After samples have been processed (`C100_like_8_partial`), `delay()` is the same and `reset()` restores the object constructed. -/
theorem C100_reset_partial (cfg : Config) (hp : cfg.precision ∈ [1, 8, 12, 16, 20, 24]) (hi : cfg.filter = .iir → cfg.precision ≠ 1)
    (r : Resampler F) (h : cfg.lower.Reachable r) :
    Resampler.delay { r with ratio := cfg.ratio } = .ok cfg.lower.totalDelay ∧ Resampler.reset { r with ratio := cfg.ratio } = cfg.new := by
  obtain ⟨hv, r0, h1, h2, h3⟩ := new_lower (F := F) hp hi
  have e := h.ratio hv
  rw [delay_lower e]
  refine ⟨h.delay hv, ?_⟩
  obtain ⟨r1, xs, zs, hn, hf, hs⟩ := h.state hv
  rw [h1] at hn
  cases hn
  rw [h3]
  exact reset_lower e (Resampler.reset_evolves hf hs.evolves)

example : (cfg .up 12 16 true .iir).precision ∈ [1, 8, 12, 16, 20, 24] ∧ ∃ r : Resampler Rat, (cfg .up 12 16 true .iir).lower.Reachable r := by
  refine ⟨by decide, ?_⟩
  obtain ⟨-, r0, h1, -, -⟩ := new_lower (F := Rat) (cfg := cfg .up 12 16 true .iir) (by decide) (by decide)
  exact ⟨r0, [], [], by simp, by simp [Config.session, h1, Resampler.runOps]⟩

private theorem deref_none {β : Type} (f : Impl F → Res β) : (deref (none : Option (Impl F)) >>= f) = .error .nullDeref := rfl

private theorem loop_null {bld : Build} {st : Stack F} {r : Resampler F} (hr : r.ratio ∉ [1, 2, 4]) (h8 : r.implX8 = none)
    (input output : Buf F) {n : Nat} (hn : 0 < n) : ¬ ∃ q, r.processBlock bld st input n output = .ok q := by
  simp only [List.mem_cons, List.not_mem_nil, or_false] at hr
  rintro ⟨q, hq⟩
  unfold Resampler.processBlock at hq
  rw [if_neg (by omega), if_neg (by omega)] at hq
  obtain ⟨m, rfl⟩ : ∃ m, n = m + 1 := ⟨n - 1, by omega⟩
  obtain ⟨s, hs, -⟩ := bind_ok hq
  rw [whileF, if_pos (by simp)] at hs
  obtain ⟨s', hs, -⟩ := bind_ok hs
  unfold Resampler.loopBody at hs
  cases hm : r.mode with
  | up =>
    simp only [hm] at hs
    rw [if_neg (by omega)] at hs
    obtain ⟨_, -, hs⟩ := bind_ok hs
    obtain ⟨_, -, hs⟩ := bind_ok hs
    obtain ⟨_, -, hs⟩ := bind_ok hs
    obtain ⟨_, -, hs⟩ := bind_ok hs
    simp only [h8, deref_none] at hs
    cases hs
  | down =>
    simp only [hm] at hs
    rw [if_neg (by omega)] at hs
    simp only [h8, deref_none] at hs
    cases hs

/-- **C100 is false** for the ratios 0, 3, 5, 6, 7: the first sample processed makes `process_block` dereference a null pointer,
whatever the buffers. -/
theorem C100_false_null (cfg : Config) (hr : cfg.ratio ∈ [0, 3, 5, 6, 7]) (r : Resampler F) (h : cfg.new = .ok r) (st : Stack F)
    (input output : Buf F) (n : Nat) (hn : 0 < n) : ¬ ∃ q, r.processBlock cfg.bld st input n output = .ok q := by
  simp only [List.mem_cons, List.not_mem_nil, or_false] at hr
  unfold Config.new Resampler.new at h
  obtain ⟨x2, -, h⟩ := bind_ok h
  obtain ⟨x4, -, h⟩ := bind_ok h
  obtain ⟨x8, e8, h⟩ := bind_ok h
  unfold initStage at e8
  rw [if_pos (by omega)] at e8
  cases e8
  cases h
  exact loop_null (by simp only [List.mem_cons, List.not_mem_nil, or_false]; omega) rfl _ _ hn

/-- The objects exist. -/
example : ∃ r : Resampler Rat, (cfg .up 3 24 true .fir).new = .ok r := by
  obtain ⟨r, h, -⟩ := C100_construct_partial (F := Rat) (cfg .up 3 24 true .fir) (by decide) (by decide)
  exact ⟨r, h⟩

private theorem body_ratio (bld : Build) (st : Stack F) (input : Buf F) (s : RLoop F) (R : Nat) (h4 : s.r.ratio ≠ 4) (hR : R ≠ 4) :
    Resampler.loopBody bld st input { s with r := { s.r with ratio := R } } =
      (fun s' : RLoop F => { s' with r := { s'.r with ratio := R }, ooff := match s.r.mode with
        | .up => s.ooff + u32 (min 1024 s.n * R)
        | .down => s.ooff + min 1024 s.n / R }) <$> Resampler.loopBody bld st input s := by
  unfold Resampler.loopBody
  cases hm' : s.r.mode with
  | up =>
    simp only [hm', if_neg h4, if_neg hR]
    cases deref s.r.implX2 <;> try rfl
    rename_i i2
    simp only [ok_bind]
    cases i2.processBlock bld st input s.ioff (min 1024 s.n) { addr := st.tmpAddr, len := 1024 * 4, get := st.junk } 0 <;> try rfl
    rename_i q2
    simp only [ok_bind]
    cases deref s.r.implX4 <;> try rfl
    rename_i i4
    simp only [ok_bind]
    cases i4.processBlock bld st q2.2 0 (min 1024 s.n * 2) { addr := st.tmp2Addr, len := 1024 * 4, get := st.junk } 0 <;> try rfl
    rename_i q4
    simp only [ok_bind]
    cases deref s.r.implX8 <;> try rfl
    rename_i i8
    simp only [ok_bind]
    cases i8.processBlock bld st q4.2 0 (min 1024 s.n * 4) s.output s.ooff <;> rfl
  | down =>
    simp only [hm', if_neg h4, if_neg hR]
    cases deref s.r.implX8 <;> try rfl
    rename_i i8
    simp only [ok_bind]
    cases i8.processBlock bld st input s.ioff (min 1024 s.n) { addr := st.tmpAddr, len := 1024 * 4, get := st.junk } 0 <;> try rfl
    rename_i q8
    simp only [ok_bind]
    cases deref s.r.implX4 <;> try rfl
    rename_i i4
    simp only [ok_bind]
    cases i4.processBlock bld st q8.2 0 (min 1024 s.n / 2) { addr := st.tmp2Addr, len := 1024 * 4, get := st.junk } 0 <;> try rfl
    rename_i q4
    simp only [ok_bind]
    cases deref s.r.implX2 <;> try rfl
    rename_i i2
    simp only [ok_bind]
    cases i2.processBlock bld st q4.2 0 (min 1024 s.n / 4) s.output s.ooff <;> rfl

private theorem body_n (bld : Build) (st : Stack F) (input : Buf F) (s : RLoop F) :
    Rets (Resampler.loopBody bld st input s) fun s' => s'.n = s.n - min 1024 s.n := by
  unfold Resampler.loopBody
  simp only
  split <;> split
  · exact post_bind (post_any _) fun _ _ => post_bind (post_any _) fun _ _ => post_bind (post_any _) fun _ _ =>
      post_bind (post_any _) fun _ _ => post_ok rfl
  · exact post_bind (post_any _) fun _ _ => post_bind (post_any _) fun _ _ => post_bind (post_any _) fun _ _ =>
      post_bind (post_any _) fun _ _ => post_bind (post_any _) fun _ _ => post_bind (post_any _) fun _ _ => post_ok rfl
  · exact post_bind (post_any _) fun _ _ => post_bind (post_any _) fun _ _ => post_bind (post_any _) fun _ _ =>
      post_bind (post_any _) fun _ _ => post_ok rfl
  · exact post_bind (post_any _) fun _ _ => post_bind (post_any _) fun _ _ => post_bind (post_any _) fun _ _ =>
      post_bind (post_any _) fun _ _ => post_bind (post_any _) fun _ _ => post_bind (post_any _) fun _ _ => post_ok rfl

/-- Ratios above 8, at most 1024 samples: exactly what happens for ratio 8. -/
theorem C100_like_8_partial (bld : Build) (st : Stack F) (r : Resampler F) (R : Nat) (h8 : r.ratio = 8) (hR : 8 < R) (input output : Buf F)
    (n : Nat) (hn : n ≤ 1024) :
    Resampler.processBlock bld st { r with ratio := R } input n output =
      (fun q => ({ q.1 with ratio := R }, q.2)) <$> r.processBlock bld st input n output := by
  unfold Resampler.processBlock
  rw [if_neg (by simp only; omega), if_neg (by simp only; omega), if_neg (by omega), if_neg (by omega)]
  cases n with
  | zero => rfl
  | succ m =>
    rw [whileF, if_pos (by simp), whileF, if_pos (by simp)]
    have hb := body_ratio bld st input ⟨r, m + 1, 0, output, 0⟩ R (by simp only; omega) (by omega)
    have hn := body_n bld st input ⟨r, m + 1, 0, output, 0⟩
    simp only at hb hn
    rw [hb]
    cases hl : Resampler.loopBody bld st input ⟨r, m + 1, 0, output, 0⟩ with
    | error e => rfl
    | ok s' =>
      have hn : s'.n = 0 := by
        have := hn s' hl
        omega
      simp only [ok_bind, Functor.map, Except.map]
      rw [whileF_zero m hn, whileF_zero m (by exact hn)]
      rfl

/-- A ratio of 12 and a block of 1000 samples. -/
example : ∃ r : Resampler Rat, (cfg .up 8 24 true .fir).new = .ok r ∧ r.ratio = 8 ∧
    (cfg .up 12 24 true .fir).new = .ok { r with ratio := 12 } := by
  obtain ⟨-, r, h1, h2, h3⟩ := new_lower (F := Rat) (cfg := cfg .up 12 24 true .fir) (by decide) (by decide)
  exact ⟨r, h1, h2.ratio, h3⟩

/-- **C100 is false** for ratios above 8, DOWN: with the documented size of the output buffer (`n / ratio` samples) memory behind the
buffer is overwritten. `r` is any state of a resampler for ratio 8; the one constructed (`C100_new_partial`), for instance. -/
theorem C100_false_overrun (cfg : Config) (hv : cfg.Valid) (h8 : cfg.ratio = 8) (hm : cfg.mode = .down) (r : Resampler F) (h : cfg.Reachable r)
    (R : Nat) (hR : 8 < R) (st : Stack F) (input output : Buf F) (n : Nat) (h0 : 0 < n) (hn : n ≤ 1024) (hd : n % 8 = 0)
    (ho : output.len = n / R) : ¬ ∃ q, Resampler.processBlock cfg.bld st { r with ratio := R } input n output = .ok q := by
  rintro ⟨q, hq⟩
  rw [C100_like_8_partial cfg.bld st r R ((h.ratio hv).trans h8) hR input output n hn] at hq
  cases hp : r.processBlock cfg.bld st input n output with
  | error e => rw [hp] at hq; cases hq
  | ok p =>
    have := (C101_exact_contract cfg hv r h st input output n (by omega) (fun _ => by rw [h8]; exact hd) (fun _ _ h => by omega)
      (fun _ h => by omega)).1 ⟨p, hp⟩
    rw [hm] at this
    have h1 : n / cfg.ratio ≤ output.len := this.2.1
    rw [h8, ho] at h1
    have h2 : n / R ≤ n / 9 := Nat.div_le_div_left (by omega) (by omega)
    omega

example : (cfg .down 8 20 true .fir).Valid ∧ 160 % 8 = 0 ∧ 160 / 16 = 10 ∧ ∃ r : Resampler Rat, (cfg .down 8 20 true .fir).Reachable r := by
  have hv : (cfg .down 8 20 true .fir).Valid := ⟨by decide, by decide, by decide⟩
  refine ⟨hv, rfl, rfl, ?_⟩
  obtain ⟨r, h, -⟩ := Resampler.new_fresh (F := Rat) hv
  exact ⟨r, [], [], by simp, by simp [Config.session, h, Resampler.runOps]⟩

/-- **C100 is false** for ratios above 8, UP: with a large enough output buffer, only the first `8 * n` of the `ratio * n` samples are
written. -/
theorem C100_false_gap (cfg : Config) (hv : cfg.Valid) (h8 : cfg.ratio = 8) (hm : cfg.mode = .up) (r : Resampler F) (h : cfg.Reachable r)
    (R : Nat) (hR : 8 < R) (st : Stack F) (input output : Buf F) (n : Nat) (hn : n ≤ 1024) (hi : n ≤ input.len)
    (ho : n * R ≤ output.len) : ∃ q, Resampler.processBlock cfg.bld st { r with ratio := R } input n output = .ok q ∧
      ∀ k, 8 * n ≤ k → k < R * n → q.2.get k = output.get k := by
  obtain ⟨r0, xs, zs, -, hfr, hs⟩ := h.state hv
  have h8n : n * 8 ≤ n * R := Nat.mul_le_mul_left _ (by omega)
  obtain ⟨q, hq, -, -, -, hk⟩ := hs.step hv hfr (c := ⟨st, input, n, output⟩) ⟨by simp only; omega, hi, by
    unfold Config.outLen
    rw [hm, h8]
    simp only
    omega, by simp [hm], fun _ _ h => by omega, fun _ h => by omega, by simp [hm]⟩
  refine ⟨({ q.1 with ratio := R }, q.2), ?_, fun k h1 _ => hk k ?_⟩
  · rw [C100_like_8_partial cfg.bld st r R ((h.ratio hv).trans h8) hR input output n hn, hq]
    rfl
  · unfold Config.outLen
    rw [hm, h8]
    simp only
    omega

example : (cfg .up 8 20 true .iir).Valid ∧ ∃ r : Resampler Rat, (cfg .up 8 20 true .iir).Reachable r := by
  have hv : (cfg .up 8 20 true .iir).Valid := ⟨by decide, by decide, by decide⟩
  refine ⟨hv, ?_⟩
  obtain ⟨r, h, -⟩ := Resampler.new_fresh (F := Rat) hv
  exact ⟨r, [], [], by simp, by simp [Config.session, h, Resampler.runOps]⟩

end Panda
