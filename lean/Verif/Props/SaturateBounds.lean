import Verif.Props.Saturate
import Verif.Props.Gain
import Verif.Props.Freq
import Mathlib.Analysis.Calculus.MeanValue
import Mathlib.Analysis.SpecialFunctions.Trigonometric.DerivHyp

/-!
# C102: the example in the documentation (class `Saturation`)
-/

set_option linter.unusedSectionVars false

namespace Panda.Tool

open Panda Examples

section reset

variable {F : Type} [Zero F] [One F] [Add F] [Sub F] [Mul F] [Sample F]

/-- The caller's obligations. -/
def SatOp.Ok (cu cd : Config) : SatOp F → Prop
  | .process c => c.Ok cu cd
  | .reset => True

private theorem satOps_process (cu cd : Config) (g : F → F) (cs : List (SatCall F)) (ups downs : Resampler F) :
    satOps cu cd g (cs.map .process) ups downs = List.map some <$> satRun cu cd g cs ups downs := by
  induction cs generalizing ups downs with
  | nil => rfl
  | cons c cs ih =>
    simp only [List.map_cons, satOps, satRun]
    cases saturate cu cd g c.n c.inp c.out c.tmpAddr c.junk c.stk ups downs with
    | error e => rfl
    | ok q =>
      simp only [ok_bind, ih]
      cases satRun cu cd g cs q.1 q.2.1 <;> rfl

private theorem satOps_sat {cu cd : Config} (hs : SatOk cu cd) (g : F → F) {u0 d0 : Resampler F} (hu0 : u0.Fresh cu) (hd0 : d0.Fresh cd)
    (ops : List (SatOp F)) (hc : ∀ op ∈ ops, op.Ok cu cd) (cs : List (SatCall F)) (os2 : List (Buf F)) (h2 : satRun cu cd g cs u0 d0 = .ok os2)
    {ups downs : Resampler F} {xs ms zs : List F} (hu : ups.State cu u0 xs ms) (hd : downs.State cd d0 (ms.map g) zs) :
    Sat (satOps cu cd g (ops ++ .reset :: cs.map .process) ups downs) fun os =>
      ∃ os1, os1.length = ops.length ∧ os = os1 ++ none :: os2.map some := by
  induction ops generalizing ups downs xs ms zs with
  | nil =>
    simp only [List.nil_append, satOps, Resampler.reset_evolves hu0 hu.evolves, Resampler.reset_evolves hd0 hd.evolves, ok_bind,
      satOps_process, h2]
    exact sat_ok ⟨[], rfl, rfl⟩
  | cons op ops ih =>
    cases op with
    | process c =>
      simp only [List.cons_append, satOps]
      refine sat_bind (saturate_sat hs g (hc (.process c) (by simp)) hu0 hd0 hu hd) ?_
      rintro ⟨u, d, out⟩ ⟨⟨ms1, hu1, hd1⟩, -, -⟩
      refine sat_bind (ih (fun c h => hc c (by simp [h])) hu1 hd1) ?_
      rintro os ⟨os1, h, rfl⟩
      exact sat_ok ⟨some out :: os1, by simp [h], rfl⟩
    | reset =>
      simp only [List.cons_append, satOps, Resampler.reset_evolves hu0 hu.evolves, Resampler.reset_evolves hd0 hd.evolves, ok_bind]
      refine sat_bind (ih (fun c h => hc c (by simp [h])) hu0.state (ms := []) (zs := []) hd0.state) ?_
      rintro os ⟨os1, h, rfl⟩
      exact sat_ok ⟨none :: os1, by simp [h], rfl⟩

/-- **C102** `reset()`: whatever has been done with an object before, after `reset()` it computes what a new object computes, bit for bit. -/
theorem C102_reset (cu cd : Config) (hs : SatOk cu cd) (g : F → F) (ops : List (SatOp F)) (hc : ∀ op ∈ ops, op.Ok cu cd)
    (cs : List (SatCall F)) (hcs : ∀ c ∈ cs, c.Ok cu cd) :
    ∃ os1 os2, satOpSession cu cd g (ops ++ .reset :: cs.map .process) = .ok (os1 ++ none :: os2.map some) ∧ os1.length = ops.length ∧
      satSession cu cd g cs = .ok os2 := by
  obtain ⟨os2, h2, -⟩ := C98_saturation cu cd hs g cs hcs
  obtain ⟨u0, e1, hu⟩ := Resampler.new_fresh (F := F) hs.ups
  obtain ⟨d0, e2, hd⟩ := Resampler.new_fresh (F := F) hs.downs
  have h3 := h2
  unfold satSession at h3
  simp only [e1, e2, ok_bind] at h3
  obtain ⟨os, h, os1, hl, rfl⟩ := satOps_sat hs g hu hd ops hc cs os2 h3 hu.state (ms := []) (zs := []) hd.state
  refine ⟨os1, os2, ?_, hl, h2⟩
  unfold satOpSession
  simp only [e1, e2, ok_bind, h]

private theorem doc_ok' (sse : Bool) : SatOk (cfg .up 8 12 sse .fir) (cfg .down 8 12 sse .fir) :=
  ⟨⟨by simp [cfg], by simp [cfg], by simp [cfg]⟩, ⟨by simp [cfg], by simp [cfg], by simp [cfg]⟩, rfl, rfl, rfl, by simp [cfg]⟩

/-- The object of the documentation (72 dB, factor 8) after some samples. -/
example : SatOk (cfg .up 8 12 true .fir) (cfg .down 8 12 true .fir) ∧
    ∀ op ∈ [SatOp.process (satCall 0 1000), .reset, .process (satCall 3 7)], op.Ok (cfg .up 8 12 true .fir) (cfg .down 8 12 true .fir) := by
  refine ⟨doc_ok' true, ?_⟩
  intro op h
  simp only [List.mem_cons, List.not_mem_nil, or_false] at h
  rcases h with rfl | rfl | rfl
  · exact ⟨by decide, Nat.le_refl _, Nat.le_refl _, fun _ _ => by decide⟩
  · trivial
  · exact ⟨by decide, Nat.le_refl _, Nat.le_refl _, fun _ _ => by decide⟩

end reset

section exact

variable {K : Type} [Field K] [LinearOrder K] [IsStrictOrderedRing K] [Sample K] [Accurate K]

private theorem op_sub' (cfg : Config) (x y : ℕ → K) (i : ℕ) : cfg.op x i - cfg.op y i = cfg.op (fun j => x j - y j) i := by
  have := congrFun (Config.op_lin cfg (1 : K) (-1) x y) i
  simp only [one_mul, neg_mul, ← sub_eq_add_neg] at this
  exact this.symm

private theorem op_le {cfg : Config} (hv : cfg.Valid) (hf : cfg.filter = .fir) {x : ℕ → K} {M : K} (hM : 0 ≤ M) (hx : ∀ n, |x n| ≤ M) (i : ℕ) :
    |cfg.op x i| ≤ (gainMilli cfg.mode cfg.ratio cfg.precision : K) / 1000 * M := by
  refine (Config.op_bound hv hf hM hx i).trans (mul_le_mul_of_nonneg_right ?_ hM)
  have h2 : ((cfg.gain : ℚ) : K) ≤ (((gainMilli cfg.mode cfg.ratio cfg.precision : ℚ) / 1000 : ℚ) : K) := by exact_mod_cast (dcGain_numbers cfg hv).1
  refine h2.trans (le_of_eq ?_)
  push_cast
  rfl

private theorem op_const {cfg : Config} (hv : cfg.Valid) (hf : cfg.filter = .fir) {x : ℕ → K} {c : K} {N : ℕ} (hx : ∀ n ≥ N, x n = c) (i : ℕ)
    (hi : (match cfg.mode with | .up => cfg.ratio * (N + 63) | .down => N / cfg.ratio + 65) ≤ i) :
    |cfg.op x i - c| ≤ (dcNano cfg.mode cfg.ratio cfg.precision : K) / 10 ^ 9 * |c| := by
  refine (Config.op_nearConst hv hf hx i ((Config.settle_le hv hf N).trans hi)).trans (mul_le_mul_of_nonneg_right ?_ (abs_nonneg _))
  have h2 : ((cfg.dcErr : ℚ) : K) ≤ (((dcNano cfg.mode cfg.ratio cfg.precision : ℚ) / 10 ^ 9 : ℚ) : K) := by exact_mod_cast (dcGain_numbers cfg hv).2
  refine h2.trans (le_of_eq ?_)
  push_cast
  rfl

/-- **C102** If the function is bounded (as `tanh` is, by 1), so is the output, whatever the input: by the gain of the downsampler. -/
theorem C102_bounded (cu cd : Config) (hs : SatOk cu cd) (hf : cd.filter = .fir) (g : K → K) (B : K) (hg : ∀ x, |g x| ≤ B)
    (cs : List (SatCall K)) (hc : ∀ c ∈ cs, c.Ok cu cd) (os : List (Buf K)) (h : satSession cu cd g cs = .ok os) :
    ∀ i < (satOut cs os).length, |seq (satOut cs os) i| ≤ (gainMilli .down cd.ratio cd.precision : K) / 1000 * B := by
  intro i hi
  rw [(C98_exact cu cd hs g cs hc os h).2 i hi, ← hs.down]
  exact op_le hs.downs hf ((abs_nonneg _).trans (hg 0)) (fun n => hg _) i

/-- **C102** The output depends continuously on the input: if `g` has the Lipschitz constant `L` and two signals differ by at most `D`, the
outputs differ by at most `L * D` times the gains of both resamplers; the signals may be passed in different blocks. -/
theorem C102_continuous (cu cd : Config) (hs : SatOk cu cd) (hfu : cu.filter = .fir) (hfd : cd.filter = .fir) (g : K → K) (L : K) (hL : 0 ≤ L)
    (hg : ∀ x y, |g x - g y| ≤ L * |x - y|) (cs cs' : List (SatCall K)) (hc : ∀ c ∈ cs, c.Ok cu cd) (hc' : ∀ c ∈ cs', c.Ok cu cd)
    (os os' : List (Buf K)) (h : satSession cu cd g cs = .ok os) (h' : satSession cu cd g cs' = .ok os')
    (hl : (satIn cs).length = (satIn cs').length) (D : K) (hD : 0 ≤ D) (hx : ∀ i, |seq (satIn cs) i - seq (satIn cs') i| ≤ D) :
    ∀ i < (satOut cs os).length, |seq (satOut cs os) i - seq (satOut cs' os') i| ≤
      (gainMilli .down cd.ratio cd.precision : K) / 1000 * (L * ((gainMilli .up cu.ratio cu.precision : K) / 1000 * D)) := by
  intro i hi
  obtain ⟨l1, h1⟩ := C98_exact cu cd hs g cs hc os h
  obtain ⟨l2, h2⟩ := C98_exact cu cd hs g cs' hc' os' h'
  rw [h1 i hi, h2 i (by omega), op_sub', ← hs.down, ← hs.up]
  have hG : (0 : K) ≤ (gainMilli cu.mode cu.ratio cu.precision : K) / 1000 * D := by positivity
  refine op_le hs.downs hfd (mul_nonneg hL hG) (fun n => (hg _ _).trans (mul_le_mul_of_nonneg_left ?_ hL)) i
  rw [op_sub']
  exact op_le hs.ups hfu hD hx n

/-- **C102** A constant signal `c` comes out as `g c` 128 samples later, up to the tolerances of the filters: `g` has the Lipschitz constant
`L`; `dcNano` and `gainMilli` are the tables of C41 and C21. -/
theorem C102_static (cu cd : Config) (hs : SatOk cu cd) (hfu : cu.filter = .fir) (hfd : cd.filter = .fir) (g : K → K) (L : K) (hL : 0 ≤ L)
    (hg : ∀ x y, |g x - g y| ≤ L * |x - y|) (cs : List (SatCall K)) (hc : ∀ c ∈ cs, c.Ok cu cd)
    (os : List (Buf K)) (h : satSession cu cd g cs = .ok os) (c : K) (N : ℕ)
    (hN : ∀ i, N ≤ i → i < (satIn cs).length → seq (satIn cs) i = c) :
    ∀ i < (satOut cs os).length, N + 128 ≤ i → |seq (satOut cs os) i - g c| ≤ (dcNano .down cd.ratio cd.precision : K) / 10 ^ 9 * |g c| +
      (gainMilli .down cd.ratio cd.precision : K) / 1000 * (L * ((dcNano .up cu.ratio cu.precision : K) / 10 ^ 9 * |c|)) := by
  intro i hi hNi
  obtain ⟨l1, h1⟩ := C98_exact cu cd hs g cs hc os h
  have hr : 0 < cu.ratio := by
    have := hs.ups.ratio
    simp only [List.mem_cons, List.not_mem_nil, or_false] at this
    omega
  -- the input, continued
  let x : ℕ → K := fun j => if j < (satIn cs).length then seq (satIn cs) j else c
  have hxu : ∀ j < (satIn cs).length * cu.ratio, cu.op (seq (satIn cs)) j = cu.op x j := by
    intro j hj
    refine cascadeOp_causal (fun s hs v t e => (Config.stages_taps s hs v t e).1) (k := (satIn cs).length) (fun j hj => (if_pos hj).symm) j ?_
    have := Config.cascadeN (F := K) hs.ups (satIn cs).length
    unfold Config.outLen at this
    rw [hs.up] at this
    rw [this]
    exact hj
  have hxd : cd.op (fun j => g (cu.op (seq (satIn cs)) j)) i = cd.op (fun j => g (cu.op x j)) i := by
    refine cascadeOp_causal (fun s hs v t e => (Config.stages_taps s hs v t e).1) (k := (satIn cs).length * cu.ratio) (fun j hj => ?_) i ?_
    · rw [hxu j hj]
    · have := Config.cascadeN (F := K) hs.downs ((satIn cs).length * cu.ratio)
      unfold Config.outLen at this
      rw [hs.down, hs.ratio] at this
      rw [this]
      simp only
      rw [Nat.mul_div_cancel _ hr]
      omega
  rw [h1 i hi, hxd]
  have hmid : ∀ j ≥ cu.ratio * (N + 63), |cu.op x j - c| ≤ (dcNano .up cu.ratio cu.precision : K) / 10 ^ 9 * |c| := by
    intro j hj
    have := op_const hs.ups hfu (x := x) (c := c) (N := N) (by
      intro n hn
      simp only [x]
      split
      · exact hN n hn (by assumption)
      · rfl) j (by rw [hs.up]; exact hj)
    rwa [hs.up] at this
  let e : ℕ → K := fun j => if cu.ratio * (N + 63) ≤ j then g (cu.op x j) - g c else 0
  have hE0 : (0 : K) ≤ L * ((dcNano .up cu.ratio cu.precision : K) / 10 ^ 9 * |c|) := by positivity
  have he : ∀ j, |e j| ≤ L * ((dcNano .up cu.ratio cu.precision : K) / 10 ^ 9 * |c|) := by
    intro j
    simp only [e]
    split
    · exact (hg _ _).trans (mul_le_mul_of_nonneg_left (hmid j (by assumption)) hL)
    · simpa using hE0
  have b1 := op_const hs.downs hfd (x := fun j => g (cu.op x j) - e j) (c := g c) (N := cu.ratio * (N + 63)) (by
    intro n hn
    simp only [e]
    rw [if_pos hn]
    ring) i (by
      rw [hs.down, hs.ratio]
      simp only
      rw [Nat.mul_div_cancel_left _ hr]
      omega)
  have b2 := op_le hs.downs hfd hE0 he i
  rw [← op_sub', hs.down] at b1
  rw [hs.down] at b2
  have : cd.op (fun j => g (cu.op x j)) i - g c = (cd.op (fun j => g (cu.op x j)) i - cd.op e i - g c) + cd.op e i := by ring
  rw [this]
  exact (abs_add_le _ _).trans (add_le_add b1 b2)

end exact

/-- `tanh (x * DRIVE)`, `DRIVE = 3` (pandaresampler.hh:390, 408) -/
noncomputable def drive (x : ℝ) : ℝ := Real.tanh (x * 3)

private theorem tanh_lipschitz (x y : ℝ) : |Real.tanh x - Real.tanh y| ≤ |x - y| := by
  have hd : ∀ z : ℝ, HasDerivAt Real.tanh (1 / Real.cosh z ^ 2) z := by
    intro z
    have h := (Real.hasDerivAt_sinh z).div (Real.hasDerivAt_cosh z) (Real.cosh_pos z).ne'
    have e : (Real.cosh z * Real.cosh z - Real.sinh z * Real.sinh z) = 1 := by
      have := Real.cosh_sq_sub_sinh_sq z
      nlinarith
    rw [e] at h
    have e2 : Real.tanh = fun z => Real.sinh z / Real.cosh z := by
      funext z
      exact Real.tanh_eq_sinh_div_cosh z
    rw [e2]
    exact h
  have := Convex.norm_image_sub_le_of_norm_hasDerivWithin_le (f := Real.tanh) (f' := fun z => 1 / Real.cosh z ^ 2) (C := 1) (s := Set.univ)
    (fun z _ => (hd z).hasDerivWithinAt) (fun z _ => by
      rw [Real.norm_eq_abs, abs_of_nonneg (by positivity), div_le_one (by have := Real.cosh_pos z; positivity)]
      have := Real.one_le_cosh z
      nlinarith) convex_univ (Set.mem_univ y) (Set.mem_univ x)
  simpa using this

theorem drive_lipschitz (x y : ℝ) : |drive x - drive y| ≤ 3 * |x - y| := by
  refine (tanh_lipschitz _ _).trans (le_of_eq ?_)
  rw [← sub_mul, abs_mul, mul_comm, abs_of_nonneg (by norm_num : (0 : ℝ) ≤ 3)]

theorem doc_ok (bld : Build) (al : Alloc) : SatOk (docCfg bld al .up) (docCfg bld al .down) :=
  ⟨⟨by simp [docCfg], by simp [docCfg], by simp [docCfg]⟩, ⟨by simp [docCfg], by simp [docCfg], by simp [docCfg]⟩, rfl, rfl, rfl, by simp [docCfg]⟩

section doc

variable [Sample ℝ] [Accurate ℝ]

/-- **C102** The example of the documentation, computed exactly (constants exact or rounded to `float`), with any sequence of blocks: every
output sample is at most 2.514, however loud the input, and a constant input `c` gives `tanh (3 c)` after 128 samples, with an error of at
most `0.0004 + 0.0072 |c|`. -/
theorem C102_documented (bld : Build) (al : Alloc) (cs : List (SatCall ℝ)) (hc : ∀ c ∈ cs, c.Ok (docCfg bld al .up) (docCfg bld al .down)) :
    ∃ os, satSession (docCfg bld al .up) (docCfg bld al .down) drive cs = .ok os ∧ (satOut cs os).length = (satIn cs).length ∧
      (∀ i < (satOut cs os).length, |seq (satOut cs os) i| ≤ 2.514) ∧
      ∀ (c : ℝ) (N : ℕ), (∀ i, N ≤ i → i < (satIn cs).length → seq (satIn cs) i = c) →
        ∀ i < (satOut cs os).length, N + 128 ≤ i → |seq (satOut cs os) i - Real.tanh (c * 3)| ≤ 0.0004 + 0.0072 * |c| := by
  have hs := doc_ok bld al
  obtain ⟨os, h, -⟩ := C98_saturation _ _ hs drive cs hc
  have hb : ∀ x, |drive x| ≤ 1 := fun x => (Real.abs_tanh_lt_one _).le
  refine ⟨os, h, (C98_exact _ _ hs drive cs hc os h).1, fun i hi => ?_, fun c N hN i hi hNi => ?_⟩
  · refine (C102_bounded _ _ hs rfl drive 1 hb cs hc os h i hi).trans (le_of_eq ?_)
    simp only [docCfg, gainMilli]
    norm_num
  · have := C102_static _ _ hs rfl rfl drive 3 (by norm_num) drive_lipschitz cs hc os h c N hN i hi hNi
    refine this.trans ?_
    simp only [docCfg, gainMilli, dcNano]
    have h1 := hb c
    have h2 := abs_nonneg c
    push_cast
    nlinarith

end doc

example : ∃ _ : Sample ℝ, Accurate ℝ := ⟨_, accurate_real⟩

/-- Two blocks of the constant 1/2. -/
example : ∀ c ∈ ([⟨100, ⟨0, 100, fun _ => 1 / 2⟩, ⟨0, 100, fun _ => 0⟩, 0, fun _ => 0, (⟨0, 0, 0, fun _ => 0⟩, ⟨0, 0, 0, fun _ => 0⟩)⟩,
      ⟨200, ⟨0, 200, fun _ => 1 / 2⟩, ⟨0, 200, fun _ => 0⟩, 0, fun _ => 0, (⟨0, 0, 0, fun _ => 0⟩, ⟨0, 0, 0, fun _ => 0⟩)⟩] : List (SatCall ℝ)),
    c.Ok (docCfg x86 someAlloc .up) (docCfg x86 someAlloc .down) := by
  intro c hc
  simp only [List.mem_cons, List.not_mem_nil, or_false] at hc
  rcases hc with rfl | rfl
  · exact ⟨by simp [docCfg], Nat.le_refl _, Nat.le_refl _, by simp [docCfg]⟩
  · exact ⟨by simp [docCfg], Nat.le_refl _, Nat.le_refl _, by simp [docCfg]⟩

/-- `drive` meets the hypotheses of `C102_continuous`, `C102_static` (with 3) and `C102_bounded` (with 1). -/
example : (∀ x y, |drive x - drive y| ≤ 3 * |x - y|) ∧ ∀ x, |drive x| ≤ 1 := ⟨drive_lipschitz, fun _ => (Real.abs_tanh_lt_one _).le⟩

end Panda.Tool
