import Verif.Proofs.IirConfig
import Verif.Props.IirFreq
import Verif.Props.IirPeak

/-!
# Frequency response of IIR resamplers for signals near sinusoids
-/

set_option linter.unusedSectionVars false

namespace Panda

open Examples

/-! ## Rational and real signals -/

theorem allpass_cast (a : ℚ) (x : ℕ → ℚ) (n : ℕ) : ((allpass a x n : ℚ) : ℝ) = allpass (a : ℝ) (fun i => (x i : ℝ)) n := by
  induction n with
  | zero => simp [allpass]
  | succ n ih => rw [allpass, allpass, ← ih]; push_cast; ring

theorem branch_cast (c : ℕ → ℚ) (b : ℕ) (x : ℕ → ℚ) (j n : ℕ) :
    ((branch c b x j n : ℚ) : ℝ) = branch (fun i => (c i : ℝ)) b (fun i => (x i : ℝ)) j n := by
  induction j generalizing n with
  | zero => rfl
  | succ j ih =>
    rw [branch, branch, allpass_cast]
    congr 1
    funext i
    exact ih i

theorem iirStage_cast (m : Mode) (sse : Bool) (t : List Dec) (x : ℕ → ℚ) (n : ℕ) :
    (((iirStageOf (F := ℚ) m sse t).op x n : ℚ) : ℝ) = (iirStageOf (F := ℝ) m sse t).op (fun i => (x i : ℝ)) n := by
  have e : (fun i => ((seq (t.map fun d => (Sample.ofDouble d.toRat : ℚ)) i : ℚ) : ℝ)) = seq (t.map fun d => (Sample.ofDouble d.toRat : ℝ)) := by
    funext i
    have := accurate_real
    rw [seq_cast, List.map_map]
    rfl
  have hb : ∀ b y n, ((branchOut t.length (seq (t.map fun d => (Sample.ofDouble d.toRat : ℚ))) b y n : ℚ) : ℝ) =
      branchOut t.length (seq (t.map fun d => (Sample.ofDouble d.toRat : ℝ))) b (fun i => (y i : ℝ)) n := by
    intro b y n
    unfold branchOut
    rw [branch_cast, e]
  cases m with
  | up =>
    simp only [iirStageOf, Stage.op, iirUpOp, List.length_map]
    exact hb _ _ _
  | down =>
    simp only [iirStageOf, Stage.op, iirDownOp, List.length_map]
    push_cast
    rw [hb, hb]
    simp only [Sample.half]
    push_cast
    rfl

theorem Config.op_cast_iir {cfg : Config} (hv : cfg.Valid) (hf : cfg.filter = .iir) (x : ℕ → ℚ) (n : ℕ) :
    ((cfg.op x n : ℚ) : ℝ) = cfg.op (fun i => (x i : ℝ)) n := by
  have key : ∀ (ks : List ℕ) (x : ℕ → ℚ),
      ((cascadeOp (ks.map fun k => iirStageOf (F := ℚ) cfg.mode cfg.iirSse (iirDecs k cfg.precision)) x n : ℚ) : ℝ) =
      cascadeOp (ks.map fun k => iirStageOf (F := ℝ) cfg.mode cfg.iirSse (iirDecs k cfg.precision)) (fun i => (x i : ℝ)) n := by
    intro ks
    induction ks with
    | nil => intro x; rfl
    | cons k ks ih =>
      intro x
      simp only [List.map_cons, cascadeOp]
      rw [ih]
      congr 1
      funext i
      exact iirStage_cast _ _ _ _ _
  unfold Config.op
  rw [Config.stages_eq_iirTabs hv hf, Config.stages_eq_iirTabs hv hf]
  exact key _ _

/-! ## Signals that are near sinusoids from some sample on -/

private noncomputable def early (x : ℕ → ℝ) (L : List (ℝ × ℝ × ℝ)) (N i : ℕ) : ℝ := if i < N then x i else tones L i

private theorem early_near {x : ℕ → ℝ} {L : List (ℝ × ℝ × ℝ)} {B : ℝ} {N : ℕ} (h : ∀ i, |x i - tones L i| ≤ B) : Near (early x L N) L 0 B N := by
  have hB : 0 ≤ B := (abs_nonneg _).trans (h 0)
  constructor
  · intro i
    unfold early
    split
    · exact h i
    · simpa using hB
  · intro i hi
    unfold early
    rw [if_neg (by omega)]
    simp

private theorem early_op (cfg : Config) (hv : cfg.Valid) (hf : cfg.filter = .iir) {x : ℕ → ℝ} {L : List (ℝ × ℝ × ℝ)} {ε : ℝ} (hε : 0 ≤ ε) {N : ℕ}
    (h : ∀ i, N ≤ i → |x i - tones L i| ≤ ε) (n : ℕ) :
    |cfg.op x n - cfg.op (early x L N) n| ≤ (peakMilli cfg.mode cfg.ratio cfg.precision : ℝ) / 1000 * ε := by
  have := accurate_real
  have e : x = fun i => early x L N i + (x i - early x L N i) := by
    funext i
    ring
  have h1 := cfg.op_peak (K := ℝ) hv hf hε (x := fun i => x i - early x L N i) (fun i => by
    unfold early
    split
    · simpa using hε
    · exact h i (by omega)) n
  have e2 : cfg.op x n = cfg.op (early x L N) n + cfg.op (fun i => x i - early x L N i) n := by
    conv_lhs => rw [e, cfg.op_add]
  rw [e2, add_sub_cancel_left]
  exact h1

theorem Config.op_late_down (cfg : Config) (hv : cfg.Valid) (hf : cfg.filter = .iir) (hm : cfg.mode = .down) {x : ℕ → ℝ} {L : List (ℝ × ℝ × ℝ)}
    {ε B : ℝ} (hε : 0 ≤ ε) {N : ℕ} (h1 : ∀ i, |x i - tones L i| ≤ B) (h2 : ∀ i, N ≤ i → |x i - tones L i| ≤ ε) (K : ℕ) {m : ℕ}
    (hset : N / cfg.ratio + 1 + 7 * K ≤ m) :
    |cfg.op x m - tones (L.map cfg.downTone) m| ≤
      2 * 10 ^ 6 * (19 / 20) ^ K * (amps L + B) + (peakMilli cfg.mode cfg.ratio cfg.precision : ℝ) / 1000 * ε := by
  have h3 := (Config.op_down_iir constants_real hv hf hm (early_near h1) K).late m hset
  rw [mul_zero, add_zero] at h3
  have h4 := early_op cfg hv hf hε h2 m
  rw [abs_le] at h3 h4 ⊢
  constructor <;> linarith [h3.1, h3.2, h4.1, h4.2]

theorem Config.op_late_up (cfg : Config) (hv : cfg.Valid) (hf : cfg.filter = .iir) (hm : cfg.mode = .up) {x : ℕ → ℝ} {L : List (ℝ × ℝ × ℝ)}
    {ε B : ℝ} (hε : 0 ≤ ε) {N : ℕ} (h1 : ∀ i, |x i - tones L i| ≤ B) (h2 : ∀ i, N ≤ i → |x i - tones L i| ≤ ε)
    (hL : ∀ a ∈ L, |a.2.1| ≤ 40 * Real.pi / 49) (K : ℕ) {n : ℕ} (hset : cfg.ratio * (N + 7 * K) ≤ n) :
    |cfg.op x n - tones (L.map cfg.upTone) n| ≤ imageFactor cfg.ratio * atten (stopDb false cfg.precision) * amps L +
      2 * 10 ^ 6 * (19 / 20) ^ K * (amps L + B) + (peakMilli cfg.mode cfg.ratio cfg.precision : ℝ) / 1000 * ε := by
  obtain ⟨Q, hQ, h3⟩ := Config.op_up_iir constants_real hv hf hm (early_near h1) hL K
  have h5 := h3.late n hset
  have h6 := (abs_tones_le Q n).trans hQ
  rw [tones_append] at h5
  have h4 := early_op cfg hv hf hε h2 n
  rw [abs_le] at h4 h5 h6 ⊢
  constructor <;> linarith [h4.1, h4.2, h5.1, h5.2, h6.1, h6.2]

/-! ## Computed samples -/

section computed

variable {cfg : Config} {xq : ℕ → ℚ} {len : ℕ} {M y E : ℚ}

private noncomputable def ext (xq : ℕ → ℚ) (len : ℕ) (L : List (ℝ × ℝ × ℝ)) (i : ℕ) : ℝ := if i < len then (xq i : ℝ) else tones L i

private theorem ext_op (hv : cfg.Valid) (hf : cfg.filter = .iir) (L : List (ℝ × ℝ × ℝ)) {n : ℕ} (hn : n < cfg.outLen len) :
    ((cfg.op xq n : ℚ) : ℝ) = cfg.op (ext xq len L) n := by
  rw [Config.op_cast_iir hv hf]
  refine cascadeOp_causal (k := len) (fun s hs v t e => (Config.stages_taps s hs v t e).1)
    (fun i hi => (if_pos hi).symm) n ?_
  rwa [Config.cascadeN hv]

private theorem ext_all (hM : 0 ≤ M) (hx : ∀ i < len, |xq i| ≤ M) (L : List (ℝ × ℝ × ℝ)) (i : ℕ) : |ext xq len L i - tones L i| ≤ amps L + M := by
  have h1 := abs_tones_le L i
  have hM' : (0 : ℝ) ≤ M := by exact_mod_cast hM
  unfold ext
  split
  · rename_i hi
    have h2 : |(xq i : ℝ)| ≤ (M : ℝ) := by exact_mod_cast hx i hi
    refine (abs_sub _ _).trans ?_
    linarith
  · rw [sub_self, abs_zero]
    linarith [abs_nonneg (tones L i)]

private theorem ext_late {ε : ℝ} (hε : 0 ≤ ε) {N : ℕ} {L : List (ℝ × ℝ × ℝ)} (h : ∀ i, N ≤ i → i < len → |(xq i : ℝ) - tones L i| ≤ ε)
    (i : ℕ) (hi : N ≤ i) : |ext xq len L i - tones L i| ≤ ε := by
  unfold ext
  split
  · exact h i hi (by assumption)
  · simpa using hε

private theorem computed {n : ℕ} (hE : |y - cfg.op xq n| ≤ E) {t B : ℝ} (h : |((cfg.op xq n : ℚ) : ℝ) - t| ≤ B) : |(y : ℝ) - t| ≤ B + E := by
  have h1 : |(y : ℝ) - ((cfg.op xq n : ℚ) : ℝ)| ≤ (E : ℝ) := by exact_mod_cast hE
  have := abs_sub_le (y : ℝ) ((cfg.op xq n : ℚ) : ℝ) t
  linarith

/-- A sample `y` that is within `E` of what an exact downsampler computes from `len` samples `xq` that are near sinusoids from sample `N` on. -/
theorem Config.computed_down (hv : cfg.Valid) (hf : cfg.filter = .iir) (hm : cfg.mode = .down) (hM : 0 ≤ M) (hx : ∀ i < len, |xq i| ≤ M)
    (P S : List (ℝ × ℝ × ℝ))
    (hS : ∀ a ∈ S, ∃ j : ℤ, ¬ (cfg.ratio : ℤ) ∣ j ∧ |cfg.ratio * a.2.1 - 2 * Real.pi * j| ≤ 40 * Real.pi / 49)
    {ε : ℝ} (hε : 0 ≤ ε) {N : ℕ} (h : ∀ i, N ≤ i → i < len → |(xq i : ℝ) - (tones P i + tones S i)| ≤ ε) (K : ℕ) {n : ℕ}
    (hn : n < cfg.outLen len) (hset : N / cfg.ratio + 1 + 7 * K ≤ n) (hE : |y - cfg.op xq n| ≤ E) :
    |(y : ℝ) - tones (P.map cfg.downTone) n| ≤ atten (stopDb false cfg.precision) * amps S +
      2 * 10 ^ 6 * (19 / 20) ^ K * (2 * (amps P + amps S) + M) + (peakMilli cfg.mode cfg.ratio cfg.precision : ℝ) / 1000 * ε + E := by
  refine computed hE ?_
  rw [ext_op hv hf (P ++ S) hn]
  have h1 := cfg.op_late_down hv hf hm hε (ext_all hM hx (P ++ S)) (ext_late hε (fun i h1 h2 => by
    rw [tones_append]
    exact h i h1 h2)) K hset
  rw [List.map_append, tones_append, amps_append] at h1
  have h2 : |tones (S.map cfg.downTone) n| ≤ atten (stopDb false cfg.precision) * amps S := by
    refine (abs_tones_le _ _).trans (amps_map_le fun a ha => ?_)
    obtain ⟨j, hj, hw⟩ := hS a ha
    have := Config.response_stop constants_real hv hf hj hw
    simp only [Config.downTone, abs_mul]
    nlinarith [abs_nonneg a.1]
  rw [show amps P + amps S + (amps P + amps S + (M : ℝ)) = 2 * (amps P + amps S) + M by ring] at h1
  rw [abs_le] at h1 h2 ⊢
  constructor <;> linarith [h1.1, h1.2, h2.1, h2.2]

/-- The same for an upsampler. -/
theorem Config.computed_up (hv : cfg.Valid) (hf : cfg.filter = .iir) (hm : cfg.mode = .up) (hM : 0 ≤ M) (hx : ∀ i < len, |xq i| ≤ M)
    (L : List (ℝ × ℝ × ℝ)) (hL : ∀ a ∈ L, |a.2.1| ≤ 40 * Real.pi / 49)
    {ε : ℝ} (hε : 0 ≤ ε) {N : ℕ} (h : ∀ i, N ≤ i → i < len → |(xq i : ℝ) - tones L i| ≤ ε) (K : ℕ) {n : ℕ}
    (hn : n < cfg.outLen len) (hset : cfg.ratio * (N + 7 * K) ≤ n) (hE : |y - cfg.op xq n| ≤ E) :
    |(y : ℝ) - tones (L.map cfg.upTone) n| ≤ imageFactor cfg.ratio * atten (stopDb false cfg.precision) * amps L +
      2 * 10 ^ 6 * (19 / 20) ^ K * (2 * amps L + M) + (peakMilli cfg.mode cfg.ratio cfg.precision : ℝ) / 1000 * ε + E := by
  refine computed hE ?_
  rw [ext_op hv hf L hn]
  have h1 := cfg.op_late_up hv hf hm hε (ext_all hM hx L) (ext_late hε h) hL K hset
  rwa [show amps L + (amps L + (M : ℝ)) = 2 * amps L + M by ring] at h1

end computed

end Panda
