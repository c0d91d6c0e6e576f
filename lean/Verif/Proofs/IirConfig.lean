import Verif.Spec.IirResponse
import Verif.Proofs.IirTables

/-!
# Sinusoids through whole IIR resamplers
-/

set_option linter.unusedSectionVars false

namespace Panda

/-! ## The response of all-pass filters as a function of frequency -/

theorem continuous_apPhase {a : ℝ} (ha : |a| < 1) : Continuous (apPhase a) := by
  unfold apPhase
  have h : Continuous fun θ => a * Real.sin θ / (1 + a * Real.cos θ) :=
    Continuous.div (by fun_prop) (by fun_prop) fun θ => (one_add_cos_pos ha θ).ne'
  exact (continuous_const.mul (Real.continuous_arctan.comp h)).sub continuous_id

theorem continuous_branchPhase {c : ℕ → ℝ} (hc : ∀ i, |c i| < 1) (b j : ℕ) : Continuous fun θ => branchPhase c b θ j := by
  induction j with
  | zero => exact continuous_const
  | succ j ih => exact ih.add (continuous_apPhase (hc _))

theorem continuous_iirDiff {c : ℕ → ℝ} (hc : ∀ i, |c i| < 1) (nc : ℕ) : Continuous (iirDiff nc c) := by
  unfold iirDiff branchOutPhase
  have h0 := (continuous_branchPhase hc 0 (branchLen nc 0)).comp (continuous_const.mul continuous_id : Continuous fun v : ℝ => 2 * v)
  have h1 := (continuous_branchPhase hc 1 (branchLen nc 1)).comp (continuous_const.mul continuous_id : Continuous fun v : ℝ => 2 * v)
  exact ((h0.sub h1).add continuous_id).div_const 2

theorem apPhase_zero (a : ℝ) : apPhase a 0 = 0 := by simp [apPhase]

theorem branchPhase_zero (c : ℕ → ℝ) (b j : ℕ) : branchPhase c b 0 j = 0 := by
  induction j with
  | zero => rfl
  | succ j ih =>
    unfold branchPhase
    rw [ih, apPhase_zero, add_zero]

theorem iirDiff_zero (nc : ℕ) (c : ℕ → ℝ) : iirDiff nc c 0 = 0 := by
  unfold iirDiff branchOutPhase
  rw [mul_zero, branchPhase_zero, branchPhase_zero]
  norm_num

theorem apPhase_shift (a θ : ℝ) (j : ℤ) : apPhase a (θ + j * (2 * Real.pi)) = apPhase a θ - j * (2 * Real.pi) := by
  unfold apPhase
  rw [Real.sin_add_int_mul_two_pi, Real.cos_add_int_mul_two_pi]
  ring

theorem branchPhase_shift (c : ℕ → ℝ) (b : ℕ) (θ : ℝ) (j : ℤ) (n : ℕ) :
    branchPhase c b (θ + j * (2 * Real.pi)) n = branchPhase c b θ n - n * (j * (2 * Real.pi)) := by
  induction n with
  | zero => simp [branchPhase]
  | succ n ih =>
    unfold branchPhase
    rw [ih, apPhase_shift]
    push_cast
    ring

theorem iirDiff_shift (nc : ℕ) (c : ℕ → ℝ) (v : ℝ) (j : ℤ) :
    iirDiff nc c (v + j * Real.pi) = iirDiff nc c v + j * (Real.pi / 2) + ((branchLen nc 1 : ℤ) - branchLen nc 0 : ℤ) * j * Real.pi := by
  unfold iirDiff branchOutPhase
  rw [show 2 * (v + j * Real.pi) = 2 * v + j * (2 * Real.pi) by ring, branchPhase_shift, branchPhase_shift]
  push_cast
  ring

theorem abs_cos_add_int_mul_pi (x : ℝ) (n : ℤ) : |Real.cos (x + n * Real.pi)| = |Real.cos x| := by
  have := Real.abs_cos_int_mul_pi n
  rw [Real.cos_add, Real.sin_int_mul_pi, mul_zero, sub_zero, abs_mul, this, mul_one]

/-- Frequencies that alias to low ones. -/
theorem cos_iirDiff_shift (nc : ℕ) (c : ℕ → ℝ) (v : ℝ) (j : ℤ) :
    |Real.cos (iirDiff nc c (v + j * Real.pi))| = if j % 2 = 0 then |Real.cos (iirDiff nc c v)| else |Real.sin (iirDiff nc c v)| := by
  rw [iirDiff_shift, show ∀ d : ℤ, (d : ℝ) * j * Real.pi = ((d * j : ℤ) : ℝ) * Real.pi by intro d; push_cast; ring,
    abs_cos_add_int_mul_pi]
  split
  · next h =>
    obtain ⟨i, rfl⟩ : (2 : ℤ) ∣ j := Int.dvd_of_emod_eq_zero h
    rw [show ((2 * i : ℤ) : ℝ) * (Real.pi / 2) = i * Real.pi by push_cast; ring, abs_cos_add_int_mul_pi]
  · next h =>
    obtain ⟨i, rfl⟩ : ∃ i, j = 2 * i + 1 := ⟨j / 2, by omega⟩
    rw [show ((2 * i + 1 : ℤ) : ℝ) * (Real.pi / 2) = Real.pi / 2 + i * Real.pi by push_cast; ring, ← add_assoc,
      abs_cos_add_int_mul_pi, Real.cos_add_pi_div_two, abs_neg]

/-- In the pass band the gain is positive and near 1. -/
theorem cos_iirDiff_pass {c : ℕ → ℝ} (hc : ∀ i, |c i| < 1) {nc : ℕ} {e ε : ℝ} (hε : ε < 1)
    (h : ∀ v, |v| ≤ e → |Real.sin (iirDiff nc c v)| ≤ ε) {v : ℝ} (hv : |v| ≤ e) :
    1 - ε ^ 2 ≤ Real.cos (iirDiff nc c v) := by
  have hε0 : 0 ≤ ε := (abs_nonneg _).trans (h v hv)
  have hsq : ∀ u, |u| ≤ e → 1 - ε ^ 2 ≤ Real.cos (iirDiff nc c u) ^ 2 := by
    intro u hu
    have h1 := sq_le_sq' (by linarith [abs_nonneg (Real.sin (iirDiff nc c u))]) (h u hu)
    rw [sq_abs] at h1
    have := Real.sin_sq_add_cos_sq (iirDiff nc c u)
    linarith
  have hlt : 0 < 1 - ε ^ 2 := by nlinarith
  have hpos : 0 < Real.cos (iirDiff nc c v) := by
    by_contra hcon
    push Not at hcon
    have hcont : Continuous fun t : ℝ => Real.cos (iirDiff nc c (t * v)) :=
      Real.continuous_cos.comp ((continuous_iirDiff hc nc).comp (continuous_id.mul continuous_const))
    have h0 : Real.cos (iirDiff nc c (0 * v)) = 1 := by rw [zero_mul, iirDiff_zero, Real.cos_zero]
    have h1 : Real.cos (iirDiff nc c (1 * v)) ≤ 0 := by rwa [one_mul]
    obtain ⟨t, ⟨t0, t1⟩, ht⟩ := intermediate_value_Icc' (zero_le_one' ℝ) hcont.continuousOn (show (0 : ℝ) ∈ Set.Icc _ _ from
      ⟨h1, by rw [h0]; norm_num⟩)
    have h2 := hsq (t * v) (by
      rw [abs_mul, abs_of_nonneg t0]
      calc t * |v| ≤ 1 * |v| := mul_le_mul_of_nonneg_right t1 (abs_nonneg _)
        _ ≤ e := by rwa [one_mul])
    simp only at ht
    rw [ht] at h2
    rw [zero_pow two_ne_zero] at h2
    linarith
  have h3 := Real.cos_le_one (iirDiff nc c v)
  have h4 := hsq v hv
  nlinarith

/-! ## The stages -/

variable [Sample ℝ]

/-- A stage as a section of the configuration. -/
def iirStage (m : Mode) (sse : Bool) (c : List ℝ) : Stage ℝ :=
  match m with
  | .up => .iirUp sse c
  | .down => .iirDown sse c

theorem Config.stages_eq_iir {cfg : Config} (hv : cfg.Valid) (hf : cfg.filter = .iir) :
    cfg.stages (F := ℝ) = (match cfg.mode with | .up => [2, 4, 8].filter (· ≤ cfg.ratio) | .down => [8, 4, 2].filter (· ≤ cfg.ratio)).map
      fun k => iirStage cfg.mode cfg.iirSse (iirCoefs k cfg.precision) := by
  have key : ∀ k ∈ [2, 4, 8], cfg.stage (F := ℝ) k = [iirStage cfg.mode cfg.iirSse (iirCoefs k cfg.precision)] := by
    intro k hk
    obtain ⟨t, ht⟩ := Option.isSome_iff_exists.1 ((tables_exist hk hv.precision).2 (hv.iir hf))
    unfold Config.stage iirCoefs
    rw [hf, ht]
    cases cfg.mode <;> rfl
  have gen : ∀ l : List ℕ, (∀ k ∈ l, k ∈ [2, 4, 8]) → (l.map (cfg.stage (F := ℝ))).flatten =
      l.map fun k => iirStage cfg.mode cfg.iirSse (iirCoefs k cfg.precision) := by
    intro l hl
    induction l with
    | nil => rfl
    | cons a l ih =>
      simp only [List.map_cons, List.flatten_cons]
      rw [ih fun k hk => hl k (by simp [hk]), key a (hl a (by simp))]
      rfl
  unfold Config.stages
  cases hm : cfg.mode <;> simp only <;> rw [gen, hm] <;> intro k hk <;> simp only [List.mem_filter] at hk <;>
    have := hk.1 <;> simp only [List.mem_cons, List.not_mem_nil, or_false] at this ⊢ <;> omega

theorem iirCoefs_exact (hs : Constants false) {k p : ℕ} : iirCoefs k p = (iirPairs k p).map pairVal := by
  unfold iirCoefs iirPairs iirTab
  rw [List.map_map]
  refine List.map_congr_left fun d _ => ?_
  rw [hs.ofDouble]
  simp only [Bool.false_eq_true, reduceIte, Function.comp, pairVal]
  unfold Dec.toRat
  rw [Rat.mkRat_eq_div]
  push_cast
  rfl

theorem iirCoefs_float (hs : Constants true) {k p : ℕ} (hk : k ∈ [2, 4, 8]) (hp : p ∈ [8, 12, 16, 20, 24]) :
    iirCoefs k p = (iirPairs32 k p).map pairVal := by
  obtain ⟨h1, h2⟩ := iirFloats_round k hk p hp
  unfold iirCoefs iirPairs32
  rw [List.map_map]
  rw [show ((iirTable k p).getD ([], ⟨0, 0⟩)).1 = iirTab k p from rfl]
  rw [List.all_eq_true] at h2
  apply List.ext_getElem
  · simp [h1]
  · intro i hi hi'
    simp only [List.length_map] at hi hi'
    have := h2 ((iirTab k p)[i], (iirFloats k p)[i]) (by
      rw [List.mem_iff_getElem]
      exact ⟨i, by simp [hi, hi'], by simp⟩)
    rw [List.getElem_map, List.getElem_map, hs.ofDouble, if_pos rfl, rnd32_of_isRound this]
    simp [pairVal]

theorem pairVal_le {q : ℤ × ℤ} (h : 20 * |q.1| ≤ 19 * q.2) (h0 : |q.1| < q.2) : |pairVal q| ≤ 19 / 20 := by
  have hq : 0 < q.2 := lt_of_le_of_lt (abs_nonneg _) h0
  have hq' : (0 : ℝ) < q.2 := by exact_mod_cast hq
  have h' : (20 : ℝ) * |(q.1 : ℝ)| ≤ 19 * q.2 := by exact_mod_cast h
  unfold pairVal
  rw [abs_div, abs_of_pos hq', div_le_div_iff₀ hq' (by norm_num)]
  linarith

theorem seq_map_le {l : List (ℤ × ℤ)} (h : ∀ q ∈ l, 20 * |q.1| ≤ 19 * q.2 ∧ |q.1| < q.2) (i : ℕ) : |seq (l.map pairVal) i| ≤ 19 / 20 := by
  by_cases hi : i < l.length
  · rw [seq_lt (by simpa using hi), List.getElem_map]
    obtain ⟨h1, h2⟩ := h _ (List.getElem_mem hi)
    exact pairVal_le h1 h2
  · rw [seq_ge (by simpa using hi)]
    norm_num

/-- Bound for the coefficients. -/
theorem iirCoefs_le {float : Bool} (hs : Constants float) {k p : ℕ} (hk : k ∈ [2, 4, 8]) (hp : p ∈ [8, 12, 16, 20, 24]) (i : ℕ) :
    |seq (iirCoefs k p) i| ≤ 19 / 20 := by
  cases float with
  | false =>
    rw [iirCoefs_exact hs]
    exact seq_map_le (iirPairs_lt k hk p hp) i
  | true =>
    rw [iirCoefs_float hs hk hp]
    exact seq_map_le (iirPairs32_lt k hk p hp) i

theorem atten_pos (db : ℝ) : 0 < atten db := Real.rpow_pos_of_pos (by norm_num) _

theorem le_atten {a : ℝ} {db m : ℕ} (h : a ^ 20 * 10 ^ db ≤ 1) (hm : m = db) : a ≤ atten m := by
  subst hm
  unfold atten
  have h1 : ((10 : ℝ) ^ (-(m : ℝ) / 20)) ^ 20 = (10 ^ m)⁻¹ := by
    rw [← Real.rpow_natCast, ← Real.rpow_mul (by norm_num)]
    rw [show -(m : ℝ) / 20 * ((20 : ℕ) : ℝ) = -(m : ℝ) by push_cast; ring, Real.rpow_neg (by norm_num), Real.rpow_natCast]
  refine le_of_pow_le_pow_left₀ (n := 20) (by norm_num) (Real.rpow_nonneg (by norm_num) _) ?_
  rw [h1, ← one_div, le_div_iff₀ (by positivity)]
  exact h

theorem stopPico_atten : ∀ p ∈ [8, 12, 16, 20, 24], ∀ float ∈ [true, false],
    (if float then stopPico32 p else stopPico p) ^ 20 * 10 ^ stopDb float p ≤ 10 ^ 240 := by decide +kernel

theorem stop_atten {p : ℕ} (hp : p ∈ [8, 12, 16, 20, 24]) (float : Bool) :
    ((if float then stopPico32 p else stopPico p : ℕ) : ℝ) / (10 ^ 12 : ℕ) ≤ atten (stopDb float p) := by
  refine le_atten (db := stopDb float p) ?_ rfl
  have h := stopPico_atten p hp float (by cases float <;> simp)
  have h' : ((if float then stopPico32 p else stopPico p : ℕ) : ℝ) ^ 20 * 10 ^ stopDb float p ≤ 10 ^ 240 := by exact_mod_cast h
  rw [div_pow, div_mul_eq_mul_div, div_le_one (by positivity)]
  refine h'.trans (le_of_eq ?_)
  norm_num

/-- The stop band of a stage. -/
theorem sin_stageDiff {float : Bool} (hs : Constants float) {k p : ℕ} (hk : k ∈ [2, 4, 8]) (hp : p ∈ [8, 12, 16, 20, 24]) {v : ℝ}
    (hv : |v| ≤ edge k) : |Real.sin (iirDiff (iirCoefs k p).length (seq (iirCoefs k p)) v)| ≤ atten (stopDb float p) := by
  refine le_trans ?_ (stop_atten hp float)
  cases float with
  | false =>
    rw [iirCoefs_exact hs, List.length_map]
    exact iirDiff_le (iir_certificates k hk p hp) (fun q hq => (iirPairs_lt k hk p hp q hq).2) (by norm_num) (cos_ge_edge hk hv)
  | true =>
    rw [iirCoefs_float hs hk hp, List.length_map]
    exact iirDiff_le (iir_certificates32 k hk p hp) (fun q hq => (iirPairs32_lt k hk p hp q hq).2) (by norm_num) (cos_ge_edge hk hv)

theorem iirCoefs_branch : ∀ k ∈ [2, 4, 8], ∀ p ∈ [8, 12, 16, 20, 24],
    ∀ b < 2, branchLen (iirTab k p).length b ≤ (if k = 2 then 5 else if k = 4 then 3 else 2) := by decide +kernel

theorem branchGain_le {c : ℕ → ℝ} (hc : ∀ i, |c i| ≤ 1) (b j J : ℕ) (h : j ≤ J) : branchGain c b j ≤ 3 ^ J := by
  refine le_trans ?_ (pow_le_pow_right₀ (by norm_num : (1 : ℝ) ≤ 3) h)
  clear h
  induction j with
  | zero => exact le_rfl
  | succ j ih =>
    rw [show branchGain c b (j + 1) = branchGain c b j * (1 + 2 * |c (2 * j + b)|) from rfl, pow_succ]
    have := hc (2 * j + b)
    have h0 := abs_nonneg (c (2 * j + b))
    exact mul_le_mul ih (by linarith) (by positivity) (by positivity)

section stages

variable {float : Bool} (hs : Constants float) {p : ℕ} (hp : p ∈ [8, 12, 16, 20, 24])
include hs hp

theorem up_near {k J : ℕ} (hk : k ∈ [2, 4, 8]) (hJ : J = if k = 2 then 5 else if k = 4 then 3 else 2) (sse : Bool) (M : ℕ)
    {x : ℕ → ℝ} {L : List (ℝ × ℝ × ℝ)} {ε B : ℝ} {N : ℕ} (h : Near x L ε B N) :
    Near ((iirStage .up sse (iirCoefs k p)).op x) (upList (iirCoefs k p).length (seq (iirCoefs k p)) L)
      (3 ^ J * ε + J * 3 ^ J * (19 / 20) ^ M * (amps L + B)) (3 ^ J * (amps L + B)) (2 * (N + J * M)) := by
  have hl : (iirCoefs k p).length = (iirTab k p).length := by unfold iirCoefs iirTab; simp
  have hb : ∀ b < 2, branchLen (iirCoefs k p).length b ≤ J := by
    intro b hb
    rw [hl, hJ]
    exact iirCoefs_branch k hk p hp b hb
  have hc := iirCoefs_le hs hk hp
  exact iirUp_near hc (by norm_num) (fun b hb' => branchGain_le (fun i => (hc i).trans (by norm_num)) b _ _ (hb b hb')) hb M h

theorem down_near {k J : ℕ} (hk : k ∈ [2, 4, 8]) (hJ : J = if k = 2 then 5 else if k = 4 then 3 else 2) (sse : Bool) (M : ℕ)
    {x : ℕ → ℝ} {L : List (ℝ × ℝ × ℝ)} {ε B : ℝ} {N : ℕ} (h : Near x L ε B N) :
    Near ((iirStage .down sse (iirCoefs k p)).op x) (L.map (downMain (iirCoefs k p).length (seq (iirCoefs k p))))
      (3 ^ J * ε + J * 3 ^ J * (19 / 20) ^ M * (amps L + B)) (3 ^ J * (amps L + B)) ((N + 1) / 2 + J * M) := by
  have hl : (iirCoefs k p).length = (iirTab k p).length := by unfold iirCoefs iirTab; simp
  have hb : ∀ b < 2, branchLen (iirCoefs k p).length b ≤ J := by
    intro b hb
    rw [hl, hJ]
    exact iirCoefs_branch k hk p hp b hb
  have hc := iirCoefs_le hs hk hp
  have := iirDown_near hc (by norm_num) (fun b hb' => branchGain_le (fun i => (hc i).trans (by norm_num)) b _ _ (hb b hb')) hb M h
  rw [← hs.half] at this
  exact this

end stages

/-- A bound for the amplitudes. -/
theorem amps_map_le {f : ℝ × ℝ × ℝ → ℝ × ℝ × ℝ} {g : ℝ} {L : List (ℝ × ℝ × ℝ)} (h : ∀ a ∈ L, |(f a).1| ≤ g * |a.1|) :
    amps (L.map f) ≤ g * amps L := by
  induction L with
  | nil => simp [amps]
  | cons a L ih =>
    rw [List.map_cons, amps_cons, amps_cons, mul_add]
    exact add_le_add (h a (by simp)) (ih fun b hb => h b (by simp [hb]))

theorem amps_downMain (nc : ℕ) (c : ℕ → ℝ) (L : List (ℝ × ℝ × ℝ)) : amps (L.map (downMain nc c)) ≤ amps L := by
  refine (amps_map_le (g := 1) fun a _ => ?_).trans (le_of_eq (one_mul _))
  simp only [downMain, abs_mul]
  have := Real.abs_cos_le_one (iirDiff nc c a.2.1)
  nlinarith [abs_nonneg a.1]

theorem amps_upMain (nc : ℕ) (c : ℕ → ℝ) (L : List (ℝ × ℝ × ℝ)) : amps (L.map (upMain nc c)) ≤ amps L := by
  refine (amps_map_le (g := 1) fun a _ => ?_).trans (le_of_eq (one_mul _))
  simp only [upMain, abs_mul]
  have := Real.abs_cos_le_one (iirDiff nc c (a.2.1 / 2))
  nlinarith [abs_nonneg a.1]

theorem abs_cos_add_abs_sin (x : ℝ) : |Real.cos x| + |Real.sin x| ≤ 3 / 2 := by
  have h := Real.sin_sq_add_cos_sq x
  have h1 := sq_abs (Real.cos x)
  have h2 := sq_abs (Real.sin x)
  nlinarith [sq_nonneg (|Real.cos x| - |Real.sin x|), abs_nonneg (Real.cos x), abs_nonneg (Real.sin x)]

theorem amps_upList (nc : ℕ) (c : ℕ → ℝ) (L : List (ℝ × ℝ × ℝ)) : amps (upList nc c L) ≤ 3 / 2 * amps L := by
  unfold upList
  rw [amps_append]
  induction L with
  | nil => simp [amps]
  | cons a L ih =>
    rw [List.map_cons, List.map_cons, amps_cons, amps_cons, amps_cons]
    simp only [upMain, upImage, abs_mul, abs_neg]
    have := mul_le_mul_of_nonneg_left (abs_cos_add_abs_sin (iirDiff nc c (a.2.1 / 2))) (abs_nonneg a.1)
    linarith

theorem amps_upImage {nc : ℕ} {c : ℕ → ℝ} {e : ℝ} {L : List (ℝ × ℝ × ℝ)}
    (h : ∀ a ∈ L, |Real.sin (iirDiff nc c (a.2.1 / 2))| ≤ e) : amps (L.map (upImage nc c)) ≤ e * amps L := by
  refine amps_map_le fun a ha => ?_
  simp only [upImage, abs_mul, abs_neg]
  nlinarith [abs_nonneg a.1, h a ha]

theorem Near.congr {x : ℕ → ℝ} {L L' : List (ℝ × ℝ × ℝ)} {ε B : ℝ} {N : ℕ} (h : Near x L ε B N) (hL : ∀ s, tones L s = tones L' s) :
    Near x L' ε B N :=
  ⟨fun n => by rw [← hL]; exact h.all n, fun n hn => by rw [← hL]; exact h.late n hn⟩

/-- A sum of sinusoids and some more of small amplitude. -/
def NearPlus (x : ℕ → ℝ) (P : List (ℝ × ℝ × ℝ)) (q ε B : ℝ) (N : ℕ) : Prop := ∃ Q, amps Q ≤ q ∧ Near x (P ++ Q) ε B N

theorem up_plus {float : Bool} (hs : Constants float) {p : ℕ} (hp : p ∈ [8, 12, 16, 20, 24]) {k J : ℕ} (hk : k ∈ [2, 4, 8])
    (hJ : J = if k = 2 then 5 else if k = 4 then 3 else 2) (sse : Bool) (M : ℕ)
    {x : ℕ → ℝ} {P : List (ℝ × ℝ × ℝ)} {q ε B : ℝ} {N : ℕ} (h : NearPlus x P q ε B N)
    (hP : ∀ a ∈ P, |a.2.1 / 2| ≤ edge k) :
    NearPlus ((iirStage .up sse (iirCoefs k p)).op x) (P.map (upMain (iirCoefs k p).length (seq (iirCoefs k p))))
      (3 / 2 * q + atten (stopDb float p) * amps P)
      (3 ^ J * ε + J * 3 ^ J * (19 / 20) ^ M * (amps P + q + B)) (3 ^ J * (amps P + q + B)) (2 * (N + J * M)) := by
  obtain ⟨Q, hQ, h⟩ := h
  refine ⟨upList (iirCoefs k p).length (seq (iirCoefs k p)) Q ++ P.map (upImage (iirCoefs k p).length (seq (iirCoefs k p))), ?_, ?_⟩
  · rw [amps_append]
    have h1 := amps_upList (iirCoefs k p).length (seq (iirCoefs k p)) Q
    have h2 := amps_upImage (nc := (iirCoefs k p).length) (c := seq (iirCoefs k p)) (e := atten (stopDb float p)) (L := P)
      fun a ha => sin_stageDiff hs hk hp (hP a ha)
    linarith
  · have hB := h.nonneg.2
    have h1 := up_near hs hp hk hJ sse M h
    rw [amps_append] at h1
    refine (h1.mono ?_ ?_ le_rfl).congr fun s => ?_
    · gcongr
    · gcongr
    · unfold upList
      simp only [List.map_append, tones_append]
      ring

theorem NearPlus.mono {x : ℕ → ℝ} {P P' : List (ℝ × ℝ × ℝ)} {q q' ε ε' B B' : ℝ} {N N' : ℕ} (h : NearPlus x P q ε B N) (h0 : P = P')
    (h1 : q ≤ q') (h2 : ε ≤ ε') (h3 : B ≤ B') (h4 : N ≤ N') : NearPlus x P' q' ε' B' N' := by
  subst h0
  obtain ⟨Q, hQ, h⟩ := h
  exact ⟨Q, hQ.trans h1, h.mono h2 h3 h4⟩

theorem stopDb_le_one {float : Bool} {p : ℕ} (hp : p ∈ [8, 12, 16, 20, 24]) : atten (stopDb float p) ≤ 1 / 100 := by
  have h40 : 40 ≤ stopDb float p := by
    simp only [List.mem_cons, List.not_mem_nil, or_false] at hp
    rcases hp with rfl | rfl | rfl | rfl | rfl <;> cases float <;> decide
  have : atten (stopDb float p) ≤ atten 40 := by
    unfold atten
    refine Real.rpow_le_rpow_of_exponent_le (by norm_num) ?_
    have : (40 : ℝ) ≤ stopDb float p := by exact_mod_cast h40
    linarith
  refine this.trans (le_of_eq ?_)
  unfold atten
  rw [show (-40 / 20 : ℝ) = ((-2 : ℤ) : ℝ) by norm_num, Real.rpow_intCast]
  norm_num

theorem Config.precision_iir {cfg : Config} (hv : cfg.Valid) (hf : cfg.filter = .iir) : cfg.precision ∈ [8, 12, 16, 20, 24] := by
  have h1 := hv.precision
  have h2 := hv.iir hf
  simp at h1 ⊢
  omega

/-- Upsampling. -/
theorem Config.op_up_iir {float : Bool} (hs : Constants float) {cfg : Config} (hv : cfg.Valid) (hf : cfg.filter = .iir)
    (hm : cfg.mode = .up) {x : ℕ → ℝ} {L : List (ℝ × ℝ × ℝ)} {B : ℝ} {N : ℕ} (h : Near x L 0 B N)
    (hL : ∀ a ∈ L, |a.2.1| ≤ 40 * Real.pi / 49) (M : ℕ) :
    NearPlus (cfg.op x) (L.map cfg.upTone) (imageFactor cfg.ratio * atten (stopDb float cfg.precision) * amps L)
      (2 * 10 ^ 6 * (19 / 20) ^ M * (amps L + B)) (2 * 10 ^ 6 * (amps L + B)) (cfg.ratio * (N + 7 * M)) := by
  have hp := cfg.precision_iir hv hf
  have hr := hv.ratio
  have hB := h.nonneg.2
  have hA := amps_nonneg L
  have hρ : (0 : ℝ) ≤ (19 / 20) ^ M := by positivity
  have hat := atten_pos (stopDb float cfg.precision)
  have hat1 := stopDb_le_one (float := float) hp
  obtain ⟨T, hT⟩ : ∃ T, T = amps L + B := ⟨_, rfl⟩
  have hT0 : 0 ≤ T := by rw [hT]; positivity
  have hATT : atten (stopDb float cfg.precision) * amps L ≤ T := by nlinarith
  have start : NearPlus x L 0 0 B N := ⟨[], by simp [amps], by simpa using h⟩
  have hedge : ∀ k : ℕ, k ∈ [2, 4, 8] → ∀ w : ℝ, |w| ≤ 40 * Real.pi / 49 → |w / k| ≤ edge k := by
    intro k hk w hw
    have hk0 : (0 : ℝ) < k := by
      simp only [List.mem_cons, List.not_mem_nil, or_false] at hk
      rcases hk with rfl | rfl | rfl <;> norm_num
    rw [abs_div, abs_of_pos hk0, edge, ← div_div]
    exact div_le_div_of_nonneg_right hw hk0.le
  unfold Config.op
  rw [Config.stages_eq_iir hv hf, hm]
  simp only [List.mem_cons, List.not_mem_nil, or_false] at hr
  obtain ⟨ρ, hρd⟩ : ∃ ρ : ℝ, ρ = (19 / 20) ^ M := ⟨_, rfl⟩
  rw [← hρd] at hρ ⊢
  rw [← hT]
  obtain ⟨e, he⟩ : ∃ e : ℝ, e = atten (stopDb float cfg.precision) := ⟨_, rfl⟩
  rw [← he] at hat hat1 hATT ⊢
  have hρT : 0 ≤ ρ * T := by positivity
  have hAT : amps L ≤ T := by rw [hT]; linarith
  have s2 := up_plus hs hp (k := 2) (by simp) (J := 5) rfl cfg.iirSse M start fun a ha => by
    simpa using hedge 2 (by simp) _ (hL a ha)
  set L2 := L.map (upMain (iirCoefs 2 cfg.precision).length (seq (iirCoefs 2 cfg.precision))) with hL2
  have a2 : amps L2 ≤ amps L := amps_upMain _ _ _
  have t2 : NearPlus ((iirStage .up cfg.iirSse (iirCoefs 2 cfg.precision)).op x) L2 (e * amps L) (1215 * (ρ * T)) (243 * T)
      (2 * (N + 5 * M)) := by
    rw [← hρd, ← he] at s2
    refine s2.mono rfl ?_ (le_of_eq ?_) (le_of_eq ?_) le_rfl
    · linarith
    · rw [hT]; push_cast; ring
    · rw [hT]; ring
  have s4 := up_plus hs hp (k := 4) (by simp) (J := 3) rfl cfg.iirSse M t2 fun a ha => by
    obtain ⟨b, hb, rfl⟩ := List.mem_map.1 ha
    have := hedge 4 (by simp) _ (hL b hb)
    simp only [upMain]
    push_cast at this
    rwa [show b.2.1 / 2 / 2 = b.2.1 / 4 by ring]
  set L4 := L2.map (upMain (iirCoefs 4 cfg.precision).length (seq (iirCoefs 4 cfg.precision))) with hL4
  have a4 : amps L4 ≤ amps L := (amps_upMain _ _ _).trans a2
  have t4 : NearPlus ((iirStage .up cfg.iirSse (iirCoefs 4 cfg.precision)).op
      ((iirStage .up cfg.iirSse (iirCoefs 2 cfg.precision)).op x)) L4 (5 / 2 * e * amps L) (52650 * (ρ * T)) (6615 * T)
      (2 * (2 * (N + 5 * M) + 3 * M)) := by
    rw [← hρd, ← he] at s4
    have hsum : amps L2 + e * amps L + 243 * T ≤ 245 * T := by linarith
    refine s4.mono rfl ?_ ?_ ?_ (by omega)
    · nlinarith [mul_le_mul_of_nonneg_left a2 hat.le]
    · have := mul_le_mul_of_nonneg_left hsum hρ
      push_cast
      linarith
    · linarith
  have s8 := up_plus hs hp (k := 8) (by simp) (J := 2) rfl cfg.iirSse M t4 fun a ha => by
    obtain ⟨b, hb, rfl⟩ := List.mem_map.1 ha
    obtain ⟨d, hd, rfl⟩ := List.mem_map.1 hb
    have := hedge 8 (by simp) _ (hL d hd)
    simp only [upMain]
    push_cast at this
    rwa [show d.2.1 / 2 / 2 / 2 = d.2.1 / 8 by ring]
  rcases hr with hr | hr | hr | hr
  · rw [hr]
    refine start.mono ?_ (by simp [imageFactor]) (by positivity) ?_ ?_
    · conv_lhs => rw [← List.map_id L]
      refine List.map_congr_left fun a _ => ?_
      simp [Config.upTone, hr, Config.response, Config.phase, iirKeys]
    · rw [hT]; linarith
    · omega
  · rw [hr]
    refine NearPlus.mono t2 ?_ (by simp [imageFactor]) ?_ ?_ ?_
    · refine List.map_congr_left fun a _ => ?_
      simp [Config.upTone, hr, Config.response, Config.phase, iirKeys, upMain, stageDiff, stagePhase]
    · linarith
    · linarith
    · omega
  · rw [hr]
    refine NearPlus.mono t4 ?_ (by norm_num [imageFactor]) ?_ ?_ ?_
    · rw [hL4, hL2, List.map_map]
      refine List.map_congr_left fun a _ => ?_
      have e4 : a.2.1 / 2 / 2 = a.2.1 / 4 := by ring
      simp [Config.upTone, hr, Config.response, Config.phase, iirKeys, upMain, stageDiff, stagePhase, e4, mul_assoc, add_assoc]
    · linarith
    · linarith
    · omega
  · rw [hr]
    refine NearPlus.mono s8 ?_ ?_ ?_ ?_ ?_
    · rw [hL4, hL2, List.map_map, List.map_map]
      refine List.map_congr_left fun a _ => ?_
      have e4 : a.2.1 / 2 / 2 = a.2.1 / 4 := by ring
      have e8 : a.2.1 / 4 / 2 = a.2.1 / 8 := by ring
      simp [Config.upTone, hr, Config.response, Config.phase, iirKeys, upMain, stageDiff, stagePhase, e4, e8, mul_assoc, add_assoc]
    · rw [← he]
      norm_num [imageFactor]
      nlinarith [mul_le_mul_of_nonneg_left a4 hat.le]
    · rw [← hρd]
      have hsum : amps L4 + 5 / 2 * e * amps L + 6615 * T ≤ 6620 * T := by linarith
      have := mul_le_mul_of_nonneg_left hsum hρ
      push_cast
      linarith
    · linarith
    · omega

/-- Downsampling. -/
theorem Config.op_down_iir {float : Bool} (hs : Constants float) {cfg : Config} (hv : cfg.Valid) (hf : cfg.filter = .iir)
    (hm : cfg.mode = .down) {x : ℕ → ℝ} {L : List (ℝ × ℝ × ℝ)} {δ B : ℝ} {N : ℕ} (h : Near x L δ B N) (M : ℕ) :
    Near (cfg.op x) (L.map cfg.downTone) (2 * 10 ^ 6 * (19 / 20) ^ M * (amps L + B) + 59049 * δ) (2 * 10 ^ 6 * (amps L + B))
      (N / cfg.ratio + 1 + 7 * M) := by
  have hp := cfg.precision_iir hv hf
  have hr := hv.ratio
  obtain ⟨hδ, hB⟩ := h.nonneg
  have hA := amps_nonneg L
  have hρ : (0 : ℝ) ≤ (19 / 20) ^ M := by positivity
  obtain ⟨T, hT⟩ : ∃ T, T = amps L + B := ⟨_, rfl⟩
  have hT0 : 0 ≤ T := by rw [hT]; positivity
  have hAT : amps L ≤ T := by rw [hT]; linarith
  have hBT : B ≤ T := by rw [hT]; linarith
  unfold Config.op
  rw [Config.stages_eq_iir hv hf, hm]
  simp only [List.mem_cons, List.not_mem_nil, or_false] at hr
  obtain ⟨ρ, hρd⟩ : ∃ ρ : ℝ, ρ = (19 / 20) ^ M := ⟨_, rfl⟩
  rw [← hρd] at hρ ⊢
  rw [← hT]
  have hρT : 0 ≤ ρ * T := by positivity
  -- a stage, for rounded bounds
  have step : ∀ {k J : ℕ}, k ∈ [2, 4, 8] → (J = if k = 2 then 5 else if k = 4 then 3 else 2) →
      ∀ {x : ℕ → ℝ} {P : List (ℝ × ℝ × ℝ)} {a b e : ℝ} {N : ℕ}, Near x P (a * (ρ * T) + e) (b * T) N → amps P ≤ T →
      Near ((iirStage .down cfg.iirSse (iirCoefs k cfg.precision)).op x)
        (P.map (downMain (iirCoefs k cfg.precision).length (seq (iirCoefs k cfg.precision))))
        ((3 ^ J * a + J * 3 ^ J * (1 + b)) * (ρ * T) + 3 ^ J * e) (3 ^ J * (1 + b) * T) ((N + 1) / 2 + J * M) ∧
      amps (P.map (downMain (iirCoefs k cfg.precision).length (seq (iirCoefs k cfg.precision)))) ≤ T := by
    intro k J hk hJ x P a b e N hx hP
    have := down_near hs hp hk hJ cfg.iirSse M hx
    rw [← hρd] at this
    refine ⟨this.mono ?_ ?_ le_rfl, (amps_downMain _ _ _).trans hP⟩
    · have h1 : amps P + b * T ≤ (1 + b) * T := by linarith
      have h2 := mul_le_mul_of_nonneg_left h1 (by positivity : (0 : ℝ) ≤ J * 3 ^ J * ρ)
      linarith
    · have h1 : amps P + b * T ≤ (1 + b) * T := by linarith
      have h2 := mul_le_mul_of_nonneg_left h1 (by positivity : (0 : ℝ) ≤ 3 ^ J)
      linarith
  have start : Near x L (0 * (ρ * T) + δ) (1 * T) N := by
    rw [zero_mul, one_mul, zero_add]
    exact h.mono le_rfl hBT le_rfl
  rcases hr with hr | hr | hr | hr
  · rw [hr]
    have e : L.map cfg.downTone = L := by
      conv_rhs => rw [← List.map_id L]
      refine List.map_congr_left fun a _ => ?_
      simp [Config.downTone, hr, Config.response, Config.phase, iirKeys]
    rw [e]
    refine start.mono (by linarith) (by linarith) (by omega)
  · rw [hr]
    obtain ⟨h2, -⟩ := step (k := 2) (by simp) (J := 5) rfl start hAT
    have e : L.map cfg.downTone = L.map (downMain (iirCoefs 2 cfg.precision).length (seq (iirCoefs 2 cfg.precision))) := by
      refine List.map_congr_left fun a _ => ?_
      simp [Config.downTone, hr, Config.response, Config.phase, iirKeys, downMain, stageDiff, stagePhase]
      norm_num
    rw [e]
    refine Near.mono h2 ?_ ?_ (by omega)
    · norm_num
      linarith
    · norm_num
      linarith
  · rw [hr]
    obtain ⟨h4, a4⟩ := step (k := 4) (by simp) (J := 3) rfl start hAT
    obtain ⟨h2, -⟩ := step (k := 2) (by simp) (J := 5) rfl h4 a4
    have e : L.map cfg.downTone = (L.map (downMain (iirCoefs 4 cfg.precision).length (seq (iirCoefs 4 cfg.precision)))).map
        (downMain (iirCoefs 2 cfg.precision).length (seq (iirCoefs 2 cfg.precision))) := by
      rw [List.map_map]
      refine List.map_congr_left fun a _ => ?_
      have e2 : 4 * a.2.1 / 2 = 2 * a.2.1 := by ring
      have e3 : 2 * (2 * a.2.1) = 4 * a.2.1 := by ring
      have e4 : 4 * a.2.1 / 4 = a.2.1 := by ring
      simp only [Config.downTone, hr, Config.response, Config.phase, iirKeys, downMain, stageDiff, stagePhase, Function.comp]
      simp [e2, e3, e4]
      constructor
      · ring
      · ring
    rw [e]
    refine Near.mono h2 ?_ ?_ (by omega)
    · norm_num
      linarith
    · norm_num
      linarith
  · rw [hr]
    obtain ⟨h8, a8⟩ := step (k := 8) (by simp) (J := 2) rfl start hAT
    obtain ⟨h4, a4⟩ := step (k := 4) (by simp) (J := 3) rfl h8 a8
    obtain ⟨h2, -⟩ := step (k := 2) (by simp) (J := 5) rfl h4 a4
    have e : L.map cfg.downTone = ((L.map (downMain (iirCoefs 8 cfg.precision).length (seq (iirCoefs 8 cfg.precision)))).map
        (downMain (iirCoefs 4 cfg.precision).length (seq (iirCoefs 4 cfg.precision)))).map
        (downMain (iirCoefs 2 cfg.precision).length (seq (iirCoefs 2 cfg.precision))) := by
      rw [List.map_map, List.map_map]
      refine List.map_congr_left fun a _ => ?_
      have e2 : 8 * a.2.1 / 2 = 4 * a.2.1 := by ring
      have e3 : 2 * (2 * a.2.1) = 4 * a.2.1 := by ring
      have e4 : 8 * a.2.1 / 4 = 2 * a.2.1 := by ring
      have e5 : 8 * a.2.1 / 8 = a.2.1 := by ring
      have e6 : 2 * (4 * a.2.1) = 8 * a.2.1 := by ring
      simp only [Config.downTone, hr, Config.response, Config.phase, iirKeys, downMain, stageDiff, stagePhase, Function.comp]
      simp [e2, e3, e4, e5, e6]
      constructor
      · ring
      · ring
    rw [e]
    refine Near.mono h2 ?_ ?_ (by omega)
    · norm_num
      linarith
    · norm_num
      linarith

/-! ## Gain of whole resamplers -/

theorem Config.response_le_one (cfg : Config) (w : ℝ) : |cfg.response w| ≤ 1 := by
  unfold Config.response
  generalize iirKeys cfg.ratio = l
  induction l with
  | nil => simp
  | cons k l ih =>
    rw [List.map_cons, List.prod_cons, abs_mul]
    exact mul_le_one₀ (Real.abs_cos_le_one _) (abs_nonneg _) ih

theorem mem_iirKeys {k r : ℕ} (h : k ∈ iirKeys r) : k ∈ [2, 4, 8] := List.mem_of_mem_filter h

theorem Config.response_pass {float : Bool} (hs : Constants float) {cfg : Config} (hv : cfg.Valid) (hf : cfg.filter = .iir) {w : ℝ}
    (hw : |w| ≤ 40 * Real.pi / 49) : 1 - 3 * atten (stopDb float cfg.precision) ^ 2 ≤ cfg.response w ∧ cfg.response w ≤ 1 := by
  have hp := cfg.precision_iir hv hf
  refine ⟨?_, (le_abs_self _).trans (cfg.response_le_one w)⟩
  have hat := atten_pos (stopDb float cfg.precision)
  have hat1 := stopDb_le_one (float := float) hp
  set e := atten (stopDb float cfg.precision) with he
  have key : ∀ k ∈ [2, 4, 8], 1 - e ^ 2 ≤ Real.cos (stageDiff cfg.precision w k) := by
    intro k hk
    refine cos_iirDiff_pass (fun i => lt_of_le_of_lt (iirCoefs_le hs hk hp i) (by norm_num)) (by linarith) (e := edge k)
      (fun v hv => sin_stageDiff hs hk hp hv) ?_
    have hk0 : (0 : ℝ) < k := by
      simp only [List.mem_cons, List.not_mem_nil, or_false] at hk
      rcases hk with rfl | rfl | rfl <;> norm_num
    rw [abs_div, abs_of_pos hk0, edge, ← div_div]
    exact div_le_div_of_nonneg_right hw hk0.le
  have gen : ∀ l : List ℕ, (∀ k ∈ l, k ∈ [2, 4, 8]) →
      1 - l.length * e ^ 2 ≤ (l.map fun k => Real.cos (stageDiff cfg.precision w k)).prod ∧
      (l.map fun k => Real.cos (stageDiff cfg.precision w k)).prod ≤ 1 ∧
      0 ≤ (l.map fun k => Real.cos (stageDiff cfg.precision w k)).prod := by
    intro l hl
    induction l with
    | nil => simp
    | cons k l ih =>
      obtain ⟨i1, i2, i3⟩ := ih fun k hk => hl k (by simp [hk])
      have h1 := key k (hl k (by simp))
      have h2 := Real.cos_le_one (stageDiff cfg.precision w k)
      have h0 : 0 ≤ 1 - e ^ 2 := by nlinarith
      simp only [List.map_cons, List.prod_cons, List.length_cons]
      push_cast
      refine ⟨?_, by nlinarith, by nlinarith⟩
      nlinarith [mul_le_mul_of_nonneg_right h1 i3, sq_nonneg e]
  obtain ⟨g1, -, -⟩ := gen (iirKeys cfg.ratio) fun k hk => mem_iirKeys hk
  refine le_trans ?_ g1
  have hlen : (iirKeys cfg.ratio).length ≤ 3 := by
    unfold iirKeys
    exact (List.length_filter_le _ _).trans (by simp)
  have : ((iirKeys cfg.ratio).length : ℝ) ≤ 3 := by exact_mod_cast hlen
  nlinarith [sq_nonneg e]

theorem Config.response_stop {float : Bool} (hs : Constants float) {cfg : Config} (hv : cfg.Valid) (hf : cfg.filter = .iir) {w : ℝ}
    {j : ℤ} (hj : ¬ (cfg.ratio : ℤ) ∣ j) (hw : |w - 2 * Real.pi * j| ≤ 40 * Real.pi / 49) :
    |cfg.response w| ≤ atten (stopDb float cfg.precision) := by
  have hp := cfg.precision_iir hv hf
  have key : ∀ k : ℕ, k ∈ [2, 4, 8] → ∀ i : ℤ, 2 * j = (k : ℤ) * i → i % 2 ≠ 0 →
      |Real.cos (stageDiff cfg.precision w k)| ≤ atten (stopDb float cfg.precision) := by
    intro k hk i hi hodd
    have hk0 : (0 : ℝ) < k := by
      simp only [List.mem_cons, List.not_mem_nil, or_false] at hk
      rcases hk with rfl | rfl | rfl <;> norm_num
    have hi' : (2 : ℝ) * j = k * i := by exact_mod_cast hi
    have e : w / k = (w - 2 * Real.pi * j) / k + i * Real.pi := by
      rw [show 2 * Real.pi * j = Real.pi * (2 * j) by ring, hi']
      field_simp
      ring
    unfold stageDiff
    rw [e, cos_iirDiff_shift, if_neg hodd]
    refine sin_stageDiff hs hk hp ?_
    rw [abs_div, abs_of_pos hk0, edge, ← div_div]
    exact div_le_div_of_nonneg_right hw hk0.le
  have mem : ∀ k ∈ iirKeys cfg.ratio, |cfg.response w| ≤ |Real.cos (stageDiff cfg.precision w k)| := by
    intro k hk
    unfold Config.response
    generalize iirKeys cfg.ratio = l at hk
    induction l with
    | nil => simp at hk
    | cons a l ih =>
      rw [List.map_cons, List.prod_cons, abs_mul]
      rcases List.mem_cons.1 hk with rfl | hk
      · have : |(l.map fun k => Real.cos (stageDiff cfg.precision w k)).prod| ≤ 1 := by
          clear ih hk
          induction l with
          | nil => simp
          | cons k l ih =>
            rw [List.map_cons, List.prod_cons, abs_mul]
            exact mul_le_one₀ (Real.abs_cos_le_one _) (abs_nonneg _) ih
        exact mul_le_of_le_one_right (abs_nonneg _) this
      · exact (mul_le_of_le_one_left (abs_nonneg _) (Real.abs_cos_le_one _)).trans (ih hk)
  have hr := hv.ratio
  simp only [List.mem_cons, List.not_mem_nil, or_false] at hr
  by_cases h2 : j % 2 = 0
  · obtain ⟨i, rfl⟩ : (2 : ℤ) ∣ j := Int.dvd_of_emod_eq_zero h2
    by_cases h4 : i % 2 = 0
    · obtain ⟨l, rfl⟩ : (2 : ℤ) ∣ i := Int.dvd_of_emod_eq_zero h4
      have h8 : cfg.ratio = 8 := by
        rcases hr with hr | hr | hr | hr <;> rw [hr] at hj <;> omega
      refine (mem 8 (by rw [h8]; decide)).trans (key 8 (by simp) l (by push_cast; ring) ?_)
      rw [h8] at hj
      omega
    · have h8 : cfg.ratio = 4 ∨ cfg.ratio = 8 := by
        rcases hr with hr | hr | hr | hr <;> rw [hr] at hj <;> omega
      refine (mem 4 ?_).trans (key 4 (by simp) i (by push_cast; ring) h4)
      rcases h8 with h8 | h8 <;> rw [h8] <;> decide
  · have h8 : cfg.ratio = 2 ∨ cfg.ratio = 4 ∨ cfg.ratio = 8 := by
      rcases hr with hr | hr | hr | hr <;> rw [hr] at hj <;> omega
    refine (mem 2 ?_).trans (key 2 (by simp) j rfl h2)
    rcases h8 with h8 | h8 | h8 <;> rw [h8] <;> decide

theorem amps_downTone (cfg : Config) (L : List (ℝ × ℝ × ℝ)) : amps (L.map cfg.downTone) ≤ amps L := by
  refine (amps_map_le (g := 1) fun a _ => ?_).trans (le_of_eq (one_mul _))
  simp only [Config.downTone, abs_mul]
  have := cfg.response_le_one (cfg.ratio * a.2.1)
  nlinarith [abs_nonneg a.1]

theorem amps_upTone (cfg : Config) (L : List (ℝ × ℝ × ℝ)) : amps (L.map cfg.upTone) ≤ amps L := by
  refine (amps_map_le (g := 1) fun a _ => ?_).trans (le_of_eq (one_mul _))
  simp only [Config.upTone, abs_mul]
  have := cfg.response_le_one a.2.1
  nlinarith [abs_nonneg a.1]

theorem imageFactor_le (r : ℕ) : 0 ≤ imageFactor r ∧ imageFactor r ≤ 5 := by
  unfold imageFactor
  split_ifs <;> norm_num

/-- Upsampling and downsampling. -/
theorem Config.op_round_trip_iir {float : Bool} (hs : Constants float) {cu cd : Config} (hu : cu.Valid) (hd : cd.Valid)
    (hfu : cu.filter = .iir) (hfd : cd.filter = .iir) (hmu : cu.mode = .up) (hmd : cd.mode = .down) (hr : cd.ratio = cu.ratio)
    {x : ℕ → ℝ} {L : List (ℝ × ℝ × ℝ)} {B : ℝ} {N : ℕ} (h : Near x L 0 B N) (hL : ∀ a ∈ L, |a.2.1| ≤ 40 * Real.pi / 49) (M : ℕ)
    {m : ℕ} (hm : N + 1 + 14 * M ≤ m) :
    |cd.op (cu.op x) m - tones ((L.map cu.upTone).map cd.downTone) m| ≤
      imageFactor cu.ratio * atten (stopDb float cu.precision) * amps L + 10 ^ 13 * (19 / 20) ^ M * (amps L + B) := by
  obtain ⟨Q, hQ, h1⟩ := Config.op_up_iir hs hu hfu hmu h hL M
  have h2 := (Config.op_down_iir hs hd hfd hmd h1 M).late m (by
    have hr0 : 0 < cu.ratio := by
      have := hu.ratio
      simp only [List.mem_cons, List.not_mem_nil, or_false] at this
      omega
    rw [hr, Nat.mul_div_cancel_left _ hr0]
    omega)
  rw [List.map_append, tones_append] at h2
  have h3 := (abs_tones_le (Q.map cd.downTone) m).trans ((amps_downTone cd Q).trans hQ)
  have hA := amps_nonneg L
  have hB := h.nonneg.2
  have hρ : (0 : ℝ) ≤ (19 / 20) ^ M := by positivity
  have hat := stopDb_le_one (float := float) (cu.precision_iir hu hfu)
  have hat0 := atten_pos (stopDb float cu.precision)
  obtain ⟨i0, i1⟩ := imageFactor_le cu.ratio
  have hQ' : amps Q ≤ amps L := by
    refine hQ.trans ?_
    have : imageFactor cu.ratio * atten (stopDb float cu.precision) ≤ 5 * (1 / 100) := mul_le_mul i1 hat hat0.le (by norm_num)
    nlinarith
  have h4 : amps (L.map cu.upTone ++ Q) ≤ 2 * amps L := by
    rw [amps_append]
    have := amps_upTone cu L
    linarith
  have h5 : 2 * 10 ^ 6 * (19 / 20) ^ M * (amps (L.map cu.upTone ++ Q) + 2 * 10 ^ 6 * (amps L + B)) +
      59049 * (2 * 10 ^ 6 * (19 / 20) ^ M * (amps L + B)) ≤ 10 ^ 13 * (19 / 20) ^ M * (amps L + B) := by
    have : amps (L.map cu.upTone ++ Q) + 2 * 10 ^ 6 * (amps L + B) + 59049 * (amps L + B) ≤ 5 * 10 ^ 6 * (amps L + B) := by linarith
    have := mul_le_mul_of_nonneg_left this (by positivity : (0 : ℝ) ≤ 2 * 10 ^ 6 * (19 / 20) ^ M)
    linarith
  have h6 := h2.trans h5
  rw [abs_le] at h6 h3 ⊢
  constructor <;> linarith [h6.1, h6.2, h3.1, h3.2]

end Panda
