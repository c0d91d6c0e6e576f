import Verif.Proofs.DelayConst
import Verif.Spec.DelayBand

/-! # Group delays of the IIR filters at all frequencies -/

namespace Panda

/-- The group delay of sections with coefficients in `[0, 1)` falls with the cosine of the angle. -/
theorem listDelay_anti {c c' : ℝ} (hc : -1 ≤ c) (h : c ≤ c') : ∀ l : List (ℤ × ℤ), (∀ q ∈ l, 0 ≤ q.1 ∧ q.1 < q.2) → listDelay l c' ≤ listDelay l c
  | [], _ => le_rfl
  | q :: l, hl => by
    obtain ⟨h0, h1⟩ := hl q (by simp)
    have h0' : (0 : ℝ) ≤ q.1 := by exact_mod_cast h0
    have h1' : (q.1 : ℝ) < q.2 := by exact_mod_cast h1
    have ih := listDelay_anti hc h l fun q hq => hl q (by simp [hq])
    simp only [listDelay, List.map_cons, List.sum_cons] at ih ⊢
    refine add_le_add ?_ ih
    have a0 : 0 ≤ pairVal q := div_nonneg h0' (by linarith)
    have a1 : pairVal q < 1 := by
      unfold pairVal
      rw [div_lt_one (by linarith)]
      exact h1'
    generalize pairVal q = a at a0 a1
    have hn : 0 ≤ 2 * (1 - a ^ 2) := by nlinarith
    have hd : 0 < a ^ 2 + 2 * a * c + 1 := by nlinarith [sq_nonneg (1 - a), mul_nonneg a0 (by linarith : 0 ≤ c + 1)]
    refine div_le_div_of_nonneg_left hn hd ?_
    nlinarith

theorem pairs_range : ∀ k ∈ [2, 4, 8], ∀ p ∈ [8, 12, 16, 20, 24], (∀ q ∈ iirPairs k p, 0 ≤ q.1 ∧ q.1 < q.2) ∧
    ∀ q ∈ iirPairs32 k p, 0 ≤ q.1 ∧ q.1 < q.2 := by
  decide +kernel

/-- Group delay of a stage at the angle `v`, in samples of its higher rate. -/
noncomputable def pairsDelay (l : List (ℤ × ℤ)) (v : ℝ) : ℝ :=
  (listDelay (everyOther l) (Real.cos (2 * v)) + listDelay (everyOther l.tail) (Real.cos (2 * v)) + 1) / 2

theorem pairsDelay_mono {l : List (ℤ × ℤ)} (hl : ∀ q ∈ l, 0 ≤ q.1 ∧ q.1 < q.2) {v v' : ℝ} (h0 : 0 ≤ v) (h : v ≤ v') (h1 : 2 * v' ≤ Real.pi) :
    pairsDelay l v ≤ pairsDelay l v' := by
  have hc : Real.cos (2 * v') ≤ Real.cos (2 * v) := Real.cos_le_cos_of_nonneg_of_le_pi (by linarith) h1 (by linarith)
  have a := listDelay_anti (Real.neg_one_le_cos _) hc (everyOther l) fun q hq => hl q (mem_everyOther hq)
  have b := listDelay_anti (Real.neg_one_le_cos _) hc (everyOther l.tail) fun q hq => hl q (List.mem_of_mem_tail (mem_everyOther hq))
  unfold pairsDelay
  linarith

/-- `2 · 2 π 1000 F / (44100 k)` -/
def bandIv (F k : ℕ) : Iv := (Iv.pi.nsmul (40 * F)).divN (441 * k)

/-- The delay constant plus `devMicro`. -/
def devPair (F k p : ℕ) : ℤ × ℤ :=
  ((iirGd k p).m * 10 ^ 6 + devMicro F k p * (10 ^ (iirGd k p).e : ℕ), (10 ^ (iirGd k p).e : ℕ) * 10 ^ 6)

set_option maxRecDepth 4000 in
theorem band_checks : ∀ F ∈ ([0, 1, 10, 20] : List ℕ), ∀ k ∈ [2, 4, 8], ∀ p ∈ [8, 12, 16, 20, 24],
    delayCheck (bandIv F k).cos (iirPairs k p) (devPair F k p) (10 ^ 43) (10 ^ 34) = true ∧
    delayCheck (bandIv F k).cos (iirPairs32 k p) (devPair F k p) (10 ^ 43) (10 ^ 34) = true := by
  decide +kernel

theorem band_has {F k : ℕ} (hF : F ≤ 20) (hk : 0 < k) : (bandIv F k).cos.Has (Real.cos (2 * (F * (20 * Real.pi / 441) / k))) := by
  have h := (Iv.has_pi.nsmul (40 * F)).divN (by omega : 0 < 441 * k)
  push_cast at h
  have hk' : (1 : ℝ) ≤ k := by exact_mod_cast hk
  have hF' : (F : ℝ) ≤ 20 := by exact_mod_cast hF
  have hp := Real.pi_pos
  have hp4 := Real.pi_le_four
  rw [show 2 * (F * (20 * Real.pi / 441) / k) = 40 * F * Real.pi / (441 * (k : ℝ)) by field_simp; ring]
  refine h.cos ?_
  rw [abs_of_nonneg (by positivity), div_le_iff₀ (by positivity)]
  have : 40 * (F : ℝ) * Real.pi ≤ 40 * 20 * 4 := by
    have := mul_le_mul hF' hp4 hp.le (by norm_num)
    linarith
  nlinarith

theorem pairVal_dev (F k p : ℕ) : pairVal (devPair F k p) = ((iirGd k p).toRat : ℝ) + (devMicro F k p : ℝ) / 10 ^ 6 := by
  have h : ((10 ^ (iirGd k p).e : ℕ) : ℝ) ≠ 0 := by positivity
  rw [← pairVal_gd]
  unfold pairVal devPair
  push_cast at h ⊢
  field_simp
  norm_num
  ring

/-- The coefficients of a stage as fractions, and its group delay at all frequencies. -/
theorem stage_band [Sample ℝ] {float : Bool} (hs : Constants float) {k p : ℕ} (hk : k ∈ [2, 4, 8]) (hp : p ∈ [8, 12, 16, 20, 24]) :
    ∃ τ : ℝ → ℝ, (∀ w, HasDerivAt (fun w => stagePhase p w k) (-(τ w / k)) w) ∧
      (∀ w w', 0 ≤ w → w ≤ w' → w' ≤ Real.pi → τ w ≤ τ w') ∧
      ∀ F ∈ ([0, 1, 10, 20] : List ℕ), |τ (F * (20 * Real.pi / 441)) - (((iirGd k p).toRat : ℝ) + (devMicro F k p : ℝ) / 10 ^ 6)| ≤ 1 / 10 ^ 6 := by
  have hk0 : 0 < k := by
    simp only [List.mem_cons, List.not_mem_nil, or_false] at hk
    omega
  have hk2 : 2 ≤ k := by
    simp only [List.mem_cons, List.not_mem_nil, or_false] at hk
    omega
  have hk2' : (2 : ℝ) ≤ k := by exact_mod_cast hk2
  have hk1 : (0 : ℝ) < k := by exact_mod_cast hk0
  obtain ⟨l, hl, hc, hd⟩ : ∃ l : List (ℤ × ℤ), (∀ q ∈ l, 0 ≤ q.1 ∧ q.1 < q.2) ∧ iirCoefs k p = l.map pairVal ∧
      ∀ F ∈ ([0, 1, 10, 20] : List ℕ), delayCheck (bandIv F k).cos l (devPair F k p) (10 ^ 43) (10 ^ 34) = true := by
    cases float with
    | false => exact ⟨_, (pairs_range k hk p hp).1, iirCoefs_exact hs, fun F hF => (band_checks F hF k hk p hp).1⟩
    | true => exact ⟨_, (pairs_range k hk p hp).2, iirCoefs_float hs hk hp, fun F hF => (band_checks F hF k hk p hp).2⟩
  have hl' : ∀ q ∈ l, |q.1| < q.2 := fun q hq => by
    rw [abs_of_nonneg (hl q hq).1]
    exact (hl q hq).2
  refine ⟨fun w => pairsDelay l (w / k), fun w => ?_, fun w w' h0 h1 h2 => ?_, fun F hF => ?_⟩
  · unfold stagePhase
    rw [hc, List.length_map]
    have h2 : HasDerivAt (fun w : ℝ => w / k) (1 / k) w := (hasDerivAt_id _).div_const _
    have h3 := (hasDerivAt_iirPhase hl' (w / k)).comp w h2
    refine h3.congr_deriv ?_
    unfold pairsDelay
    ring
  · refine pairsDelay_mono hl (by positivity) (div_le_div_of_nonneg_right h1 hk1.le) ?_
    rw [← mul_div_assoc, div_le_iff₀ hk1]
    have := Real.pi_pos
    nlinarith
  · have hF20 : F ≤ 20 := by
      simp only [List.mem_cons, List.not_mem_nil, or_false] at hF
      omega
    have hpos : 0 < (devPair F k p).2 := by
      have := iirGd_pos k p
      unfold devPair
      simp only
      positivity
    have h1 := (delayCheck_sound (band_has hF20 hk0) hl' hpos (hd F hF)).2
    rw [pairVal_dev] at h1
    unfold pairsDelay
    refine h1.trans (le_of_eq ?_)
    norm_num

/-- The delay constants of the stages, in samples of the lower rate. -/
noncomputable def lowDelay (cfg : Config) : ℝ := ((iirKeys cfg.ratio).map fun k => ((iirGd k cfg.precision).toRat : ℝ) / k).sum

/-- Group delay of an IIR resampler at all frequencies, in samples of the lower rate. -/
theorem Config.phase_band [Sample ℝ] {float : Bool} (hs : Constants float) {cfg : Config} (hv : cfg.Valid) (hf : cfg.filter = .iir) :
    ∃ τ : ℝ → ℝ, (∀ w, HasDerivAt cfg.phase (-τ w) w) ∧ (∀ w w', 0 ≤ w → w ≤ w' → w' ≤ Real.pi → τ w ≤ τ w') ∧
      ∀ F ∈ ([0, 1, 10, 20] : List ℕ), |τ (F * (20 * Real.pi / 441)) - (lowDelay cfg + delayDev F cfg.ratio cfg.precision)| ≤ 1 / 10 ^ 6 := by
  have hp := cfg.precision_iir hv hf
  have gen : ∀ l : List ℕ, (∀ k ∈ l, k ∈ [2, 4, 8]) →
      ∃ τ : ℝ → ℝ, (∀ w, HasDerivAt (fun w => (l.map fun k => stagePhase cfg.precision w k).sum) (-τ w) w) ∧
        (∀ w w', 0 ≤ w → w ≤ w' → w' ≤ Real.pi → τ w ≤ τ w') ∧
        ∀ F ∈ ([0, 1, 10, 20] : List ℕ), |τ (F * (20 * Real.pi / 441)) - ((l.map fun k => ((iirGd k cfg.precision).toRat : ℝ) / k).sum +
          (l.map fun k => (devMicro F k cfg.precision : ℝ) / k).sum / 10 ^ 6)| ≤ (l.map fun k : ℕ => 1 / (k : ℝ)).sum * (1 / 10 ^ 6) := by
    intro l hl
    induction l with
    | nil => exact ⟨fun _ => 0, fun w => by simpa using hasDerivAt_const w (0 : ℝ), fun _ _ _ _ _ => le_rfl, fun F _ => by simp⟩
    | cons k l ih =>
      obtain ⟨τ, h1, h2, h3⟩ := ih fun k hk => hl k (by simp [hk])
      obtain ⟨σ, g1, g2, g3⟩ := stage_band hs (hl k (by simp)) hp
      have hk0 : (0 : ℝ) < k := by
        have := hl k (by simp)
        simp only [List.mem_cons, List.not_mem_nil, or_false] at this
        have : 0 < k := by omega
        exact_mod_cast this
      refine ⟨fun w => σ w / k + τ w, fun w => ?_, fun w w' a b c => ?_, fun F hF => ?_⟩
      · simp only [List.map_cons, List.sum_cons]
        rw [neg_add]
        exact (g1 w).add (h1 w)
      · exact add_le_add (div_le_div_of_nonneg_right (g2 w w' a b c) hk0.le) (h2 w w' a b c)
      · simp only [List.map_cons, List.sum_cons]
        have e1 := h3 F hF
        have e2 := div_le_div_of_nonneg_right (g3 F hF) hk0.le
        rw [← abs_of_pos hk0, ← abs_div, abs_of_pos hk0] at e2
        refine le_trans (le_of_eq ?_) ((abs_add_le _ _).trans ((add_le_add e2 e1).trans (le_of_eq ?_)))
        · congr 1
          field_simp
          ring
        · field_simp
  obtain ⟨τ, h1, h2, h3⟩ := gen (iirKeys cfg.ratio) (by
    intro k hk
    unfold iirKeys at hk
    exact (List.mem_filter.1 hk).1)
  refine ⟨τ, h1, h2, fun F hF => ?_⟩
  have e := h3 F hF
  unfold lowDelay delayDev
  push_cast
  rw [List.map_map, show (Rat.cast ∘ fun k : ℕ => (devMicro F k cfg.precision : ℚ) / k) = fun k : ℕ => (devMicro F k cfg.precision : ℝ) / k by
    funext k
    simp]
  refine e.trans ?_
  have := hv.ratio
  simp only [List.mem_cons, List.not_mem_nil, or_false] at this
  rcases this with h | h | h | h <;> rw [h] <;> norm_num [iirKeys, List.filter]

end Panda
