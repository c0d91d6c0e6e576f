import Verif.Proofs.Sine
import Verif.Proofs.Query

/-!
# Sinusoids through whole FIR resamplers
-/

set_option linter.unusedSectionVars false

namespace Panda

open Finset

/-- Errors of stages one after the other, in units of `c`. -/
def errFold {K : Type} [Field K] (es : List K) (c δ : K) : K := es.foldl (fun δ e => (1 + e) * δ + e * c) δ

/-- The stages of a resampler, in the order of the signal path. -/
def stageKeys (m : Mode) (r : ℕ) : List ℕ :=
  match m with
  | .up => [2, 4, 8].filter (· ≤ r)
  | .down => [8, 4, 2].filter (· ≤ r)

/-- Errors of the amplitude responses of the stages. -/
def ampErrs (m : Mode) (r p : ℕ) : List ℚ :=
  (stageKeys m r).map fun k => match m with | .up => ampErr k p | .down => ampErr k p / 2

/-- Bound for the error of sinusoids in the passband, relative to their amplitude. -/
def sineErr (m : Mode) (r p : ℕ) : ℚ := errFold (ampErrs m r p) 1 0

/-- Bound for what is left of a sinusoid with amplitude 1 in the stopband. -/
def stopErr (r p : ℕ) : ℚ :=
  let e := fun k => ampErr k p / 2
  if r = 2 then e 2
  else if r = 4 then max (e 2 * (1 + e 4)) (e 4 * (1 + e 2))
  else max (e 2 * ((1 + e 4) * (1 + e 8))) (max (e 4 * ((1 + e 2) * (1 + e 8))) (e 8 * ((1 + e 2) * (1 + e 4))))

theorem errFold_smul (es : List ℝ) (c δ : ℝ) : errFold es c (δ * c) = errFold es 1 δ * c := by
  induction es generalizing δ with
  | nil => rfl
  | cons e es ih =>
    unfold errFold at ih ⊢
    simp only [List.foldl_cons]
    rw [← ih]
    congr 1
    ring

theorem errFold_cast (es : List ℚ) (c δ : ℚ) : ((errFold es c δ : ℚ) : ℝ) = errFold (es.map fun e => (e : ℝ)) (c : ℝ) (δ : ℝ) := by
  induction es generalizing δ with
  | nil => rfl
  | cons e es ih =>
    unfold errFold at ih ⊢
    simp only [List.foldl_cons]
    rw [ih]
    push_cast
    rfl

variable [Sample ℝ] [Accurate ℝ]

theorem Config.tables_keys (cfg : Config) : cfg.tables = (stageKeys cfg.mode cfg.ratio).map fun k => tab k cfg.precision := by
  unfold Config.tables stageKeys
  cases cfg.mode <;> rfl

theorem edge_eq (k : ℕ) : edge k = 40 * Real.pi / 49 / k := by
  unfold edge
  rw [div_div]

theorem NearSine.cast {x : ℕ → ℝ} {C ω φ δ ε ω' φ' δ' ε' : ℝ} {N : ℕ} (h : NearSine x C ω φ δ ε N) (h1 : ω = ω') (h2 : φ = φ')
    (h3 : δ = δ') (h4 : ε = ε') : NearSine x C ω' φ' δ' ε' N := by
  subst h1 h2 h3 h4
  exact h

theorem NearSine.shift {x : ℕ → ℝ} {C C' ω φ δ ε η : ℝ} {N : ℕ} (h : NearSine x C ω φ δ ε N) (hC : |C - C'| ≤ η) :
    NearSine x C' ω φ (δ + η) ε N := by
  obtain ⟨L, hL, h⟩ := h
  refine ⟨(C - C', ω, φ) :: L, ?_, ?_⟩
  · rw [amps_cons]
    simp only
    linarith
  · intro n hn
    have h1 := h n hn
    rw [tones_cons] at h1 ⊢
    rw [tones_cons]
    simp only at h1 ⊢
    convert h1 using 2
    ring

/-- Two factors near 1. -/
theorem near_one_mul {a b e f : ℝ} (he : 0 ≤ e) (ha : |a - 1| ≤ e) (hb : |b - 1| ≤ f) : |a * b - 1| ≤ (1 + e) * (1 + f) - 1 := by
  have h1 : a * b - 1 = (a - 1) * (b - 1) + (a - 1) + (b - 1) := by ring
  have h2 : |(a - 1) * (b - 1)| ≤ e * f := by
    rw [abs_mul]
    exact mul_le_mul ha hb (abs_nonneg _) he
  have h3 := abs_add_le ((a - 1) * (b - 1) + (a - 1)) (b - 1)
  have h4 := abs_add_le ((a - 1) * (b - 1)) (a - 1)
  rw [h1]
  nlinarith

theorem abs_mul_le' {a b A B : ℝ} (ha : |a| ≤ A) (hb : |b| ≤ B) : |a * b| ≤ A * B := by
  rw [abs_mul]
  exact mul_le_mul ha hb (abs_nonneg _) (le_trans (abs_nonneg _) ha)

/-- Upsampling. -/
theorem Config.op_up_sine {cfg : Config} (hv : cfg.Valid) (hf : cfg.filter = .fir) (hm : cfg.mode = .up) {x : ℕ → ℝ}
    {C ω φ δ ε : ℝ} {N : ℕ} (h : NearSine x C ω φ δ ε N) (hω : |ω| ≤ 40 * Real.pi / 49) :
    NearSine (cfg.op x) C (ω / cfg.ratio) (φ - ω / cfg.ratio * (cfg.totalDelay : ℚ))
      (errFold ((ampErrs .up cfg.ratio cfg.precision).map fun e => (e : ℝ)) |C| δ) ((cfg.gain : ℚ) * ε)
      (cascadeSettle (cfg.stages (F := ℝ)) N) := by
  have hp := hv.precision
  have hlen : ∀ k ∈ [2, 4, 8], cfg.stageDelay k = ((tab k cfg.precision).length : ℚ) - 1 := by
    intro k hk
    unfold Config.stageDelay
    rw [hf, hm]
    have := (tab_facts k hk _ hp).2.2
    simp only
    rw [show (firTable k cfg.precision).getD [] = tab k cfg.precision from rfl, Nat.cast_sub (by omega), Nat.cast_one]
  have hl2 := hlen 2 (by simp)
  have hl4 := hlen 4 (by simp)
  have hl8 := hlen 8 (by simp)
  have hedge : ∀ k : ℕ, k ∈ [2, 4, 8] → |ω / k| ≤ edge k := by
    intro k hk
    have hk0 : (0 : ℝ) < k := by
      simp only [List.mem_cons, List.not_mem_nil, or_false] at hk
      rcases hk with rfl | rfl | rfl <;> norm_num
    rw [abs_div, abs_of_pos hk0, edge_eq]
    exact div_le_div_of_nonneg_right hω hk0.le
  have e2 := hedge 2 (by simp)
  have e4 := hedge 4 (by simp)
  have e8 := hedge 8 (by simp)
  push_cast at e2 e4 e8
  have hr := hv.ratio
  unfold Config.op Config.gain Config.totalDelay
  rw [Config.stages_eq_tables hv hf, Config.tables_keys, hm]
  simp only [List.mem_cons, List.not_mem_nil, or_false] at hr
  rcases hr with hr | hr | hr | hr <;> rw [hr]
  · rw [show stageKeys .up 1 = [] from rfl, show ampErrs .up 1 cfg.precision = [] from rfl]
    exact h.cast (by simp) (by simp) rfl (by simp)
  · have k2 := up_sine (k := 2) (by simp) hp cfg.vec h e2
    rw [show stageKeys .up 2 = [2] from rfl, show ampErrs .up 2 cfg.precision = [ampErr 2 cfg.precision] from rfl]
    refine NearSine.cast k2 ?_ ?_ rfl ?_
    · norm_num
    · norm_num
      rw [hl2]
      left
      push_cast
      ring
    · simp
  · have k2 := up_sine (k := 2) (by simp) hp cfg.vec h e2
    have k4 := up_sine (k := 4) (by simp) hp cfg.vec k2 (by rw [show ω / 2 / 2 = ω / 4 by ring]; exact e4)
    rw [show stageKeys .up 4 = [2, 4] from rfl,
      show ampErrs .up 4 cfg.precision = [ampErr 2 cfg.precision, ampErr 4 cfg.precision] from rfl]
    refine NearSine.cast k4 ?_ ?_ rfl ?_
    · push_cast
      ring
    · norm_num
      rw [hl2, hl4]
      push_cast
      ring
    · simp
      ring
  · have k2 := up_sine (k := 2) (by simp) hp cfg.vec h e2
    have k4 := up_sine (k := 4) (by simp) hp cfg.vec k2 (by rw [show ω / 2 / 2 = ω / 4 by ring]; exact e4)
    have k8 := up_sine (k := 8) (by simp) hp cfg.vec k4 (by rw [show ω / 2 / 2 / 2 = ω / 8 by ring]; exact e8)
    rw [show stageKeys .up 8 = [2, 4, 8] from rfl,
      show ampErrs .up 8 cfg.precision = [ampErr 2 cfg.precision, ampErr 4 cfg.precision, ampErr 8 cfg.precision] from rfl]
    refine NearSine.cast k8 ?_ ?_ rfl ?_
    · push_cast
      ring
    · norm_num
      rw [hl2, hl4, hl8]
      push_cast
      ring
    · simp
      ring

/-- Downsampling: `|r ω - 2 π j| ≤ 2 π · 18000 / 44100`. The sinusoid passes if `r ∣ j` and is suppressed otherwise. -/
theorem Config.op_down_sine {cfg : Config} (hv : cfg.Valid) (hf : cfg.filter = .fir) (hm : cfg.mode = .down) {x : ℕ → ℝ}
    {C ω φ δ ε : ℝ} {N : ℕ} (h : NearSine x C ω φ δ ε N) {j : ℤ} (hω : |cfg.ratio * ω - 2 * Real.pi * j| ≤ 40 * Real.pi / 49) :
    NearSine (cfg.op x) (if (cfg.ratio : ℤ) ∣ j then C else 0) (cfg.ratio * ω) (φ - cfg.ratio * ω * (cfg.totalDelay : ℚ))
      (errFold ((ampErrs .down cfg.ratio cfg.precision).map fun e => (e : ℝ)) 0 δ +
        if (cfg.ratio : ℤ) ∣ j then (sineErr .down cfg.ratio cfg.precision : ℚ) * |C| else (stopErr cfg.ratio cfg.precision : ℚ) * |C|)
      ((cfg.gain : ℚ) * ε) (cascadeSettle (cfg.stages (F := ℝ)) N) := by
  have hp := hv.precision
  have hlen : ∀ k ∈ [2, 4, 8], cfg.stageDelay k = (((tab k cfg.precision).length : ℚ) - 1) / 2 := by
    intro k hk
    unfold Config.stageDelay
    rw [hf, hm]
    have := (tab_facts k hk _ hp).2.1
    simp only
    rw [show (firTable k cfg.precision).getD [] = tab k cfg.precision from rfl]
    obtain ⟨l, hl⟩ : 2 ∣ (tab k cfg.precision).length := Nat.dvd_of_mod_eq_zero this
    rw [hl, Nat.mul_div_cancel_left _ (by norm_num)]
    push_cast
    ring
  have hl2 := hlen 2 (by simp)
  have hl4 := hlen 4 (by simp)
  have hl8 := hlen 8 (by simp)
  have hr := hv.ratio
  obtain ⟨b2, c2⟩ := amp_down (k := 2) (by simp) hp (cfg.ratio / 2 * ω)
  obtain ⟨b4, c4⟩ := amp_down (k := 4) (by simp) hp (cfg.ratio / 4 * ω)
  obtain ⟨b8, c8⟩ := amp_down (k := 8) (by simp) hp (cfg.ratio / 8 * ω)
  have p2 := ampErr_nonneg 2 cfg.precision
  have p4 := ampErr_nonneg 4 cfg.precision
  have p8 := ampErr_nonneg 8 cfg.precision
  have q2 : (0 : ℝ) ≤ (ampErr 2 cfg.precision : ℚ) := by exact_mod_cast p2
  have q4 : (0 : ℝ) ≤ (ampErr 4 cfg.precision : ℚ) := by exact_mod_cast p4
  have q8 : (0 : ℝ) ≤ (ampErr 8 cfg.precision : ℚ) := by exact_mod_cast p8
  have c2 := c2 j (by
    rw [edge_eq, show (cfg.ratio : ℝ) / 2 * ω - j * Real.pi = (cfg.ratio * ω - 2 * Real.pi * j) / 2 by ring, abs_div]
    push_cast
    rw [abs_of_pos (by norm_num : (0 : ℝ) < 2)]
    linarith)
  have c4 := fun (j' : ℤ) (hj : j = 2 * j') => c4 j' (by
    rw [edge_eq, show (cfg.ratio : ℝ) / 4 * ω - j' * Real.pi = (cfg.ratio * ω - 2 * Real.pi * j) / 4 by rw [hj]; push_cast; ring,
      abs_div]
    push_cast
    rw [abs_of_pos (by norm_num : (0 : ℝ) < 4)]
    linarith)
  have c8 := fun (j' : ℤ) (hj : j = 4 * j') => c8 j' (by
    rw [edge_eq, show (cfg.ratio : ℝ) / 8 * ω - j' * Real.pi = (cfg.ratio * ω - 2 * Real.pi * j) / 8 by rw [hj]; push_cast; ring,
      abs_div]
    push_cast
    rw [abs_of_pos (by norm_num : (0 : ℝ) < 8)]
    linarith)
  unfold Config.op Config.gain Config.totalDelay sineErr
  rw [Config.stages_eq_tables hv hf, Config.tables_keys, hm]
  simp only [List.mem_cons, List.not_mem_nil, or_false] at hr
  have finish : ∀ (A : ℝ) (Y : ℕ → ℝ) (D E G Φ : ℝ) (M : ℕ), NearSine Y (C * A) (cfg.ratio * ω) Φ D G M →
      ((cfg.ratio : ℤ) ∣ j → |A - 1| ≤ E) → (¬ (cfg.ratio : ℤ) ∣ j → |A| ≤ (stopErr cfg.ratio cfg.precision : ℚ)) →
      NearSine Y (if (cfg.ratio : ℤ) ∣ j then C else 0) (cfg.ratio * ω) Φ
        (D + if (cfg.ratio : ℤ) ∣ j then E * |C| else (stopErr cfg.ratio cfg.precision : ℚ) * |C|) G M := by
    intro A Y D E G Φ M hY h1 h2
    refine hY.shift ?_
    by_cases hd : (cfg.ratio : ℤ) ∣ j
    · rw [if_pos hd, if_pos hd, show C * A - C = (A - 1) * C by ring, abs_mul]
      exact mul_le_mul_of_nonneg_right (h1 hd) (abs_nonneg _)
    · rw [if_neg hd, if_neg hd, show C * A - 0 = A * C by ring, abs_mul]
      exact mul_le_mul_of_nonneg_right (h2 hd) (abs_nonneg _)
  rcases hr with hr | hr | hr | hr
  · rw [hr] at finish ⊢
    rw [show stageKeys .down 1 = [] from rfl, show ampErrs .down 1 cfg.precision = [] from rfl]
    refine finish 1 _ _ _ _ _ _ (h.shift (C' := C * 1) (η := 0) (by simp) |>.cast (by simp) (by simp) (by simp [errFold]) (by simp)) ?_ ?_
    · simp [errFold]
    · simp
  · rw [hr] at finish b2 c2 ⊢
    rw [show stageKeys .down 2 = [2] from rfl, show ampErrs .down 2 cfg.precision = [ampErr 2 cfg.precision / 2] from rfl]
    rw [show ((2 : ℕ) : ℝ) / 2 * ω = ω by push_cast; ring] at b2 c2
    have k2 := down_sine (k := 2) (by simp) hp cfg.vec h (C' := C * downAmp 2 cfg.precision ω) (η := 0) (by simp)
    refine finish _ _ _ _ _ _ _ (NearSine.cast k2 ?_ ?_ ?_ ?_) ?_ ?_
    · push_cast
      ring
    · simp only [reduceIte, OfNat.ofNat_ne_one]
      rw [hl2]
      push_cast
      ring
    · simp [errFold]
    · simp
    · intro hd
      rw [if_pos (by omega)] at c2
      simpa [errFold] using c2
    · intro hd
      rw [if_neg (by omega), sub_zero] at c2
      simpa [stopErr] using c2
  · rw [hr] at finish b2 c2 b4 c4 ⊢
    rw [show stageKeys .down 4 = [4, 2] from rfl,
      show ampErrs .down 4 cfg.precision = [ampErr 4 cfg.precision / 2, ampErr 2 cfg.precision / 2] from rfl]
    rw [show ((4 : ℕ) : ℝ) / 2 * ω = 2 * ω by push_cast; ring] at b2 c2
    rw [show ((4 : ℕ) : ℝ) / 4 * ω = ω by push_cast; ring] at b4 c4
    have k4 := down_sine (k := 4) (by simp) hp cfg.vec h (C' := C * downAmp 4 cfg.precision ω) (η := 0) (by simp)
    have k2 := down_sine (k := 2) (by simp) hp cfg.vec k4 (C' := C * (downAmp 4 cfg.precision ω * downAmp 2 cfg.precision (2 * ω)))
      (η := 0) (by rw [show ∀ a b c : ℝ, a * b * c - a * (b * c) = 0 by intros; ring]; simp)
    refine finish _ _ _ _ _ _ _ (NearSine.cast k2 ?_ ?_ ?_ ?_) ?_ ?_
    · push_cast
      ring
    · norm_num
      rw [hl2, hl4]
      push_cast
      ring
    · simp [errFold]
    · simp
      ring
    · rintro ⟨i, hi⟩
      rw [if_pos (by omega)] at c2
      have c4 := c4 (2 * i) (by push_cast at hi; omega)
      rw [if_pos (by omega)] at c4
      refine (near_one_mul (by positivity) c4 c2).trans (le_of_eq ?_)
      simp [errFold]
      ring
    · intro hd
      unfold stopErr
      simp only [reduceIte, Nat.reduceEqDiff, Rat.cast_max, Rat.cast_mul, Rat.cast_add, Rat.cast_div, Rat.cast_one,
        Rat.cast_ofNat]
      by_cases hj : j % 2 = 0
      · obtain ⟨i, hi⟩ : (2 : ℤ) ∣ j := Int.dvd_of_emod_eq_zero hj
        have c4 := c4 i hi
        rw [if_neg (by omega), sub_zero] at c4
        exact (abs_mul_le' c4 b2).trans (le_max_right _ _)
      · rw [if_neg hj, sub_zero] at c2
        refine (abs_mul_le' b4 c2).trans (le_trans (le_of_eq ?_) (le_max_left _ _))
        ring
  · rw [hr] at finish b2 c2 b4 c4 b8 c8 ⊢
    rw [show stageKeys .down 8 = [8, 4, 2] from rfl,
      show ampErrs .down 8 cfg.precision = [ampErr 8 cfg.precision / 2, ampErr 4 cfg.precision / 2, ampErr 2 cfg.precision / 2] from rfl]
    rw [show ((8 : ℕ) : ℝ) / 2 * ω = 2 * (2 * ω) by push_cast; ring] at b2 c2
    rw [show ((8 : ℕ) : ℝ) / 4 * ω = 2 * ω by push_cast; ring] at b4 c4
    rw [show ((8 : ℕ) : ℝ) / 8 * ω = ω by push_cast; ring] at b8 c8
    have k8 := down_sine (k := 8) (by simp) hp cfg.vec h (C' := C * downAmp 8 cfg.precision ω) (η := 0) (by simp)
    have k4 := down_sine (k := 4) (by simp) hp cfg.vec k8 (C' := C * (downAmp 8 cfg.precision ω * downAmp 4 cfg.precision (2 * ω)))
      (η := 0) (by rw [show ∀ a b c : ℝ, a * b * c - a * (b * c) = 0 by intros; ring]; simp)
    have k2 := down_sine (k := 2) (by simp) hp cfg.vec k4
      (C' := C * (downAmp 8 cfg.precision ω * downAmp 4 cfg.precision (2 * ω) * downAmp 2 cfg.precision (2 * (2 * ω))))
      (η := 0) (by rw [show ∀ a b c : ℝ, a * b * c - a * (b * c) = 0 by intros; ring]; simp)
    refine finish _ _ _ _ _ _ _ (NearSine.cast k2 ?_ ?_ ?_ ?_) ?_ ?_
    · push_cast
      ring
    · norm_num
      rw [hl2, hl4, hl8]
      push_cast
      ring
    · simp [errFold]
    · simp
      ring
    · rintro ⟨i, hi⟩
      rw [if_pos (by omega)] at c2
      have c4 := c4 (4 * i) (by push_cast at hi; omega)
      rw [if_pos (by omega)] at c4
      have c8 := c8 (2 * i) (by push_cast at hi; omega)
      rw [if_pos (by omega)] at c8
      have h0 := near_one_mul (by positivity) c8 c4
      refine (near_one_mul (le_trans (abs_nonneg _) h0) h0 c2).trans (le_of_eq ?_)
      simp [errFold]
      ring
    · intro hd
      unfold stopErr
      simp only [reduceIte, Nat.reduceEqDiff, Rat.cast_max, Rat.cast_mul, Rat.cast_add, Rat.cast_div, Rat.cast_one,
        Rat.cast_ofNat]
      by_cases hj : j % 2 = 0
      · obtain ⟨i, hi⟩ : (2 : ℤ) ∣ j := Int.dvd_of_emod_eq_zero hj
        have c4 := c4 i hi
        by_cases hi' : i % 2 = 0
        · obtain ⟨l, hl⟩ : (2 : ℤ) ∣ i := Int.dvd_of_emod_eq_zero hi'
          have c8 := c8 l (by omega)
          rw [if_neg (by omega), sub_zero] at c8
          refine (abs_mul_le' (abs_mul_le' c8 b4) b2).trans (le_trans (le_of_eq ?_) (le_trans (le_max_right _ _) (le_max_right _ _)))
          ring
        · rw [if_neg hi', sub_zero] at c4
          refine (abs_mul_le' (abs_mul_le' b8 c4) b2).trans (le_trans (le_of_eq ?_) (le_trans (le_max_left _ _) (le_max_right _ _)))
          ring
      · rw [if_neg hj, sub_zero] at c2
        refine (abs_mul_le' (abs_mul_le' b8 b4) c2).trans (le_trans (le_of_eq ?_) (le_max_left _ _))
        ring

/-! ## Sums of sinusoids -/

/-- A linear operator, tone by tone. -/
theorem lin_tones {T : (ℕ → ℝ) → ℕ → ℝ} (hT : ∀ x y : ℕ → ℝ, T (fun n => x n + y n) = fun n => T x n + T y n)
    (hT0 : T (fun _ => 0) = fun _ => 0) {out : ℝ × ℝ × ℝ → ℕ → ℝ} {κ : ℝ × ℝ × ℝ → ℝ} {n : ℕ} (L : List (ℝ × ℝ × ℝ))
    (h : ∀ a ∈ L, |T (fun i : ℕ => a.1 * Real.cos (a.2.1 * i + a.2.2)) n - out a n| ≤ κ a) {x : ℕ → ℝ} {G : ℝ}
    (he : |T (fun i : ℕ => x i - tones L i) n| ≤ G) : |T x n - (L.map fun a => out a n).sum| ≤ (L.map κ).sum + G := by
  have key : |T (fun i : ℕ => tones L i) n - (L.map fun a => out a n).sum| ≤ (L.map κ).sum := by
    clear he
    induction L with
    | nil => simp [tones_nil, hT0]
    | cons a L ih =>
      have e : (fun i : ℕ => tones (a :: L) i) = fun i : ℕ => a.1 * Real.cos (a.2.1 * i + a.2.2) + tones L i := by
        funext i
        rw [tones_cons]
      rw [e, hT, List.map_cons, List.sum_cons, List.map_cons, List.sum_cons]
      have h1 := h a (by simp)
      have h2 := ih fun b hb => h b (by simp [hb])
      simp only
      rw [abs_le] at h1 h2 ⊢
      constructor <;> linarith [h1.1, h1.2, h2.1, h2.2]
  have e : x = fun i : ℕ => tones L i + (x i - tones L i) := by
    funext i
    ring
  rw [e, hT]
  simp only
  have h3 : (fun i : ℕ => tones L i + (x i - tones L i) - tones L i) = fun i : ℕ => x i - tones L i := by
    funext i
    ring
  rw [abs_le] at key he ⊢
  constructor <;> linarith [key.1, key.2, he.1, he.2]

theorem Config.op_add (cfg : Config) (x y : ℕ → ℝ) : cfg.op (fun n => x n + y n) = fun n => cfg.op x n + cfg.op y n := by
  have := Config.op_lin (K := ℝ) cfg 1 1 x y
  simpa using this

theorem Config.op_zero (cfg : Config) : cfg.op (fun _ => (0 : ℝ)) = fun _ => 0 := by
  have := Config.op_lin (K := ℝ) cfg 0 0 (fun _ => 0) (fun _ => 0)
  simpa using this

theorem nearSine_self (C ω φ : ℝ) : NearSine (fun i : ℕ => C * Real.cos (ω * i + φ)) C ω φ 0 0 0 :=
  ⟨[], le_refl _, fun n _ => by simp [tones_cons, tones_nil]⟩

theorem nearSine_small {x : ℕ → ℝ} {ε : ℝ} {N : ℕ} (h : ∀ i, N ≤ i → |x i| ≤ ε) : NearSine x 0 0 0 0 ε N :=
  ⟨[], le_refl _, fun n hn => by simpa [tones_cons, tones_nil] using h n hn⟩

theorem sum_map_mul_abs (L : List (ℝ × ℝ × ℝ)) (c : ℝ) : (L.map fun a => c * |a.1|).sum = c * amps L := by
  rw [amps, List.sum_map_mul_left]

theorem Config.settle_mono {cfg : Config} {a b : ℕ} (h : a ≤ b) :
    cascadeSettle (cfg.stages (F := ℝ)) a ≤ cascadeSettle (cfg.stages (F := ℝ)) b := cascadeSettle_mono h

theorem errFold_sine (m : Mode) (r p : ℕ) (C : ℝ) :
    errFold ((ampErrs m r p).map fun e => (e : ℝ)) C 0 = ((sineErr m r p : ℚ) : ℝ) * C := by
  have := errFold_smul ((ampErrs m r p).map fun e => (e : ℝ)) C 0
  rw [zero_mul] at this
  rw [this, sineErr, errFold_cast]
  simp

theorem sineErr_nonneg (m : Mode) (r p : ℕ) : 0 ≤ sineErr m r p := by
  have key : ∀ (es : List ℚ) (δ : ℚ), (∀ e ∈ es, 0 ≤ e) → 0 ≤ δ → 0 ≤ errFold es 1 δ := by
    intro es
    induction es with
    | nil => intro δ _ h; exact h
    | cons e es ih =>
      intro δ he hδ
      have h0 := he e (by simp)
      exact ih ((1 + e) * δ + e * 1) (fun e h => he e (by simp [h])) (by positivity)
  refine key _ _ (fun e he => ?_) (le_refl _)
  obtain ⟨k, -, rfl⟩ := List.mem_map.1 he
  have : 0 ≤ ampErr k p := by exact_mod_cast ampErr_nonneg k p
  cases m <;> simp only <;> linarith

theorem errFold_zero (es : List ℝ) (δ : ℝ) : errFold es 0 δ = (1 + errFold es 1 0) * δ := by
  have key : ∀ (es : List ℝ) (c : ℝ), errFold es 0 (c * δ) = (errFold es 1 (c - 1) + 1) * δ := by
    intro es
    induction es with
    | nil => intro c; simp [errFold]
    | cons e es ih =>
      intro c
      have := ih ((1 + e) * c)
      unfold errFold at this ⊢
      simp only [List.foldl_cons]
      rw [show (1 + e) * (c * δ) + e * 0 = (1 + e) * c * δ by ring, this]
      congr 3
      ring
  have := key es 1
  rw [one_mul, sub_self] at this
  linarith

theorem errFold_gain (m : Mode) (r p : ℕ) (δ : ℝ) :
    errFold ((ampErrs m r p).map fun e => (e : ℝ)) 0 δ = (1 + ((sineErr m r p : ℚ) : ℝ)) * δ := by
  rw [errFold_zero, sineErr, errFold_cast]
  simp

/-- No amplification, whatever the frequencies. -/
theorem Config.op_tones_bound {cfg : Config} (hv : cfg.Valid) (hf : cfg.filter = .fir) {x : ℕ → ℝ} {L : List (ℝ × ℝ × ℝ)}
    {ε : ℝ} {N n : ℕ} (h : NearTones x L ε N) (hn : cascadeSettle (cfg.stages (F := ℝ)) N ≤ n) :
    |cfg.op x n| ≤ (1 + (sineErr cfg.mode cfg.ratio cfg.precision : ℚ)) * amps L + (cfg.gain : ℚ) * ε := by
  have h0 : NearSine x 0 0 0 (amps L) ε N := ⟨L, le_refl _, fun n hn => by
    have := h n hn
    rw [tones_cons]
    simpa using this⟩
  cases hm : cfg.mode with
  | up =>
    have := (Config.op_up_sine hv hf hm h0 (by simp; positivity)).bound hn
    rw [abs_zero, errFold_gain] at this
    simpa using this
  | down =>
    have := (Config.op_down_sine hv hf hm h0 (j := 0) (by simp; positivity)).bound hn
    rw [errFold_gain] at this
    simpa using this

theorem Config.op_small {cfg : Config} (hv : cfg.Valid) (hf : cfg.filter = .fir) {x : ℕ → ℝ} {ε : ℝ} {N n : ℕ}
    (h : ∀ i, N ≤ i → |x i| ≤ ε) (hn : cascadeSettle (cfg.stages (F := ℝ)) N ≤ n) : |cfg.op x n| ≤ (cfg.gain : ℚ) * ε := by
  have := Config.op_tones_bound hv hf (x := x) (L := []) (fun i hi => by simpa [tones_nil] using h i hi) hn
  simpa [amps] using this

/-- Upsampling of sums of sinusoids in the pass band. -/
theorem Config.op_up_tones {cfg : Config} (hv : cfg.Valid) (hf : cfg.filter = .fir) (hm : cfg.mode = .up) {x : ℕ → ℝ}
    {L : List (ℝ × ℝ × ℝ)} (hL : ∀ a ∈ L, |a.2.1| ≤ 40 * Real.pi / 49) {ε : ℝ} {N n : ℕ} (h : NearTones x L ε N)
    (hn : cascadeSettle (cfg.stages (F := ℝ)) N ≤ n) :
    |cfg.op x n - tones L ((n - (cfg.totalDelay : ℚ)) / cfg.ratio)| ≤
      (sineErr .up cfg.ratio cfg.precision : ℚ) * amps L + (cfg.gain : ℚ) * ε := by
  rw [← sum_map_mul_abs]
  refine lin_tones cfg.op_add cfg.op_zero
    (out := fun a n => a.1 * Real.cos (a.2.1 * ((n - (cfg.totalDelay : ℚ)) / cfg.ratio) + a.2.2)) L ?_
    (Config.op_small hv hf h hn)
  intro a ha
  have := (Config.op_up_sine hv hf hm (nearSine_self a.1 a.2.1 a.2.2) (hL a ha)).bound
    ((Config.settle_mono (Nat.zero_le N)).trans hn)
  rw [errFold_sine, mul_zero, add_zero] at this
  convert this using 5
  ring

/-- Downsampling of sums of sinusoids in pass band and stop band. -/
theorem Config.op_down_tones {cfg : Config} (hv : cfg.Valid) (hf : cfg.filter = .fir) (hm : cfg.mode = .down) {x : ℕ → ℝ}
    {P S : List (ℝ × ℝ × ℝ)} (hP : ∀ a ∈ P, |cfg.ratio * a.2.1| ≤ 40 * Real.pi / 49)
    (hS : ∀ a ∈ S, ∃ j : ℤ, ¬ (cfg.ratio : ℤ) ∣ j ∧ |cfg.ratio * a.2.1 - 2 * Real.pi * j| ≤ 40 * Real.pi / 49)
    {ε : ℝ} {N n : ℕ} (h : NearTones x (P ++ S) ε N) (hn : cascadeSettle (cfg.stages (F := ℝ)) N ≤ n) :
    |cfg.op x n - tones P (cfg.ratio * (n - (cfg.totalDelay : ℚ)))| ≤
      (sineErr .down cfg.ratio cfg.precision : ℚ) * amps P + (stopErr cfg.ratio cfg.precision : ℚ) * amps S +
        (cfg.gain : ℚ) * ε := by
  have hn0 := (Config.settle_mono (Nat.zero_le N)).trans hn
  have h1 : |cfg.op (fun i : ℕ => tones P i) n - tones P (cfg.ratio * (n - (cfg.totalDelay : ℚ)))| ≤
      (P.map fun a => ((sineErr .down cfg.ratio cfg.precision : ℚ) : ℝ) * |a.1|).sum + 0 := by
    refine lin_tones cfg.op_add cfg.op_zero
      (out := fun a n => a.1 * Real.cos (a.2.1 * (cfg.ratio * (n - (cfg.totalDelay : ℚ))) + a.2.2)) P ?_ ?_
    · intro a ha
      have := (Config.op_down_sine hv hf hm (nearSine_self a.1 a.2.1 a.2.2) (j := 0) (by simpa using hP a ha)).bound hn0
      rw [errFold_gain, mul_zero, mul_zero, add_zero, if_pos (dvd_zero _), if_pos (dvd_zero _), zero_add] at this
      convert this using 5
      ring
    · simp [Config.op_zero]
  have h2 : |cfg.op (fun i : ℕ => x i - tones P i) n - (S.map fun _ => (0 : ℝ)).sum| ≤
      (S.map fun a => ((stopErr cfg.ratio cfg.precision : ℚ) : ℝ) * |a.1|).sum + (cfg.gain : ℚ) * ε := by
    refine lin_tones cfg.op_add cfg.op_zero (out := fun _ _ => 0) S ?_ ?_
    · intro a ha
      obtain ⟨j, hj, hj'⟩ := hS a ha
      have := (Config.op_down_sine hv hf hm (nearSine_self a.1 a.2.1 a.2.2) hj').bound hn0
      rw [errFold_gain, mul_zero, mul_zero, add_zero, if_neg hj, if_neg hj, zero_add, zero_mul] at this
      exact this
    · refine Config.op_small hv hf (N := N) ?_ hn
      intro i hi
      have := h i hi
      rw [tones_append] at this
      rwa [show x i - tones P i - tones S i = x i - (tones P i + tones S i) by ring]
  rw [sum_map_mul_abs] at h1 h2
  have e : x = fun i : ℕ => tones P i + (x i - tones P i) := by
    funext i
    ring
  have e2 : cfg.op x n = cfg.op (fun i : ℕ => tones P i) n + cfg.op (fun i : ℕ => x i - tones P i) n := by
    conv_lhs => rw [e, cfg.op_add]
  have e3 : (S.map fun _ => (0 : ℝ)).sum = 0 := by simp
  rw [e3] at h2
  rw [e2]
  rw [abs_le] at h1 h2 ⊢
  constructor <;> linarith [h1.1, h1.2, h2.1, h2.2]

/-- Up and down again. -/
theorem Config.op_round_trip {cu cd : Config} (hu : cu.Valid) (hd : cd.Valid) (hfu : cu.filter = .fir) (hfd : cd.filter = .fir)
    (hmu : cu.mode = .up) (hmd : cd.mode = .down) (hr : cd.ratio = cu.ratio) {x : ℕ → ℝ}
    {L : List (ℝ × ℝ × ℝ)} (hL : ∀ a ∈ L, |a.2.1| ≤ 40 * Real.pi / 49) {ε : ℝ} {N n : ℕ} (h : NearTones x L ε N)
    (hn : cascadeSettle (cd.stages (F := ℝ)) (cascadeSettle (cu.stages (F := ℝ)) N) ≤ n) :
    |cd.op (cu.op x) n - tones L (n - ((cu.totalDelay : ℚ) / cu.ratio + (cd.totalDelay : ℚ)))| ≤
      ((1 + (sineErr .up cu.ratio cu.precision : ℚ)) * (1 + (sineErr .down cd.ratio cd.precision : ℚ)) - 1) * amps L +
        (cd.gain : ℚ) * ((cu.gain : ℚ) * ε) := by
  rw [← sum_map_mul_abs]
  have hr0 : (cu.ratio : ℝ) ≠ 0 := by
    have := hu.ratio
    simp only [List.mem_cons, List.not_mem_nil, or_false] at this
    rcases this with h | h | h | h <;> rw [h] <;> norm_num
  refine lin_tones (T := fun x => cd.op (cu.op x)) (fun x y => by rw [cu.op_add, cd.op_add]) (by rw [cu.op_zero, cd.op_zero])
    (out := fun a n => a.1 * Real.cos (a.2.1 * (n - ((cu.totalDelay : ℚ) / cu.ratio + (cd.totalDelay : ℚ))) + a.2.2)) L ?_ ?_
  · intro a ha
    have h1 := Config.op_up_sine hu hfu hmu (nearSine_self a.1 a.2.1 a.2.2) (hL a ha)
    have h2 := (Config.op_down_sine hd hfd hmd h1 (j := 0) (by
      rw [hr, mul_div_cancel₀ _ hr0]
      simpa using hL a ha)).bound ((Config.settle_mono (Config.settle_mono (Nat.zero_le N))).trans hn)
    rw [errFold_gain, errFold_sine, mul_zero, mul_zero, add_zero, if_pos (dvd_zero _), if_pos (dvd_zero _)] at h2
    refine le_trans (le_of_eq ?_) (h2.trans (le_of_eq ?_))
    · congr 4
      rw [hr, mul_div_cancel₀ _ hr0]
      field_simp
      ring
    · ring
  · exact Config.op_small hd hfd (fun i hi => Config.op_small hu hfu h hi) hn

/-! ## Rational and real signals -/

section cast

variable [Sample ℚ]

theorem zext_cast (x : ℕ → ℚ) (z : ℤ) : ((zext x z : ℚ) : ℝ) = zext (fun i => (x i : ℝ)) z := by
  unfold zext
  split <;> simp

theorem seq_cast (t : List ℚ) (i : ℕ) : ((seq t i : ℚ) : ℝ) = seq (t.map fun q : ℚ => (q : ℝ)) i := by
  unfold seq
  by_cases h : i < t.length
  · simp [h]
  · simp [List.getD_eq_getElem?_getD, List.getElem?_eq_none (not_lt.1 h)]

theorem firStage_cast (h1 : ∀ q, (Sample.ofDouble q : ℝ) = ((Sample.ofDouble q : ℚ) : ℝ)) (h2 : (Sample.half : ℝ) = ((Sample.half : ℚ) : ℝ))
    (m : Mode) (vec : Bool) (t : List Dec) (x : ℕ → ℚ) (n : ℕ) :
    (((firStage m vec t).op x n : ℚ) : ℝ) = (firStage m vec t).op (fun i => (x i : ℝ)) n := by
  have e : ∀ c : ℚ, (t.map fun d => (Sample.ofDouble (d.toRat * c) : ℝ)) =
      (t.map fun d => (Sample.ofDouble (d.toRat * c) : ℚ)).map fun q : ℚ => (q : ℝ) := by
    intro c
    rw [List.map_map]
    exact List.map_congr_left fun d _ => h1 _
  cases m with
  | up =>
    simp only [firStage, Stage.op, firUpOp, List.length_map]
    rw [e]
    split
    · push_cast
      refine sum_congr rfl fun i _ => ?_
      rw [zext_cast, seq_cast]
    · rw [zext_cast]
  | down =>
    simp only [firStage, Stage.op, firDownOp, List.length_map]
    rw [e, h2]
    push_cast
    rw [zext_cast]
    congr 1
    refine sum_congr rfl fun i _ => ?_
    rw [zext_cast, seq_cast]

theorem Config.op_cast {cfg : Config} (hv : cfg.Valid) (hf : cfg.filter = .fir)
    (h1 : ∀ q, (Sample.ofDouble q : ℝ) = ((Sample.ofDouble q : ℚ) : ℝ)) (h2 : (Sample.half : ℝ) = ((Sample.half : ℚ) : ℝ))
    (x : ℕ → ℚ) (n : ℕ) : ((cfg.op x n : ℚ) : ℝ) = cfg.op (fun i => (x i : ℝ)) n := by
  have key : ∀ (ts : List (List Dec)) (x : ℕ → ℚ), ((cascadeOp (ts.map (firStage cfg.mode cfg.vec)) x n : ℚ) : ℝ) =
      cascadeOp (ts.map (firStage cfg.mode cfg.vec)) (fun i => (x i : ℝ)) n := by
    intro ts
    induction ts with
    | nil => intro x; rfl
    | cons t ts ih =>
      intro x
      simp only [List.map_cons, cascadeOp]
      rw [ih]
      congr 1
      funext i
      exact firStage_cast h1 h2 _ _ _ _ _
  unfold Config.op
  rw [Config.stages_eq_tables hv hf, Config.stages_eq_tables hv hf]
  exact key _ _

end cast

end Panda
