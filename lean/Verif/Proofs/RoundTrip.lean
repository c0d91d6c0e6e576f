import Verif.Proofs.SineConfig

/-!
# Frequency responses of FIR resamplers, images of upsampling, and round trips
-/

set_option linter.unusedSectionVars false

namespace Panda

open Finset

/-- The sinusoid `a` has one of the frequencies that upsampling by `r` turns `w` into, besides `w / r` itself. -/
def ImgOf (r : ℕ) (w : ℝ) (a : ℝ × ℝ × ℝ) : Prop := ∃ j : ℤ, ¬ (r : ℤ) ∣ j ∧ (r : ℝ) * a.2.1 = w + 2 * Real.pi * j

/-- From sample `N` on, `x` is a sinusoid with frequency `w / r`, plus images of it whose amplitudes add up to at most `σ`,
plus errors up to `ε`. -/
def SplitSine (x : ℕ → ℝ) (r : ℕ) (w C φ σ ε : ℝ) (N : ℕ) : Prop :=
  ∃ S, amps S ≤ σ ∧ (∀ a ∈ S, ImgOf r w a) ∧ NearTones x ((C, w / r, φ) :: S) ε N

/-- Amplitude and sum of the amplitudes of the images after stages with errors `(E, e)`, `E` for all frequencies and `e` for
the frequency of the sinusoid. -/
def imgFold {K : Type} [Field K] (es : List (K × K)) (A S : K) : K × K :=
  es.foldl (fun s e => (s.1 * (1 + e.2 / 2), (1 + e.1) * s.2 + e.2 / 2 * s.1)) (A, S)

section stages

variable [Sample ℝ] [Accurate ℝ]

/-- Frequency response of the computed samples of an interpolation stage. -/
noncomputable def upAmp (k p : ℕ) (x : ℝ) : ℝ := firAmp ((tab k p).map fun d => (Sample.ofDouble (d.toRat * 2) : ℝ)) x

/-- Amplitude response of an upsampler, for the frequency `w` of its input. -/
noncomputable def upResp (r p : ℕ) (w : ℝ) : ℝ := ((stageKeys .up r).map fun k => (1 + upAmp k p (w / k)) / 2).prod

/-- Amplitude response of a downsampler, for the frequency `w` of its output. -/
noncomputable def downResp (r p : ℕ) (w : ℝ) : ℝ := ((stageKeys .down r).map fun k => downAmp k p (w / k)).prod

theorem SplitSine.cast {x : ℕ → ℝ} {r : ℕ} {w C φ σ ε C' φ' σ' ε' : ℝ} {N : ℕ} (h : SplitSine x r w C φ σ ε N) (h1 : C = C')
    (h2 : φ = φ') (h3 : σ ≤ σ') (h4 : ε = ε') : SplitSine x r w C' φ' σ' ε' N := by
  subst h1 h2 h4
  obtain ⟨S, a, b, c⟩ := h
  exact ⟨S, a.trans h3, b, c⟩

/-- An interpolation stage. -/
theorem up_split {k p : ℕ} (hk : k ∈ [2, 4, 8]) (hp : p ∈ [1, 8, 12, 16, 20, 24]) (vec : Bool) {x : ℕ → ℝ} {q : ℕ} (hq : 0 < q)
    {w C φ σ ε e : ℝ} {N : ℕ} (h : SplitSine x q w C φ σ ε N) (he : |upAmp k p (w / q / 2) - 1| ≤ e) :
    SplitSine ((firStage .up vec (tab k p)).op x) (2 * q) w (C * ((1 + upAmp k p (w / q / 2)) / 2))
      (φ - w / q / 2 * (((tab k p).length : ℝ) - 1))
      ((1 + (ampErr k p : ℚ)) * σ + e / 2 * |C|) ((stageGain .up (tab k p) : ℚ) * ε)
      ((firStage (K := ℝ) .up vec (tab k p)).settle N) := by
  obtain ⟨S, hS, hc, h⟩ := h
  obtain ⟨f1, f2, f3⟩ := tab_facts k hk p hp
  have hg := firStage_gain (K := ℝ) .up vec (tab k p)
  have hE := ampErr_nonneg k p
  unfold upAmp at he ⊢
  set t : List ℝ := (tab k p).map fun d => (Sample.ofDouble (d.toRat * 2) : ℝ) with ht
  have hl : t.length = (tab k p).length := by simp [ht]
  have hpal : t.reverse = t := by rw [ht, ← List.map_reverse, f1]
  have key := firUp_tones hpal (by rw [hl, f2]) (by rw [hl]; exact f3) hg.1 hg.2 h
  have hq0 : (q : ℝ) ≠ 0 := by positivity
  refine ⟨(C * ((firAmp t (w / q / 2) - 1) / 2), w / q / 2 + Real.pi, φ - w / q / 2 * ((t.length : ℝ) - 1)) ::
    S.flatMap (upTones2 t), ?_, ?_, ?_⟩
  · rw [amps_cons]
    simp only
    have h1 := amps_up2 hE (fun x => (amp_up hk hp x).1) S
    have h2 : (1 + ((ampErr k p : ℚ) : ℝ)) * amps S ≤ (1 + ((ampErr k p : ℚ) : ℝ)) * σ :=
      mul_le_mul_of_nonneg_left hS (by linarith)
    have h3 : |C * ((firAmp t (w / q / 2) - 1) / 2)| ≤ e / 2 * |C| := by
      rw [abs_mul, abs_div, abs_two, mul_comm]
      exact mul_le_mul_of_nonneg_right (by linarith) (abs_nonneg _)
    linarith
  · intro a ha
    rcases List.mem_cons.1 ha with rfl | ha
    · refine ⟨q, ?_, ?_⟩
      · rintro ⟨c, hc⟩
        push_cast at hc
        have h0 : (q : ℤ) ≠ 0 := by exact_mod_cast hq.ne'
        have : (q : ℤ) * (2 * c - 1) = 0 := by linarith
        rcases mul_eq_zero.1 this with h | h
        · exact h0 h
        · omega
      · push_cast
        field_simp
    · obtain ⟨b, hb, ha⟩ := List.mem_flatMap.1 ha
      obtain ⟨j, hj, hj'⟩ := hc b hb
      unfold upTones2 at ha
      simp only [List.mem_cons, List.not_mem_nil, or_false] at ha
      rcases ha with rfl | rfl
      · refine ⟨j, fun ⟨c, hc⟩ => hj ⟨2 * c, by rw [hc]; push_cast; ring⟩, ?_⟩
        rw [← hj']
        push_cast
        ring
      · refine ⟨j + q, fun ⟨c, hc⟩ => hj ⟨2 * c - 1, by push_cast at hc; linarith⟩, ?_⟩
        push_cast
        linear_combination hj'
  · intro n hn
    have := key n (by
      simp only [firStage, Stage.settle, Stage.up, Stage.ntaps, if_true] at hn
      exact hn)
    have e : tones (((C, w / q, φ) :: S).flatMap (upTones t)) n =
        tones ((C * ((1 + firAmp t (w / q / 2)) / 2), w / ((2 * q : ℕ) : ℝ), φ - w / q / 2 * (((tab k p).length : ℝ) - 1)) ::
          (C * ((firAmp t (w / q / 2) - 1) / 2), w / q / 2 + Real.pi, φ - w / q / 2 * ((t.length : ℝ) - 1)) ::
            S.flatMap (upTones2 t)) n := by
      rw [← tones_flatMap (fun a => tones_up2 t a n), List.flatMap_cons, ← hl,
        show w / ((2 * q : ℕ) : ℝ) = w / q / 2 by push_cast; field_simp]
      rfl
    rw [← e]
    exact this

/-- Upsampling: a sinusoid becomes a sinusoid with an exact linear phase and amplitude response `upResp`, plus images. -/
theorem Config.op_up_split {cfg : Config} (hv : cfg.Valid) (hf : cfg.filter = .fir) (hm : cfg.mode = .up) {x : ℕ → ℝ}
    {C w φ ε : ℝ} {N : ℕ} (h : NearTones x [(C, w, φ)] ε N) (e : ℕ → ℝ)
    (he : ∀ k ∈ stageKeys .up cfg.ratio, |upAmp k cfg.precision (w / k) - 1| ≤ e k) :
    SplitSine (cfg.op x) cfg.ratio w (C * upResp cfg.ratio cfg.precision w) (φ - w / cfg.ratio * (cfg.totalDelay : ℚ))
      ((imgFold ((stageKeys .up cfg.ratio).map fun k => (((ampErr k cfg.precision : ℚ) : ℝ), e k)) 1 0).2 * |C|)
      ((cfg.gain : ℚ) * ε) (cascadeSettle (cfg.stages (F := ℝ)) N) := by
  have hp := hv.precision
  have hlen : ∀ k ∈ [2, 4, 8], cfg.stageDelay k = ((tab k cfg.precision).length : ℚ) - 1 := by
    intro k hk
    unfold Config.stageDelay
    rw [hf, hm]
    have := (tab_facts k hk _ hp).2.2
    simp only
    rw [show (firTable k cfg.precision).getD [] = tab k cfg.precision from rfl, Nat.cast_sub (by omega), Nat.cast_one]
  have hl2 := hlen 2 (by simp)
  have hl4 := hlen 4 (by simp)
  have hl8 := hlen 8 (by simp)
  have h : SplitSine x 1 w C φ 0 ε N := ⟨[], le_refl _, by simp, by simpa using h⟩
  have hr := hv.ratio
  have half : ∀ {A e : ℝ}, |A - 1| ≤ e → |(1 + A) / 2| ≤ 1 + e / 2 := by
    intro A e h
    rw [abs_le] at h ⊢
    constructor <;> linarith [h.1, h.2]
  unfold Config.op Config.gain Config.totalDelay upResp imgFold
  rw [Config.stages_eq_tables hv hf, Config.tables_keys, hm]
  simp only [List.mem_cons, List.not_mem_nil, or_false] at hr
  rcases hr with hr | hr | hr | hr <;> rw [hr] at he ⊢
  · rw [show stageKeys .up 1 = [] from rfl]
    exact h.cast (by simp) (by simp) (by simp) (by simp)
  · rw [show stageKeys .up 2 = [2] from rfl] at he ⊢
    have e2 := he 2 (by simp)
    push_cast at e2
    have k2 := up_split (k := 2) (e := e 2) (by simp) hp cfg.vec one_pos h (by simpa using e2)
    refine SplitSine.cast k2 ?_ ?_ (le_of_eq ?_) ?_
    · simp
    · norm_num
      rw [hl2]
      left
      push_cast
      ring
    · simp
    · simp
  · rw [show stageKeys .up 4 = [2, 4] from rfl] at he ⊢
    have e2 := he 2 (by simp)
    have e4 := he 4 (by simp)
    push_cast at e2 e4
    have k2 := up_split (k := 2) (e := e 2) (by simp) hp cfg.vec one_pos h (by simpa using e2)
    have k4 := up_split (k := 4) (e := e 4) (by simp) hp cfg.vec (by norm_num) k2
      (by rw [show w / ((2 * 1 : ℕ) : ℝ) / 2 = w / 4 by push_cast; ring]; exact e4)
    have hA := half e2
    have he4 := (abs_nonneg _).trans e4
    refine SplitSine.cast k4 ?_ ?_ ?_ ?_
    · simp
      rw [show w / 2 / 2 = w / 4 by ring]
      ring
    · norm_num
      rw [hl2, hl4]
      push_cast
      ring
    · simp only [List.map_cons, List.map_nil, List.foldl_cons, List.foldl_nil, mul_zero, zero_add, mul_one, one_mul, Nat.cast_one,
        div_one]
      rw [abs_mul]
      have h1 : |C| * |(1 + upAmp 2 cfg.precision (w / 2)) / 2| ≤ |C| * (1 + e 2 / 2) := mul_le_mul_of_nonneg_left hA (abs_nonneg _)
      nlinarith
    · simp
      ring
  · rw [show stageKeys .up 8 = [2, 4, 8] from rfl] at he ⊢
    have e2 := he 2 (by simp)
    have e4 := he 4 (by simp)
    have e8 := he 8 (by simp)
    push_cast at e2 e4 e8
    have k2 := up_split (k := 2) (e := e 2) (by simp) hp cfg.vec one_pos h (by simpa using e2)
    have k4 := up_split (k := 4) (e := e 4) (by simp) hp cfg.vec (by norm_num) k2
      (by rw [show w / ((2 * 1 : ℕ) : ℝ) / 2 = w / 4 by push_cast; ring]; exact e4)
    have k8 := up_split (k := 8) (e := e 8) (by simp) hp cfg.vec (by norm_num) k4
      (by rw [show w / ((2 * (2 * 1) : ℕ) : ℝ) / 2 = w / 8 by push_cast; ring]; exact e8)
    have hA := half e2
    have hB := half e4
    have he4 := (abs_nonneg _).trans e4
    have he8 := (abs_nonneg _).trans e8
    have hE := ampErr_nonneg 8 cfg.precision
    refine SplitSine.cast k8 ?_ ?_ ?_ ?_
    · simp
      rw [show w / 2 / 2 = w / 4 by ring, show w / 4 / 2 = w / 8 by ring]
      ring
    · norm_num
      rw [hl2, hl4, hl8]
      push_cast
      ring
    · simp only [List.map_cons, List.map_nil, List.foldl_cons, List.foldl_nil, mul_zero, zero_add, mul_one, one_mul, Nat.cast_one,
        div_one]
      rw [show w / ((2 : ℕ) : ℝ) / 2 = w / 4 by push_cast; ring]
      simp only [abs_mul]
      have h1 : |C| * |(1 + upAmp 2 cfg.precision (w / 2)) / 2| ≤ |C| * (1 + e 2 / 2) := mul_le_mul_of_nonneg_left hA (abs_nonneg _)
      have h2 : |C| * |(1 + upAmp 2 cfg.precision (w / 2)) / 2| * |(1 + upAmp 4 cfg.precision (w / 4)) / 2| ≤
          |C| * (1 + e 2 / 2) * (1 + e 4 / 2) := mul_le_mul h1 hB (abs_nonneg _) ((by positivity : (0:ℝ) ≤ _).trans h1)
      calc _ ≤ (1 + ((ampErr 8 cfg.precision : ℚ) : ℝ)) * ((1 + ((ampErr 4 cfg.precision : ℚ) : ℝ)) * (e 2 / 2 * |C|) +
            e 4 / 2 * (|C| * (1 + e 2 / 2))) + e 8 / 2 * (|C| * (1 + e 2 / 2) * (1 + e 4 / 2)) := by
            refine add_le_add (mul_le_mul_of_nonneg_left (add_le_add le_rfl (mul_le_mul_of_nonneg_left h1 (by linarith))) (by linarith))
              (mul_le_mul_of_nonneg_left h2 (by linarith))
        _ = _ := by ring
    · simp
      ring

/-- Downsampling: a sinusoid becomes a sinusoid with an exact linear phase and amplitude response `downResp`. -/
theorem Config.op_down_resp {cfg : Config} (hv : cfg.Valid) (hf : cfg.filter = .fir) (hm : cfg.mode = .down) {x : ℕ → ℝ}
    {C ω φ δ ε : ℝ} {N : ℕ} (h : NearSine x C ω φ δ ε N) :
    NearSine (cfg.op x) (C * downResp cfg.ratio cfg.precision (cfg.ratio * ω)) (cfg.ratio * ω)
      (φ - cfg.ratio * ω * (cfg.totalDelay : ℚ)) ((1 + (sineErr .down cfg.ratio cfg.precision : ℚ)) * δ)
      ((cfg.gain : ℚ) * ε) (cascadeSettle (cfg.stages (F := ℝ)) N) := by
  have hp := hv.precision
  have hlen : ∀ k ∈ [2, 4, 8], cfg.stageDelay k = (((tab k cfg.precision).length : ℚ) - 1) / 2 := by
    intro k hk
    unfold Config.stageDelay
    rw [hf, hm]
    have := (tab_facts k hk _ hp).2.1
    simp only
    rw [show (firTable k cfg.precision).getD [] = tab k cfg.precision from rfl]
    obtain ⟨l, hl⟩ : 2 ∣ (tab k cfg.precision).length := Nat.dvd_of_mod_eq_zero this
    rw [hl, Nat.mul_div_cancel_left _ (by norm_num)]
    push_cast
    ring
  have hl2 := hlen 2 (by simp)
  have hl4 := hlen 4 (by simp)
  have hl8 := hlen 8 (by simp)
  rw [← errFold_gain]
  have hr := hv.ratio
  unfold Config.op Config.gain Config.totalDelay downResp
  rw [Config.stages_eq_tables hv hf, Config.tables_keys, hm]
  simp only [List.mem_cons, List.not_mem_nil, or_false] at hr
  rcases hr with hr | hr | hr | hr <;> rw [hr]
  · rw [show stageKeys .down 1 = [] from rfl, show ampErrs .down 1 cfg.precision = [] from rfl]
    exact h.shift (C' := C * 1) (η := 0) (by simp) |>.cast (by simp) (by simp) (by simp [errFold]) (by simp)
  · rw [show stageKeys .down 2 = [2] from rfl, show ampErrs .down 2 cfg.precision = [ampErr 2 cfg.precision / 2] from rfl]
    have k2 := down_sine (k := 2) (by simp) hp cfg.vec h (C' := C * downAmp 2 cfg.precision ω) (η := 0) (by simp)
    have e : ([2].map fun k : ℕ => downAmp k cfg.precision (((2 : ℕ) : ℝ) * ω / k)).prod = downAmp 2 cfg.precision ω := by
      simp
    rw [e]
    refine NearSine.cast k2 ?_ ?_ ?_ ?_
    · push_cast
      ring
    · simp only [reduceIte, OfNat.ofNat_ne_one]
      rw [hl2]
      push_cast
      ring
    · simp [errFold]
    · simp
  · rw [show stageKeys .down 4 = [4, 2] from rfl,
      show ampErrs .down 4 cfg.precision = [ampErr 4 cfg.precision / 2, ampErr 2 cfg.precision / 2] from rfl]
    have k4 := down_sine (k := 4) (by simp) hp cfg.vec h (C' := C * downAmp 4 cfg.precision ω) (η := 0) (by simp)
    have k2 := down_sine (k := 2) (by simp) hp cfg.vec k4 (C' := C * (downAmp 4 cfg.precision ω * downAmp 2 cfg.precision (2 * ω)))
      (η := 0) (by rw [show ∀ a b c : ℝ, a * b * c - a * (b * c) = 0 by intros; ring]; simp)
    have e : ([4, 2].map fun k : ℕ => downAmp k cfg.precision (((4 : ℕ) : ℝ) * ω / k)).prod =
        downAmp 4 cfg.precision ω * downAmp 2 cfg.precision (2 * ω) := by
      simp [show 4 * ω / 2 = 2 * ω by ring]
    rw [e]
    refine NearSine.cast k2 ?_ ?_ ?_ ?_
    · push_cast
      ring
    · norm_num
      rw [hl2, hl4]
      push_cast
      ring
    · simp [errFold]
    · simp
      ring
  · rw [show stageKeys .down 8 = [8, 4, 2] from rfl,
      show ampErrs .down 8 cfg.precision = [ampErr 8 cfg.precision / 2, ampErr 4 cfg.precision / 2, ampErr 2 cfg.precision / 2] from rfl]
    have k8 := down_sine (k := 8) (by simp) hp cfg.vec h (C' := C * downAmp 8 cfg.precision ω) (η := 0) (by simp)
    have k4 := down_sine (k := 4) (by simp) hp cfg.vec k8 (C' := C * (downAmp 8 cfg.precision ω * downAmp 4 cfg.precision (2 * ω)))
      (η := 0) (by rw [show ∀ a b c : ℝ, a * b * c - a * (b * c) = 0 by intros; ring]; simp)
    have k2 := down_sine (k := 2) (by simp) hp cfg.vec k4
      (C' := C * (downAmp 8 cfg.precision ω * downAmp 4 cfg.precision (2 * ω) * downAmp 2 cfg.precision (2 * (2 * ω))))
      (η := 0) (by rw [show ∀ a b c : ℝ, a * b * c - a * (b * c) = 0 by intros; ring]; simp)
    have e : ([8, 4, 2].map fun k : ℕ => downAmp k cfg.precision (((8 : ℕ) : ℝ) * ω / k)).prod =
        downAmp 8 cfg.precision ω * downAmp 4 cfg.precision (2 * ω) * downAmp 2 cfg.precision (2 * (2 * ω)) := by
      simp [show 8 * ω / 4 = 2 * ω by ring, show 8 * ω / 2 = 2 * (2 * ω) by ring, mul_assoc]
    rw [e]
    refine NearSine.cast k2 ?_ ?_ ?_ ?_
    · push_cast
      ring
    · norm_num
      rw [hl2, hl4, hl8]
      push_cast
      ring
    · simp [errFold]
    · simp
      ring

theorem near_one_prod {α : Type} (l : List α) (a e : α → ℝ) (h : ∀ k ∈ l, |a k - 1| ≤ e k) :
    |(l.map a).prod - 1| ≤ (l.map fun k => 1 + e k).prod - 1 := by
  induction l with
  | nil => simp
  | cons k l ih =>
    rw [List.map_cons, List.prod_cons, List.map_cons, List.prod_cons]
    have h1 := h k (by simp)
    have h2 := ih fun k hk => h k (by simp [hk])
    refine (near_one_mul ((abs_nonneg _).trans h1) h1 h2).trans (le_of_eq ?_)
    ring

theorem upResp_near {r p : ℕ} {w : ℝ} {e : ℕ → ℝ} (he : ∀ k ∈ stageKeys .up r, |upAmp k p (w / k) - 1| ≤ e k) :
    |upResp r p w - 1| ≤ ((stageKeys .up r).map fun k => 1 + e k / 2).prod - 1 := by
  refine near_one_prod _ _ _ fun k hk => ?_
  have := he k hk
  rw [abs_le] at this ⊢
  constructor <;> linarith [this.1, this.2]

theorem downResp_near {r p : ℕ} {w : ℝ} {e : ℕ → ℝ} (he : ∀ k ∈ stageKeys .down r, |downAmp k p (w / k) - 1| ≤ e k / 2) :
    |downResp r p w - 1| ≤ ((stageKeys .down r).map fun k => 1 + e k / 2).prod - 1 :=
  near_one_prod _ _ _ he

/-- Downsampling what upsampling made of a sinusoid. -/
theorem Config.op_over {cu cd : Config} (hu : cu.Valid) (hd : cd.Valid) (hfu : cu.filter = .fir) (hfd : cd.filter = .fir)
    (hmu : cu.mode = .up) (hmd : cd.mode = .down) (hr : cd.ratio = cu.ratio) {x : ℕ → ℝ} {C w φ ε : ℝ} {N : ℕ}
    (h : NearTones x [(C, w, φ)] ε N) (hw : |w| ≤ 40 * Real.pi / 49) (e : ℕ → ℝ)
    (he : ∀ k ∈ stageKeys .up cu.ratio, |upAmp k cu.precision (w / k) - 1| ≤ e k) {n : ℕ}
    (hn : cascadeSettle (cd.stages (F := ℝ)) (cascadeSettle (cu.stages (F := ℝ)) N) ≤ n) :
    |cd.op (cu.op x) n - C * (upResp cu.ratio cu.precision w * downResp cd.ratio cd.precision w) *
        Real.cos (w * (n - ((cu.totalDelay : ℚ) / cu.ratio + (cd.totalDelay : ℚ))) + φ)| ≤
      (stopErr cd.ratio cd.precision : ℚ) *
          ((imgFold ((stageKeys .up cu.ratio).map fun k => (((ampErr k cu.precision : ℚ) : ℝ), e k)) 1 0).2 * |C|) +
        (cd.gain : ℚ) * ((cu.gain : ℚ) * ε) := by
  have hr0 : (cu.ratio : ℝ) ≠ 0 := by
    have := hu.ratio
    simp only [List.mem_cons, List.not_mem_nil, or_false] at this
    rcases this with h | h | h | h <;> rw [h] <;> norm_num
  obtain ⟨S, hS, hc, hs⟩ := Config.op_up_split hu hfu hmu h e he
  have hse : (0 : ℝ) ≤ (stopErr cd.ratio cd.precision : ℚ) := by
    have h2 : (0 : ℚ) ≤ ampErr 2 cd.precision := by exact_mod_cast ampErr_nonneg 2 cd.precision
    have h4 : (0 : ℚ) ≤ ampErr 4 cd.precision := by exact_mod_cast ampErr_nonneg 4 cd.precision
    have h8 : (0 : ℚ) ≤ ampErr 8 cd.precision := by exact_mod_cast ampErr_nonneg 8 cd.precision
    have : (0 : ℚ) ≤ stopErr cd.ratio cd.precision := by
      unfold stopErr
      simp only
      split
      · positivity
      · split
        · exact le_max_of_le_left (by positivity)
        · exact le_max_of_le_left (by positivity)
    exact_mod_cast this
  set A := C * upResp cu.ratio cu.precision w with hA
  set ψ := φ - w / cu.ratio * ((cu.totalDelay : ℚ) : ℝ) with hψ
  have hn0 := (Config.settle_mono (Nat.zero_le _)).trans hn
  have h1 := (Config.op_down_resp hd hfd hmd (nearSine_self A (w / cu.ratio) ψ)).bound hn0
  have h2 : |cd.op (fun i : ℕ => cu.op x i - A * Real.cos (w / cu.ratio * i + ψ)) n - (S.map fun _ => (0 : ℝ)).sum| ≤
      (S.map fun a => ((stopErr cd.ratio cd.precision : ℚ) : ℝ) * |a.1|).sum + (cd.gain : ℚ) * ((cu.gain : ℚ) * ε) := by
    refine lin_tones cd.op_add cd.op_zero (out := fun _ _ => 0) S ?_ ?_
    · intro a ha
      obtain ⟨j, hj, hj'⟩ := hc a ha
      have := (Config.op_down_sine hd hfd hmd (nearSine_self a.1 a.2.1 a.2.2) (j := j) (by
        rw [hr, hj', add_sub_cancel_right]
        exact hw)).bound hn0
      rw [← hr] at hj
      rw [errFold_gain, mul_zero, mul_zero, add_zero, if_neg hj, if_neg hj, zero_add, zero_mul] at this
      exact this
    · refine Config.op_small hd hfd ?_ hn
      intro i hi
      have := hs i hi
      rw [tones_cons] at this
      rwa [sub_sub]
  rw [sum_map_mul_abs, List.map_const', List.sum_replicate, smul_zero, sub_zero] at h2
  have h3 := mul_le_mul_of_nonneg_left hS hse
  have e1 : cu.op x = fun i : ℕ => A * Real.cos (w / cu.ratio * i + ψ) + (cu.op x i - A * Real.cos (w / cu.ratio * i + ψ)) := by
    funext i
    ring
  have e2 : cd.op (cu.op x) n = cd.op (fun i : ℕ => A * Real.cos (w / cu.ratio * i + ψ)) n +
      cd.op (fun i : ℕ => cu.op x i - A * Real.cos (w / cu.ratio * i + ψ)) n := by
    conv_lhs => rw [e1, cd.op_add]
  have e3 : A * downResp cd.ratio cd.precision (cd.ratio * (w / cu.ratio)) *
      Real.cos (cd.ratio * (w / cu.ratio) * n + (ψ - cd.ratio * (w / cu.ratio) * ((cd.totalDelay : ℚ) : ℝ))) =
      C * (upResp cu.ratio cu.precision w * downResp cd.ratio cd.precision w) *
        Real.cos (w * (n - ((cu.totalDelay : ℚ) / cu.ratio + (cd.totalDelay : ℚ))) + φ) := by
    rw [hr, mul_div_cancel₀ _ hr0, hA, mul_assoc C]
    congr 2
    rw [hψ]
    field_simp
    ring
  rw [e3, mul_zero, mul_zero, add_zero] at h1
  rw [e2]
  rw [abs_le] at h1 h2 ⊢
  constructor <;> linarith [h1.1, h1.2, h2.1, h2.2]

/-! ## Bounds for the whole pass band -/

/-- Bound for the sum of the amplitudes of the images of a sinusoid with amplitude 1 in the pass band. -/
def imgErr (r p : ℕ) : ℚ := (imgFold ((stageKeys .up r).map fun k => (ampErr k p, ampErr k p)) 1 0).2

omit [Sample ℝ] [Accurate ℝ] in
theorem imgFold_cast (es : List (ℚ × ℚ)) (A S : ℚ) :
    imgFold (es.map fun e => ((e.1 : ℝ), (e.2 : ℝ))) (A : ℝ) (S : ℝ) = (((imgFold es A S).1 : ℝ), ((imgFold es A S).2 : ℝ)) := by
  induction es generalizing A S with
  | nil => rfl
  | cons e es ih =>
    unfold imgFold at ih ⊢
    simp only [List.map_cons, List.foldl_cons]
    rw [← ih]
    push_cast
    rfl

omit [Sample ℝ] [Accurate ℝ] in
theorem imgErr_cast (r p : ℕ) :
    (imgFold ((stageKeys .up r).map fun k => (((ampErr k p : ℚ) : ℝ), ((ampErr k p : ℚ) : ℝ))) 1 0).2 = ((imgErr r p : ℚ) : ℝ) := by
  have := imgFold_cast ((stageKeys .up r).map fun k => (ampErr k p, ampErr k p)) 1 0
  rw [List.map_map] at this
  push_cast at this
  exact congrArg Prod.snd this

omit [Sample ℝ] [Accurate ℝ] in
theorem prod_errFold (es : List ℝ) (δ : ℝ) : (1 + δ) * (es.map fun e => 1 + e).prod = 1 + errFold es 1 δ := by
  induction es generalizing δ with
  | nil => simp [errFold]
  | cons e es ih =>
    rw [List.map_cons, List.prod_cons, ← mul_assoc, show (1 + δ) * (1 + e) = 1 + ((1 + e) * δ + e * 1) by ring, ih]
    rfl

theorem sineErr_prod (r p : ℕ) :
    ((stageKeys .down r).map fun k => 1 + ((ampErr k p : ℚ) : ℝ) / 2).prod - 1 = ((sineErr .down r p : ℚ) : ℝ) := by
  have := prod_errFold ((ampErrs .down r p).map fun e : ℚ => (e : ℝ)) 0
  have key : ∀ (es : List ℚ) (δ : ℚ), ((errFold es 1 δ : ℚ) : ℝ) = errFold (es.map fun e : ℚ => (e : ℝ)) 1 (δ : ℝ) := by
    intro es
    induction es with
    | nil => intro δ; rfl
    | cons e es ih =>
      intro δ
      unfold errFold at ih ⊢
      simp only [List.map_cons, List.foldl_cons]
      rw [ih]
      push_cast
      rfl
  have e := key (ampErrs .down r p) 0
  push_cast at e
  rw [← e, add_zero, one_mul] at this
  rw [← add_sub_cancel_left 1 ((sineErr .down r p : ℚ) : ℝ), sineErr, ← this]
  unfold ampErrs
  rw [List.map_map, List.map_map]
  congr 2
  refine List.map_congr_left fun k _ => ?_
  simp [Function.comp]

omit [Sample ℝ] [Accurate ℝ] in
theorem stageKeys_mem {m : Mode} {r k : ℕ} (h : k ∈ stageKeys m r) : k ∈ [2, 4, 8] := by
  cases m <;> simp [stageKeys, List.mem_filter] at h ⊢ <;> tauto

omit [Sample ℝ] [Accurate ℝ] in
theorem stageKeys_perm (r : ℕ) : (stageKeys .down r).Perm (stageKeys .up r) := by
  unfold stageKeys
  exact List.Perm.filter _ (by decide)

theorem sineErr_prod' (r p : ℕ) :
    ((stageKeys .up r).map fun k => 1 + ((ampErr k p : ℚ) : ℝ) / 2).prod - 1 = ((sineErr .down r p : ℚ) : ℝ) := by
  rw [← sineErr_prod, ((stageKeys_perm r).map _).prod_eq]

theorem div_edge {k : ℕ} (hk : k ∈ [2, 4, 8]) {w : ℝ} (hw : |w| ≤ 40 * Real.pi / 49) : |w / k| ≤ edge k := by
  have hk0 : (0 : ℝ) < k := by
    simp only [List.mem_cons, List.not_mem_nil, or_false] at hk
    rcases hk with rfl | rfl | rfl <;> norm_num
  rw [abs_div, abs_of_pos hk0, edge_eq]
  exact div_le_div_of_nonneg_right hw hk0.le

theorem upAmp_pass {k p : ℕ} (hk : k ∈ [2, 4, 8]) (hp : p ∈ [1, 8, 12, 16, 20, 24]) {w : ℝ} (hw : |w| ≤ 40 * Real.pi / 49) :
    |upAmp k p (w / k) - 1| ≤ ((ampErr k p : ℚ) : ℝ) := (amp_up hk hp _).2 (div_edge hk hw)

theorem downAmp_pass {k p : ℕ} (hk : k ∈ [2, 4, 8]) (hp : p ∈ [1, 8, 12, 16, 20, 24]) {w : ℝ} (hw : |w| ≤ 40 * Real.pi / 49) :
    |downAmp k p (w / k) - 1| ≤ ((ampErr k p : ℚ) : ℝ) / 2 := by
  have := (amp_down hk hp (w / k)).2 0 (by simpa using div_edge hk hw)
  simpa using this

theorem upResp_pass {r p : ℕ} (hp : p ∈ [1, 8, 12, 16, 20, 24]) {w : ℝ} (hw : |w| ≤ 40 * Real.pi / 49) :
    |upResp r p w - 1| ≤ ((sineErr .down r p : ℚ) : ℝ) := by
  rw [← sineErr_prod']
  exact upResp_near fun k hk => upAmp_pass (stageKeys_mem hk) hp hw

theorem downResp_pass {r p : ℕ} (hp : p ∈ [1, 8, 12, 16, 20, 24]) {w : ℝ} (hw : |w| ≤ 40 * Real.pi / 49) :
    |downResp r p w - 1| ≤ ((sineErr .down r p : ℚ) : ℝ) := by
  rw [← sineErr_prod]
  exact downResp_near fun k hk => downAmp_pass (stageKeys_mem hk) hp hw

theorem downResp_all {r p : ℕ} (hp : p ∈ [1, 8, 12, 16, 20, 24]) (w : ℝ) :
    |downResp r p w| ≤ 1 + ((sineErr .down r p : ℚ) : ℝ) := by
  rw [← sineErr_prod, add_sub_cancel]
  unfold downResp
  have key : ∀ l : List ℕ, (∀ k ∈ l, k ∈ [2, 4, 8]) →
      |(l.map fun k => downAmp k p (w / k)).prod| ≤ (l.map fun k => 1 + ((ampErr k p : ℚ) : ℝ) / 2).prod := by
    intro l
    induction l with
    | nil => simp
    | cons k l ih =>
      intro h
      rw [List.map_cons, List.prod_cons, List.map_cons, List.prod_cons]
      exact abs_mul_le' (amp_down (h k (by simp)) hp _).1 (ih fun k hk => h k (by simp [hk]))
  exact key _ fun k => stageKeys_mem

theorem downResp_stop {r p : ℕ} (hr : r ∈ [1, 2, 4, 8]) (hp : p ∈ [1, 8, 12, 16, 20, 24]) {w : ℝ} {j : ℤ} (hj : ¬ (r : ℤ) ∣ j)
    (hw : |w - 2 * Real.pi * j| ≤ 40 * Real.pi / 49) : |downResp r p w| ≤ ((stopErr r p : ℚ) : ℝ) := by
  have c : ∀ k : ℕ, k ∈ [2, 4, 8] → ∀ i : ℤ, 2 * j = k * i → |downAmp k p (w / k) - (if i % 2 = 0 then 1 else 0)| ≤ ((ampErr k p : ℚ) : ℝ) / 2 := by
    intro k hk i hi
    have hk0 : (k : ℝ) ≠ 0 := by
      simp only [List.mem_cons, List.not_mem_nil, or_false] at hk
      rcases hk with rfl | rfl | rfl <;> norm_num
    have hi' : 2 * (j : ℝ) = k * i := by exact_mod_cast hi
    refine (amp_down hk hp (w / k)).2 i ?_
    rw [show w / k - i * Real.pi = (w - 2 * Real.pi * j) / k by field_simp; linear_combination hi' * Real.pi]
    exact div_edge hk hw
  have b2 := (amp_down (k := 2) (p := p) (by simp) hp (w / 2)).1
  have b4 := (amp_down (k := 4) (p := p) (by simp) hp (w / 4)).1
  have b8 := (amp_down (k := 8) (p := p) (by simp) hp (w / 8)).1
  have c2 := c 2 (by simp) j (by push_cast; ring)
  have c4 := c 4 (by simp)
  have c8 := c 8 (by simp)
  push_cast at c2 c4 c8
  unfold downResp stopErr
  simp only [List.mem_cons, List.not_mem_nil, or_false] at hr
  rcases hr with rfl | rfl | rfl | rfl
  · simp at hj
  · rw [show stageKeys .down 2 = [2] from rfl]
    rw [if_neg (by omega), sub_zero] at c2
    simpa using c2
  · rw [show stageKeys .down 4 = [4, 2] from rfl]
    simp only [reduceIte, Nat.reduceEqDiff, Rat.cast_max, Rat.cast_mul, Rat.cast_add, Rat.cast_div, Rat.cast_one,
        Rat.cast_ofNat, List.map_cons, List.map_nil, List.prod_cons, List.prod_nil, mul_one, Nat.cast_ofNat]
    by_cases hj2 : j % 2 = 0
    · obtain ⟨i, hi⟩ : (2 : ℤ) ∣ j := Int.dvd_of_emod_eq_zero hj2
      have c4 := c4 i (by omega)
      rw [if_neg (by omega), sub_zero] at c4
      exact (abs_mul_le' c4 b2).trans (le_max_right _ _)
    · rw [if_neg hj2, sub_zero] at c2
      refine (abs_mul_le' b4 c2).trans (le_trans (le_of_eq ?_) (le_max_left _ _))
      ring
  · rw [show stageKeys .down 8 = [8, 4, 2] from rfl]
    simp only [reduceIte, Nat.reduceEqDiff, Rat.cast_max, Rat.cast_mul, Rat.cast_add, Rat.cast_div, Rat.cast_one,
        Rat.cast_ofNat, List.map_cons, List.map_nil, List.prod_cons, List.prod_nil, mul_one, Nat.cast_ofNat, ← mul_assoc]
    by_cases hj2 : j % 2 = 0
    · obtain ⟨i, hi⟩ : (2 : ℤ) ∣ j := Int.dvd_of_emod_eq_zero hj2
      have c4 := c4 i (by omega)
      by_cases hi' : i % 2 = 0
      · obtain ⟨l, hl⟩ : (2 : ℤ) ∣ i := Int.dvd_of_emod_eq_zero hi'
        have c8 := c8 l (by omega)
        rw [if_neg (by omega), sub_zero] at c8
        refine (abs_mul_le' (abs_mul_le' c8 b4) b2).trans (le_trans (le_of_eq ?_) (le_trans (le_max_right _ _) (le_max_right _ _)))
        ring
      · rw [if_neg hi', sub_zero] at c4
        refine (abs_mul_le' (abs_mul_le' b8 c4) b2).trans (le_trans (le_of_eq ?_) (le_trans (le_max_left _ _) (le_max_right _ _)))
        ring
    · rw [if_neg hj2, sub_zero] at c2
      refine (abs_mul_le' (abs_mul_le' b8 b4) c2).trans (le_trans (le_of_eq ?_) (le_max_left _ _))
      ring

theorem stopErr_nonneg (r p : ℕ) : (0 : ℝ) ≤ (stopErr r p : ℚ) := by
  have h2 : (0 : ℚ) ≤ ampErr 2 p := by exact_mod_cast ampErr_nonneg 2 p
  have h4 : (0 : ℚ) ≤ ampErr 4 p := by exact_mod_cast ampErr_nonneg 4 p
  have h8 : (0 : ℚ) ≤ ampErr 8 p := by exact_mod_cast ampErr_nonneg 8 p
  have : (0 : ℚ) ≤ stopErr r p := by
    unfold stopErr
    simp only
    split
    · positivity
    · split
      · exact le_max_of_le_left (by positivity)
      · exact le_max_of_le_left (by positivity)
  exact_mod_cast this

/-- Oversampling, for a sinusoid in the pass band: the two amplitude errors, and what the stop band leaves of the images. -/
theorem Config.op_over_sine {cu cd : Config} (hu : cu.Valid) (hd : cd.Valid) (hfu : cu.filter = .fir) (hfd : cd.filter = .fir)
    (hmu : cu.mode = .up) (hmd : cd.mode = .down) (hr : cd.ratio = cu.ratio) {C w φ : ℝ} (hw : |w| ≤ 40 * Real.pi / 49)
    {n : ℕ} (hn : cascadeSettle (cd.stages (F := ℝ)) (cascadeSettle (cu.stages (F := ℝ)) 0) ≤ n) :
    |cd.op (cu.op fun i : ℕ => C * Real.cos (w * i + φ)) n -
        C * Real.cos (w * (n - ((cu.totalDelay : ℚ) / cu.ratio + (cd.totalDelay : ℚ))) + φ)| ≤
      ((1 + (sineErr .down cu.ratio cu.precision : ℚ)) * (1 + (sineErr .down cd.ratio cd.precision : ℚ)) - 1 +
        (stopErr cd.ratio cd.precision : ℚ) * (imgErr cu.ratio cu.precision : ℚ)) * |C| := by
  have h1 := Config.op_over hu hd hfu hfd hmu hmd hr (x := fun i : ℕ => C * Real.cos (w * i + φ)) (C := C) (w := w) (φ := φ)
    (ε := 0) (N := 0) (fun n _ => by simp [tones]) hw (fun k => ((ampErr k cu.precision : ℚ) : ℝ))
    (fun k hk => upAmp_pass (stageKeys_mem hk) hu.precision hw) hn
  rw [imgErr_cast, mul_zero, mul_zero, add_zero] at h1
  have h2 := near_one_mul (by exact_mod_cast sineErr_nonneg .down cu.ratio cu.precision)
    (upResp_pass (r := cu.ratio) hu.precision hw) (downResp_pass (r := cd.ratio) hd.precision hw)
  set B := upResp cu.ratio cu.precision w * downResp cd.ratio cd.precision w
  set c := Real.cos (w * (n - ((cu.totalDelay : ℚ) / cu.ratio + (cd.totalDelay : ℚ))) + φ)
  have h3 : |C * B * c - C * c| ≤
      ((1 + ((sineErr .down cu.ratio cu.precision : ℚ) : ℝ)) * (1 + ((sineErr .down cd.ratio cd.precision : ℚ) : ℝ)) - 1) * |C| := by
    rw [show C * B * c - C * c = (B - 1) * C * c by ring, abs_mul, abs_mul]
    refine (mul_le_of_le_one_right (by positivity) (Real.abs_cos_le_one _)).trans ?_
    exact mul_le_mul_of_nonneg_right h2 (abs_nonneg _)
  rw [abs_le] at h1 h3 ⊢
  constructor <;> linarith [h1.1, h1.2, h3.1, h3.2]

/-- Oversampling, for sums of sinusoids in the pass band. -/
theorem Config.op_over_tones {cu cd : Config} (hu : cu.Valid) (hd : cd.Valid) (hfu : cu.filter = .fir) (hfd : cd.filter = .fir)
    (hmu : cu.mode = .up) (hmd : cd.mode = .down) (hr : cd.ratio = cu.ratio) {x : ℕ → ℝ}
    {L : List (ℝ × ℝ × ℝ)} (hL : ∀ a ∈ L, |a.2.1| ≤ 40 * Real.pi / 49) {ε : ℝ} {N n : ℕ} (h : NearTones x L ε N)
    (hn : cascadeSettle (cd.stages (F := ℝ)) (cascadeSettle (cu.stages (F := ℝ)) N) ≤ n) :
    |cd.op (cu.op x) n - tones L (n - ((cu.totalDelay : ℚ) / cu.ratio + (cd.totalDelay : ℚ)))| ≤
      ((1 + (sineErr .down cu.ratio cu.precision : ℚ)) * (1 + (sineErr .down cd.ratio cd.precision : ℚ)) - 1 +
        (stopErr cd.ratio cd.precision : ℚ) * (imgErr cu.ratio cu.precision : ℚ)) * amps L +
        (cd.gain : ℚ) * ((cu.gain : ℚ) * ε) := by
  rw [← sum_map_mul_abs]
  refine lin_tones (T := fun x => cd.op (cu.op x)) (fun x y => by rw [cu.op_add, cd.op_add]) (by rw [cu.op_zero, cd.op_zero])
    (out := fun a n => a.1 * Real.cos (a.2.1 * (n - ((cu.totalDelay : ℚ) / cu.ratio + (cd.totalDelay : ℚ))) + a.2.2)) L ?_ ?_
  · intro a ha
    exact Config.op_over_sine hu hd hfu hfd hmu hmd hr (hL a ha)
      ((Config.settle_mono (Config.settle_mono (Nat.zero_le N))).trans hn)
  · exact Config.op_small hd hfd (fun i hi => Config.op_small hu hfu h hi) hn

theorem errFold_from (es : List ℝ) (δ : ℝ) : errFold es 1 δ = (1 + δ) * (1 + errFold es 1 0) - 1 := by
  have h3 := prod_errFold es δ
  have h4 := prod_errFold es 0
  rw [add_zero, one_mul] at h4
  rw [h4] at h3
  linarith

/-- Subsampling, for sums of sinusoids in the pass band of the downsampler. -/
theorem Config.op_sub_tones {cu cd : Config} (hu : cu.Valid) (hd : cd.Valid) (hfu : cu.filter = .fir) (hfd : cd.filter = .fir)
    (hmu : cu.mode = .up) (hmd : cd.mode = .down) (hr : cu.ratio = cd.ratio) {x : ℕ → ℝ}
    {L : List (ℝ × ℝ × ℝ)} (hL : ∀ a ∈ L, |cd.ratio * a.2.1| ≤ 40 * Real.pi / 49) {ε : ℝ} {N n : ℕ} (h : NearTones x L ε N)
    (hn : cascadeSettle (cu.stages (F := ℝ)) (cascadeSettle (cd.stages (F := ℝ)) N) ≤ n) :
    |cu.op (cd.op x) n - tones L (n - ((cd.totalDelay : ℚ) * cd.ratio + (cu.totalDelay : ℚ)))| ≤
      ((1 + (sineErr .down cd.ratio cd.precision : ℚ)) * (1 + (sineErr .up cu.ratio cu.precision : ℚ)) - 1) * amps L +
        (cu.gain : ℚ) * ((cd.gain : ℚ) * ε) := by
  rw [← sum_map_mul_abs]
  have hr0 : (cd.ratio : ℝ) ≠ 0 := by
    have := hd.ratio
    simp only [List.mem_cons, List.not_mem_nil, or_false] at this
    rcases this with h | h | h | h <;> rw [h] <;> norm_num
  refine lin_tones (T := fun x => cu.op (cd.op x)) (fun x y => by rw [cd.op_add, cu.op_add]) (by rw [cd.op_zero, cu.op_zero])
    (out := fun a n => a.1 * Real.cos (a.2.1 * (n - ((cd.totalDelay : ℚ) * cd.ratio + (cu.totalDelay : ℚ))) + a.2.2)) L ?_ ?_
  · intro a ha
    have h1 := Config.op_down_sine hd hfd hmd (nearSine_self a.1 a.2.1 a.2.2) (j := 0) (by simpa using hL a ha)
    rw [errFold_gain, mul_zero, mul_zero, zero_add, if_pos (dvd_zero _), if_pos (dvd_zero _)] at h1
    have h2 := (Config.op_up_sine hu hfu hmu h1 (hL a ha)).bound ((Config.settle_mono (Config.settle_mono (Nat.zero_le N))).trans hn)
    rw [errFold_smul, mul_zero, add_zero] at h2
    refine le_trans (le_of_eq ?_) (h2.trans (le_of_eq ?_))
    · rw [hr, mul_div_cancel_left₀ _ hr0]
      congr 3
      ring_nf
    · congr 1
      rw [errFold_from, errFold_sine, mul_one]
  · exact Config.op_small hu hfu (fun i hi => Config.op_small hd hfd h hi) hn

end stages

end Panda
