import Verif.Proofs.Rounding
import Verif.Props.Common

/-!
# Rounding errors of whole FIR resamplers
-/

set_option linter.unusedSectionVars false

namespace Panda

open Finset Examples

/-- Unit roundoff of binary32. -/
abbrev u32r : ℚ := 2⁻¹ ^ 24

variable {S : Format} {η Ω : ℚ}

/-- Factor the coefficients are multiplied with. -/
def Mode.scale : Mode → ℚ
  | .up => 2
  | .down => 1

/-- The taps fit and are rounded with a small relative error. -/
def TapsOk (S : Format) (m : Mode) (t : List Dec) : Prop :=
  ∀ d ∈ t, |S.rnd (d.toRat * m.scale) - d.toRat * m.scale| ≤ u32r * |d.toRat * m.scale| ∧ S.fits (S.rnd (d.toRat * m.scale)) = true

/-- The taps as stored. -/
def storedTaps (S : Format) (m : Mode) (t : List Dec) : List ℚ := t.map fun d => S.rnd (d.toRat * m.scale)

theorem TapsOk.taps {m : Mode} {t : List Dec} (h : TapsOk S m t) :
    t.map (fun d => (Sample.ofDouble (d.toRat * m.scale) : Fl S)) = (storedTaps S m t).map fun q => Fl.fin q := by
  unfold storedTaps
  rw [List.map_map]
  refine List.map_congr_left fun d hd => ?_
  exact if_pos (h d hd).2

theorem storedTaps_length (m : Mode) (t : List Dec) : (storedTaps S m t).length = t.length := by simp [storedTaps]

theorem seq_stored (m : Mode) (t : List Dec) {i : ℕ} (hi : i < t.length) : seq (storedTaps S m t) i = S.rnd (t[i].toRat * m.scale) := by
  rw [seq_lt (by simpa [storedTaps_length] using hi)]
  simp [storedTaps]

theorem seq_taps (m : Mode) (t : List Dec) {i : ℕ} (hi : i < t.length) :
    seq (t.map fun d => d.toRat * m.scale) i = t[i].toRat * m.scale := by
  rw [seq_lt (by simpa using hi)]
  simp

theorem TapsOk.near {m : Mode} {t : List Dec} (h : TapsOk S m t) {i : ℕ} (hi : i < t.length) :
    |seq (storedTaps S m t) i - seq (t.map fun d => d.toRat * m.scale) i| ≤ u32r * |seq (t.map fun d => d.toRat * m.scale) i| := by
  rw [seq_stored m t hi, seq_taps m t hi]
  exact (h _ (List.getElem_mem hi)).1

theorem TapsOk.abs {m : Mode} {t : List Dec} (h : TapsOk S m t) {i : ℕ} (hi : i < t.length) :
    |seq (storedTaps S m t) i| ≤ (1 + u32r) * |seq (t.map fun d => d.toRat * m.scale) i| := by
  have h1 := h.near hi
  have h2 := abs_sub_abs_le_abs_sub (seq (storedTaps S m t) i) (seq (t.map fun d => d.toRat * m.scale) i)
  linarith

/-- Sum of the absolute values of the taps. -/
theorem sum_taps_abs (m : Mode) (t : List Dec) :
    ∑ i ∈ range t.length, |seq (t.map fun d => d.toRat * m.scale) i| = absSum t * (m.scale / 2) := by
  have := sum_seq (t.map fun d => d.toRat * m.scale) fun x => |x|
  rw [List.length_map] at this
  rw [this, absSum, List.map_map]
  induction t with
  | nil => simp
  | cons a t ih =>
    simp only [List.map_cons, List.sum_cons, Function.comp] at ih ⊢
    rw [ih (by
      have := sum_seq (t.map fun d => d.toRat * m.scale) fun x => |x|
      rw [List.length_map] at this
      rw [this, List.map_map])]
    rw [abs_mul, abs_mul]
    cases m
    · norm_num [Mode.scale]
    · norm_num [Mode.scale]; ring

theorem absSum_nonneg (t : List Dec) : 0 ≤ absSum t := by
  have h := sum_taps_abs .up t
  have : 0 ≤ ∑ i ∈ range t.length, |seq (t.map fun d => d.toRat * Mode.up.scale) i| := sum_nonneg fun _ _ => abs_nonneg _
  rw [h] at this
  simpa [Mode.scale] using this

theorem dot_abs_le {m : Mode} {t : List Dec} (h : TapsOk S m t) {f : ℕ → ℚ} {M : ℚ} (hf : ∀ i < t.length, |f i| ≤ M) :
    ∑ i ∈ range t.length, |seq (storedTaps S m t) i| * |f i| ≤ (1 + u32r) * (absSum t * (m.scale / 2)) * M := by
  rw [← sum_taps_abs, mul_sum, sum_mul]
  refine sum_le_sum fun i hi => ?_
  have hi := mem_range.1 hi
  exact mul_le_mul (h.abs hi) (hf i hi) (abs_nonneg _) (by positivity)

theorem dot_diff_le {m : Mode} {t : List Dec} (h : TapsOk S m t) {f g : ℕ → ℚ} {M ε : ℚ} (hf : ∀ i < t.length, |f i| ≤ M)
    (hg : ∀ i < t.length, |f i - g i| ≤ ε) :
    |∑ i ∈ range t.length, seq (storedTaps S m t) i * f i - ∑ i ∈ range t.length, seq (t.map fun d => d.toRat * m.scale) i * g i| ≤
      absSum t * (m.scale / 2) * ε + u32r * (absSum t * (m.scale / 2)) * M := by
  rw [← sum_taps_abs, mul_sum, sum_mul, sum_mul, ← sum_add_distrib, ← sum_sub_distrib]
  refine (abs_sum_le_sum_abs _ _).trans (sum_le_sum fun i hi => ?_)
  have hi := mem_range.1 hi
  have e : seq (storedTaps S m t) i * f i - seq (t.map fun d => d.toRat * m.scale) i * g i =
    seq (t.map fun d => d.toRat * m.scale) i * (f i - g i) +
      (seq (storedTaps S m t) i - seq (t.map fun d => d.toRat * m.scale) i) * f i := by ring
  rw [e]
  refine (abs_add_le _ _).trans ?_
  rw [abs_mul, abs_mul]
  refine add_le_add (mul_le_mul_of_nonneg_left (hg i hi) (abs_nonneg _)) ?_
  exact mul_le_mul (h.near hi) (hf i hi) (abs_nonneg _) (by positivity)

theorem zext_near {x r : ℕ → ℚ} {N : ℕ} {ε : ℚ} (hε : 0 ≤ ε) (h : ∀ n < N, |x n - r n| ≤ ε) {z : ℤ} (hz : z < N) :
    |zext x z - zext r z| ≤ ε := by
  unfold zext
  split
  · exact h _ (by omega)
  · simpa using hε

/-- Factor by which a stage with rounding errors may increase the maximum. -/
def rndGain (m : Mode) (t : List Dec) : ℚ := (1 + u32r) ^ (t.length + 4) * stageGain m t

/-- Absolute error due to underflow. -/
def rndAbs (η : ℚ) (t : List Dec) : ℚ := (2 * t.length + 13 : ℕ) * η * (1 + u32r) ^ (t.length + 4)

/-- Relative error of a stage. -/
def rndRel (m : Mode) (t : List Dec) : ℚ := ((1 + u32r) ^ (t.length + 5) - 1) * stageGain m t

theorem stageGain_nonneg (m : Mode) (t : List Dec) : 0 ≤ stageGain m t := by
  have := absSum_nonneg t
  cases m <;> unfold stageGain
  · positivity
  · positivity

/-- One FIR stage with rounding errors: the output is near the exact output for a nearby input, if it is near the exact output for the
same input and the stored taps (`hup`, `hdown`). -/
theorem firStage_near (hS : S.Acc u32r η Ω) {m : Mode} {vec : Bool} {t : List Dec} (hO : 2 ≤ t.length) (he : t.length % 2 = 0) (ht : TapsOk S m t)
    {xs : List ℚ} {P : List ℚ → Prop} {M ε : ℚ} (hM : ∀ n, |seq xs n| ≤ M) (hΩ : rndGain m t * M + rndAbs η t ≤ Ω) {r : ℕ → ℚ} (hε : 0 ≤ ε)
    (hr : ∀ n < xs.length, |seq xs n - r n| ≤ ε)
    (hup : m = .up → (∀ n < 2 * xs.length, (1 + u32r) ^ ((storedTaps S m t).length + 4) *
        (firUpOp (storedTaps S m t).length (fun i => |seq (storedTaps S m t) i|) (fun i => |seq xs i|) n +
          (2 * (storedTaps S m t).length + 13 : ℕ) * η) ≤ Ω) →
      ∃ yq : List ℚ, P yq ∧ yq.length = 2 * xs.length ∧
        ∀ n < yq.length, |seq yq n - firUpOp (storedTaps S m t).length (seq (storedTaps S m t)) (seq xs) n| ≤
          ((1 + u32r) ^ ((storedTaps S m t).length + 4) - 1) *
            firUpOp (storedTaps S m t).length (fun i => |seq (storedTaps S m t) i|) (fun i => |seq xs i|) n +
            (2 * (storedTaps S m t).length + 13 : ℕ) * η * (1 + u32r) ^ ((storedTaps S m t).length + 4))
    (hdown : m = .down → (∀ n < xs.length / 2, (1 + u32r) ^ ((storedTaps S m t).length + 4) *
        (firDownOp (storedTaps S m t).length (fun i => |seq (storedTaps S m t) i|) (1 / 2) (fun i => |seq xs i|) n +
          (2 * (storedTaps S m t).length + 13 : ℕ) * η) ≤ Ω) →
      ∃ yq : List ℚ, P yq ∧ xs.length = 2 * yq.length ∧
        ∀ n < yq.length, |seq yq n - firDownOp (storedTaps S m t).length (seq (storedTaps S m t)) (1 / 2) (seq xs) n| ≤
          ((1 + u32r) ^ ((storedTaps S m t).length + 4) - 1) *
            firDownOp (storedTaps S m t).length (fun i => |seq (storedTaps S m t) i|) (1 / 2) (fun i => |seq xs i|) n +
            (2 * (storedTaps S m t).length + 13 : ℕ) * η * (1 + u32r) ^ ((storedTaps S m t).length + 4)) :
    ∃ yq : List ℚ, P yq ∧ (∀ n, |seq yq n| ≤ rndGain m t * M + rndAbs η t) ∧
      ∀ n < yq.length, |seq yq n - (firStage (K := ℚ) m vec t).op r n| ≤ stageGain m t * ε + rndRel m t * M + rndAbs η t := by
  have hM0 : 0 ≤ M := (abs_nonneg _).trans (hM 0)
  have hG := stageGain_nonneg m t
  have hη := hS.hη
  have hab := absSum_nonneg t
  have p1 : 1 ≤ (1 + u32r) ^ (t.length + 4) := one_le_pow₀ (by unfold u32r; norm_num)
  have hA0 : 0 ≤ rndAbs η t := by unfold rndAbs; positivity
  have hu : (0 : ℚ) ≤ u32r := by positivity
  -- combination of the two kinds of errors
  have comb : ∀ {y w A e d : ℚ}, |y - w| ≤ ((1 + u32r) ^ (t.length + 4) - 1) * A + rndAbs η t → A ≤ stageGain m t * M →
      |w| ≤ A → |w - e| ≤ stageGain m t * ε + u32r * (stageGain m t * M) →
      |y| ≤ rndGain m t * M + rndAbs η t ∧ |y - e| ≤ stageGain m t * ε + rndRel m t * M + rndAbs η t := by
    intro y w A e d h1 h2 h3 h4
    have h5 : ((1 + u32r) ^ (t.length + 4) - 1) * A ≤ ((1 + u32r) ^ (t.length + 4) - 1) * (stageGain m t * M) :=
      mul_le_mul_of_nonneg_left h2 (by linarith)
    constructor
    · have := abs_sub_abs_le_abs_sub y w
      unfold rndGain
      nlinarith
    · have e1 : y - e = (y - w) + (w - e) := by ring
      rw [e1]
      refine (abs_add_le _ _).trans ?_
      have hGM : 0 ≤ stageGain m t * M := by positivity
      have : u32r * (stageGain m t * M) ≤ u32r * (1 + u32r) ^ (t.length + 4) * (stageGain m t * M) := by
        refine mul_le_mul_of_nonneg_right ?_ hGM
        nlinarith
      unfold rndRel
      rw [show t.length + 5 = t.length + 4 + 1 from rfl, pow_succ]
      nlinarith
  have finish : ∀ {yq : List ℚ}, (∀ n < yq.length, |seq yq n| ≤ rndGain m t * M + rndAbs η t) →
      ∀ n, |seq yq n| ≤ rndGain m t * M + rndAbs η t := by
    intro yq hq n
    rcases Nat.lt_or_ge n yq.length with hn | hn
    · exact hq n hn
    · rw [seq_ge hn, abs_zero]
      unfold rndGain
      positivity
  cases m with
  | up =>
    have hG2 : (1 + u32r) * (absSum t * (Mode.up.scale / 2)) ≤ stageGain .up t := by
      have : absSum t * (Mode.up.scale / 2) = absSum t := by simp [Mode.scale]
      rw [this]
      exact le_max_right _ _
    have hG1 : (1 : ℚ) ≤ stageGain .up t := le_max_left _ _
    have hA : ∀ n, firUpOp t.length (fun i => |seq (storedTaps S .up t) i|) (fun i => |seq xs i|) n ≤ stageGain .up t * M := by
      intro n
      unfold firUpOp
      split
      · simp only [zext_abs]
        refine (dot_abs_le ht fun i _ => abs_zext_le hM0 hM _).trans ?_
        exact mul_le_mul_of_nonneg_right hG2 hM0
      · rw [zext_abs]
        refine (abs_zext_le hM0 hM _).trans ?_
        nlinarith
    have hAw : ∀ n, |firUpOp t.length (seq (storedTaps S .up t)) (seq xs) n| ≤
        firUpOp t.length (fun i => |seq (storedTaps S .up t) i|) (fun i => |seq xs i|) n := by
      intro n
      unfold firUpOp
      split
      · simp only [zext_abs]
        refine (abs_sum_le_sum_abs _ _).trans (le_of_eq ?_)
        exact sum_congr rfl fun i _ => abs_mul _ _
      · rw [zext_abs]
    obtain ⟨yq, hyq, hl, hq⟩ := hup rfl (by
      intro n _
      rw [storedTaps_length]
      refine le_trans ?_ hΩ
      unfold rndGain rndAbs
      have := mul_le_mul_of_nonneg_left (hA n) (show 0 ≤ (1 + u32r) ^ (t.length + 4) by positivity)
      linarith)
    rw [storedTaps_length] at hq
    have both : ∀ n < yq.length, _ := fun n hn => comb (hq n hn) (hA n) (hAw n)
      (e := firUpOp t.length (seq (t.map fun d => d.toRat * Mode.up.scale)) r n) (d := 0) (by
        unfold firUpOp
        split
        · refine (dot_diff_le ht (fun i _ => abs_zext_le hM0 hM _) (ε := ε) (fun i hi => zext_near hε hr (by omega))).trans ?_
          have : absSum t * (Mode.up.scale / 2) ≤ stageGain .up t := by
            have : 0 ≤ absSum t * (Mode.up.scale / 2) := by simp only [Mode.scale]; positivity
            nlinarith
          rw [mul_assoc u32r]
          gcongr
        · refine (zext_near hε hr (by omega)).trans ?_
          have : 0 ≤ u32r * (stageGain .up t * M) := by positivity
          nlinarith)
    refine ⟨yq, hyq, finish fun n hn => (both n hn).1, fun n hn => ?_⟩
    have := (both n hn).2
    have e : (firStage (K := ℚ) .up vec t).op r n = firUpOp t.length (seq (t.map fun d => d.toRat * Mode.up.scale)) r n := by
      simp only [firStage, Stage.op, List.length_map]
      rfl
    rw [e]
    exact this
  | down =>
    have hG2 : (1 + u32r) * (absSum t * (Mode.down.scale / 2)) + 1 / 2 = stageGain .down t := by
      simp only [Mode.scale, stageGain]
      ring
    have hA : ∀ n, firDownOp t.length (fun i => |seq (storedTaps S .down t) i|) (1 / 2) (fun i => |seq xs i|) n ≤ stageGain .down t * M := by
      intro n
      unfold firDownOp
      simp only [zext_abs]
      rw [← hG2, add_mul]
      exact add_le_add (dot_abs_le ht fun i _ => abs_zext_le hM0 hM _)
        (mul_le_mul_of_nonneg_left (abs_zext_le hM0 hM _) (by norm_num))
    have hAw : ∀ n, |firDownOp t.length (seq (storedTaps S .down t)) (1 / 2) (seq xs) n| ≤
        firDownOp t.length (fun i => |seq (storedTaps S .down t) i|) (1 / 2) (fun i => |seq xs i|) n := by
      intro n
      unfold firDownOp
      simp only [zext_abs]
      refine (abs_add_le _ _).trans (add_le_add ?_ ?_)
      · refine (abs_sum_le_sum_abs _ _).trans (le_of_eq ?_)
        exact sum_congr rfl fun i _ => abs_mul _ _
      · rw [abs_mul, abs_of_pos (show (0 : ℚ) < 1 / 2 by norm_num)]
    obtain ⟨yq, hyq, hl, hq⟩ := hdown rfl (by
      intro n _
      rw [storedTaps_length]
      refine le_trans ?_ hΩ
      unfold rndGain rndAbs
      have := mul_le_mul_of_nonneg_left (hA n) (show 0 ≤ (1 + u32r) ^ (t.length + 4) by positivity)
      linarith)
    rw [storedTaps_length] at hq
    have both : ∀ n < yq.length, _ := fun n hn => comb (hq n hn) (hA n) (hAw n)
      (e := firDownOp t.length (seq (t.map fun d => d.toRat * Mode.down.scale)) (1 / 2) r n) (d := 0) (by
        unfold firDownOp
        rw [add_sub_add_comm]
        refine (abs_add_le _ _).trans ?_
        have h1 := dot_diff_le ht (f := fun i => zext (seq xs) (2 * (n - ((t.length : ℤ) - 1) + i)))
          (g := fun i => zext r (2 * (n - ((t.length : ℤ) - 1) + i))) (fun i _ => abs_zext_le hM0 hM _) (ε := ε)
          (fun i hi => zext_near hε hr (by omega))
        have h2 : |1 / 2 * zext (seq xs) (2 * (n - ((t.length : ℤ) - 1) + (t.length / 2 : ℕ) - 1) + 1) -
          1 / 2 * zext r (2 * (n - ((t.length : ℤ) - 1) + (t.length / 2 : ℕ) - 1) + 1)| ≤ 1 / 2 * ε := by
          rw [← mul_sub, abs_mul, abs_of_pos (show (0 : ℚ) < 1 / 2 by norm_num)]
          exact mul_le_mul_of_nonneg_left (zext_near hε hr (by omega)) (by norm_num)
        refine (add_le_add h1 h2).trans ?_
        have h3 : 0 ≤ absSum t * (Mode.down.scale / 2) := by simp only [Mode.scale]; positivity
        have h4 : absSum t * (Mode.down.scale / 2) + 1 / 2 ≤ stageGain .down t := by nlinarith
        have h5 : (absSum t * (Mode.down.scale / 2) + 1 / 2) * ε ≤ stageGain .down t * ε := by gcongr
        have h6 : u32r * (absSum t * (Mode.down.scale / 2)) * M ≤ u32r * (stageGain .down t * M) := by
          rw [mul_assoc u32r]
          gcongr
          linarith
        linarith)
    refine ⟨yq, hyq, finish fun n hn => (both n hn).1, fun n hn => ?_⟩
    have := (both n hn).2
    have e : (firStage (K := ℚ) .down vec t).op r n =
        firDownOp t.length (seq (t.map fun d => d.toRat * Mode.down.scale)) (1 / 2) r n := by
      simp only [firStage, Stage.op, List.length_map]
      rfl
    rw [e]
    exact this

/-- One FIR stage with rounding errors: the output is finite, and near the exact output for a nearby input. -/
theorem firStage_round (hS : S.Acc u32r η Ω) {m : Mode} {vec : Bool} {t : List Dec} (hO : 2 ≤ t.length) (he : t.length % 2 = 0)
    (ht : TapsOk S m t)
    {xs : List ℚ} {ys : List (Fl S)} (h : (firStage m vec t).Rel (xs.map fun q => (Fl.fin q : Fl S)) ys)
    {M ε : ℚ} (hM : ∀ n, |seq xs n| ≤ M) (hΩ : rndGain m t * M + rndAbs η t ≤ Ω) {r : ℕ → ℚ} (hε : 0 ≤ ε)
    (hr : ∀ n < xs.length, |seq xs n - r n| ≤ ε) :
    ∃ yq : List ℚ, ys = yq.map (fun q => Fl.fin q) ∧ (∀ n, |seq yq n| ≤ rndGain m t * M + rndAbs η t) ∧
      ∀ n < yq.length, |seq yq n - (firStage (K := ℚ) m vec t).op r n| ≤ stageGain m t * ε + rndRel m t * M + rndAbs η t := by
  refine firStage_near hS hO he ht hM hΩ hε hr ?_ ?_
  · rintro rfl hb
    have hr' : Stage.Rel (.firUp vec (t.map (fun d => (Sample.ofDouble (d.toRat * Mode.up.scale) : Fl S))))
      (xs.map fun q => Fl.fin q) ys := h
    rw [ht.taps] at hr'
    exact firUp_round hS (by rwa [storedTaps_length]) hr' hb
  · rintro rfl hb
    have hr' : Stage.Rel (.firDown vec (t.map (fun d => (Sample.ofDouble (d.toRat * Mode.down.scale) : Fl S))))
      (xs.map fun q => Fl.fin q) ys := h
    rw [ht.taps] at hr'
    exact firDown_round hS (by rwa [storedTaps_length]) hr' hb

/-! ## Cascades -/

/-- What is known about a signal: maximum `a M + b`, distance from the exact signal at most `e M + f`. -/
structure RndBound where
  a : ℚ
  b : ℚ
  e : ℚ
  f : ℚ

/-- Effect of a stage. -/
def RndBound.step (η : ℚ) (m : Mode) (s : RndBound) (t : List Dec) : RndBound where
  a := rndGain m t * s.a
  b := rndGain m t * s.b + rndAbs η t
  e := stageGain m t * s.e + rndRel m t * s.a
  f := stageGain m t * s.f + rndRel m t * s.b + rndAbs η t

/-- At the input. -/
def RndBound.init : RndBound := ⟨1, 0, 0, 0⟩

/-- No overflow in any stage. -/
def RndBound.Fits (η : ℚ) (m : Mode) (M Ω : ℚ) : RndBound → List (List Dec) → Prop
  | _, [] => True
  | s, t :: ts => (s.step η m t).a * M + (s.step η m t).b ≤ Ω ∧ RndBound.Fits η m M Ω (s.step η m t) ts

theorem cascade_round (hS : S.Acc u32r η Ω) {m : Mode} {vec : Bool} {M : ℚ} (ts : List (List Dec))
    (hts : ∀ t ∈ ts, 2 ≤ t.length ∧ t.length % 2 = 0 ∧ TapsOk S m t) (s : RndBound) (hf : s.Fits η m M Ω ts)
    {xs : List ℚ} {zs : List (Fl S)} (h : CascadeRel (ts.map (firStage m vec)) (xs.map fun q => (Fl.fin q : Fl S)) zs)
    (hM : ∀ n, |seq xs n| ≤ s.a * M + s.b) {r : ℕ → ℚ} (h0 : 0 ≤ s.e * M + s.f)
    (hr : ∀ n < xs.length, |seq xs n - r n| ≤ s.e * M + s.f) :
    ∃ zq : List ℚ, zs = zq.map (fun q => Fl.fin q) ∧
      (∀ n, |seq zq n| ≤ (ts.foldl (RndBound.step η m) s).a * M + (ts.foldl (RndBound.step η m) s).b) ∧
      ∀ n < zq.length, |seq zq n - cascadeOp (ts.map (firStage (K := ℚ) m vec)) r n| ≤
        (ts.foldl (RndBound.step η m) s).e * M + (ts.foldl (RndBound.step η m) s).f := by
  induction ts generalizing s xs r with
  | nil => exact ⟨xs, h, hM, hr⟩
  | cons t ts ih =>
    obtain ⟨ys, h1, h2⟩ := h
    obtain ⟨f1, f2⟩ := hf
    obtain ⟨t1, t2, t3⟩ := hts t (by simp)
    have e1 : rndGain m t * (s.a * M + s.b) + rndAbs η t = (s.step η m t).a * M + (s.step η m t).b := by
      simp only [RndBound.step]; ring
    have e2 : stageGain m t * (s.e * M + s.f) + rndRel m t * (s.a * M + s.b) + rndAbs η t = (s.step η m t).e * M + (s.step η m t).f := by
      simp only [RndBound.step]; ring
    obtain ⟨yq, rfl, y1, y2⟩ := firStage_round hS t1 t2 t3 h1 hM (by rw [e1]; exact f1) h0 hr
    rw [e1] at y1
    rw [e2] at y2
    refine ih (fun t ht => hts t (by simp [ht])) _ f2 h2 y1 ?_ y2
    rw [← e2]
    have hM0 : 0 ≤ s.a * M + s.b := (abs_nonneg _).trans (hM 0)
    have g1 := stageGain_nonneg m t
    have g2 : 0 ≤ rndAbs η t := by
      unfold rndAbs
      have := hS.hη
      positivity
    have g3 : 0 ≤ rndRel m t := by
      unfold rndRel
      refine mul_nonneg ?_ g1
      have : 1 ≤ (1 + u32r) ^ (t.length + 5) := one_le_pow₀ (by unfold u32r; norm_num)
      linarith
    positivity

end Panda
