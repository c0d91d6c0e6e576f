import Verif.Proofs.L1
import Verif.Proofs.RoundingCascade

/-!
# Rounding errors of the IIR filters
-/

set_option linter.unusedSectionVars false

namespace Panda

open Finset

section exact

variable {K : Type} [Field K] [LinearOrder K] [IsStrictOrderedRing K]

theorem absum_impulse_le (n : ℕ) : absum (impulse : ℕ → K) n ≤ 1 := by
  cases n with
  | zero => simp [absum]
  | succ n => simp [absum, sum_range_succ', impulse]

theorem allpass_le {a : K} (h0 : 0 ≤ a) (h1 : a < 1) {x : ℕ → K} {M : K} {n : ℕ} (hM : 0 ≤ M) (hx : ∀ k ≤ n, |x k| ≤ M) :
    |allpass a x n| ≤ (1 + 2 * a) * M := by
  have e : allpass a x = conv (allpass a impulse) x := by
    conv_lhs => rw [← conv_impulse x]
    exact funext (allpass_conv a _ x)
  rw [e]
  refine conv_le ((allpass_absum h0 h1 _ _).trans ?_) hM hx
  have := absum_impulse_le (K := K) (n + 1)
  have h2 : 0 ≤ 1 + 2 * a := by linarith
  nlinarith

theorem onePole_le {a : K} (h0 : 0 ≤ a) (h1 : a < 1) {x : ℕ → K} {D : K} {n : ℕ} (hx : ∀ k ≤ n, |x k| ≤ D) :
    |onePole a x n| ≤ D / (1 - a) := by
  have hpos : 0 < 1 - a := by linarith
  have hD : 0 ≤ D := (abs_nonneg _).trans (hx 0 (by omega))
  induction n with
  | zero =>
    refine (hx 0 le_rfl).trans ?_
    rw [le_div_iff₀ hpos]
    nlinarith
  | succ n ih =>
    have h2 := ih fun k hk => hx k (by omega)
    have h3 := hx (n + 1) le_rfl
    show |x (n + 1) - a * onePole a x n| ≤ _
    refine (abs_sub _ _).trans ?_
    rw [abs_mul, abs_of_nonneg h0]
    have h4 := mul_le_mul_of_nonneg_left h2 h0
    have h5 : D / (1 - a) = D + a * (D / (1 - a)) := by
      field_simp
      ring
    rw [h5]
    linarith

theorem resid_onePole (a : K) (x y : ℕ → K) (n : ℕ) : y n = allpass a x n + onePole a (resid a x y) n := by
  induction n with
  | zero => simp [allpass, onePole, resid, prev]
  | succ n ih =>
    show y (n + 1) = (x (n + 1) - allpass a x n) * a + x n + (y (n + 1) - ((x (n + 1) - y n) * a + x n) - a * onePole a (resid a x y) n)
    linear_combination (-a) * ih

end exact

variable {S : Format} {η Ω : ℚ}

/-- Bound for the rounding error made in one section for one sample; `X` and `Y` bound the input and the output. -/
def localErr (a X Y t : ℚ) : ℚ := u32r * (1 + 2 * u32r) * (4 * a * (X + Y) + X) + 4 * t

theorem fin_sub (hS : S.Acc u32r η Ω) {a b : ℚ} (h : (1 + u32r) * |a - b| + η ≤ Ω) :
    (Fl.fin a - Fl.fin b : Fl S) = Fl.fin (S.rnd (a - b)) := by
  have e : (Fl.fin a - Fl.fin b : Fl S) = Fl.mk S (a - b) := rfl
  rw [e, mk_fin hS h]

theorem fin_mul (hS : S.Acc u32r η Ω) {a b : ℚ} (h : (1 + u32r) * |a * b| + η ≤ Ω) :
    (Fl.fin a * Fl.fin b : Fl S) = Fl.fin (S.rnd (a * b)) := by
  have e : (Fl.fin a * Fl.fin b : Fl S) = Fl.mk S (a * b) := rfl
  rw [e, mk_fin hS h]

theorem fin_add (hS : S.Acc u32r η Ω) {a b : ℚ} (h : (1 + u32r) * |a + b| + η ≤ Ω) :
    (Fl.fin a + Fl.fin b : Fl S) = Fl.fin (S.rnd (a + b)) := by
  have e : (Fl.fin a + Fl.fin b : Fl S) = Fl.mk S (a + b) := rfl
  rw [e, mk_fin hS h]

/-- Bounds for one sample; `δ` is the error of the operands. -/
theorem section_bounds {a ah x x' y' X Y z s1 p1 w t1 δ : ℚ} (h0 : 0 ≤ a) (hah : |ah - a| ≤ u32r * a) (hη : 0 ≤ η) (hδ : 0 ≤ δ)
    (hx : |x| ≤ X) (hx' : |x'| ≤ X) (hy' : |y'| ≤ Y)
    (hz : |z - (x - y')| ≤ δ) (e1 : |s1 - z| ≤ u32r * |z| + η) (e2 : |p1 - s1 * ah| ≤ u32r * |s1 * ah| + η)
    (hw : |w - x'| ≤ δ) (e3 : |t1 - (p1 + w)| ≤ u32r * |p1 + w| + η) :
    (|z| ≤ X + Y + δ) ∧
    (|s1 * ah| ≤ ((1 + u32r) * (X + Y + δ) + η) * ((1 + u32r) * a)) ∧
    (|p1 + w| ≤ (1 + u32r) * (((1 + u32r) * (X + Y + δ) + η) * ((1 + u32r) * a)) + η + (X + δ)) ∧
    (|t1 - (p1 + w)| ≤ u32r * ((1 + u32r) * (((1 + u32r) * (X + Y + δ) + η) * ((1 + u32r) * a)) + η + (X + δ)) + η) ∧
    (|p1 - s1 * ah| ≤ u32r * (((1 + u32r) * (X + Y + δ) + η) * ((1 + u32r) * a)) + η) ∧
    (|s1 * ah - (x - y') * a| ≤ (u32r * (X + Y + δ) + η + δ) * ((1 + u32r) * a) + (X + Y) * (u32r * a)) := by
  have hX : 0 ≤ X := (abs_nonneg _).trans hx
  have hY : 0 ≤ Y := (abs_nonneg _).trans hy'
  have hs' : |x - y'| ≤ X + Y := (abs_sub _ _).trans (add_le_add hx hy')
  have hs : |z| ≤ X + Y + δ := by
    have := abs_sub_abs_le_abs_sub z (x - y')
    linarith
  have hahb : |ah| ≤ (1 + u32r) * a := by
    have := abs_sub_abs_le_abs_sub ah a
    rw [abs_of_nonneg h0] at this
    linarith
  set Z := X + Y with hZ
  have hZ0 : 0 ≤ Z := by linarith
  have b1 : |s1 - (x - y')| ≤ u32r * (Z + δ) + η + δ := by
    have h2 := abs_sub_le s1 z (x - y')
    have : u32r * |z| ≤ u32r * (Z + δ) := mul_le_mul_of_nonneg_left hs (by positivity)
    linarith
  have b1' : |s1| ≤ (1 + u32r) * (Z + δ) + η := by
    have h2 := abs_sub_abs_le_abs_sub s1 z
    have : u32r * |z| ≤ u32r * (Z + δ) := mul_le_mul_of_nonneg_left hs (by positivity)
    linarith
  have b2a : |s1 * ah| ≤ ((1 + u32r) * (Z + δ) + η) * ((1 + u32r) * a) := by
    rw [abs_mul]
    exact mul_le_mul b1' hahb (abs_nonneg _) (by positivity)
  have b2 : |p1 - s1 * ah| ≤ u32r * (((1 + u32r) * (Z + δ) + η) * ((1 + u32r) * a)) + η := by
    refine e2.trans ?_
    have := mul_le_mul_of_nonneg_left b2a (show 0 ≤ u32r by positivity)
    linarith
  have b2' : |p1| ≤ (1 + u32r) * (((1 + u32r) * (Z + δ) + η) * ((1 + u32r) * a)) + η := by
    have := abs_sub_abs_le_abs_sub p1 (s1 * ah)
    linarith
  have hw' : |w| ≤ X + δ := by
    have := abs_sub_abs_le_abs_sub w x'
    linarith
  have b3a : |p1 + w| ≤ (1 + u32r) * (((1 + u32r) * (Z + δ) + η) * ((1 + u32r) * a)) + η + (X + δ) := by
    refine (abs_add_le _ _).trans ?_
    linarith
  have b3 : |t1 - (p1 + w)| ≤ u32r * ((1 + u32r) * (((1 + u32r) * (Z + δ) + η) * ((1 + u32r) * a)) + η + (X + δ)) + η := by
    refine e3.trans ?_
    have := mul_le_mul_of_nonneg_left b3a (show 0 ≤ u32r by positivity)
    linarith
  have b4 : |s1 * ah - (x - y') * a| ≤ (u32r * (Z + δ) + η + δ) * ((1 + u32r) * a) + Z * (u32r * a) := by
    have e : s1 * ah - (x - y') * a = (s1 - (x - y')) * ah + (x - y') * (ah - a) := by ring
    rw [e]
    refine (abs_add_le _ _).trans (add_le_add ?_ ?_)
    · rw [abs_mul]
      exact mul_le_mul b1 hahb (abs_nonneg _) (by positivity)
    · rw [abs_mul]
      exact mul_le_mul hs' hah (abs_nonneg _) hZ0
  exact ⟨hs, b2a, b3a, b3, b2, b4⟩

/-- No overflow. -/
theorem section_fits {a ah x x' y' X Y z s1 p1 w t1 δ : ℚ} (h0 : 0 ≤ a) (h1 : a ≤ 1) (hah : |ah - a| ≤ u32r * a) (hη : 0 ≤ η) (hδ : 0 ≤ δ)
    (hx : |x| ≤ X) (hx' : |x'| ≤ X) (hy' : |y'| ≤ Y) (hΩ : 4 * (X + Y + (η + δ)) ≤ Ω)
    (hz : |z - (x - y')| ≤ δ) (e1 : |s1 - z| ≤ u32r * |z| + η) (e2 : |p1 - s1 * ah| ≤ u32r * |s1 * ah| + η)
    (hw : |w - x'| ≤ δ) (e3 : |t1 - (p1 + w)| ≤ u32r * |p1 + w| + η) :
    (1 + u32r) * |z| + η ≤ Ω ∧ (1 + u32r) * |s1 * ah| + η ≤ Ω ∧ (1 + u32r) * |p1 + w| + η ≤ Ω := by
  obtain ⟨hs, b2a, b3a, -⟩ := section_bounds h0 hah hη hδ hx hx' hy' hz e1 e2 hw e3
  have hX : 0 ≤ X := (abs_nonneg _).trans hx
  have hY : 0 ≤ Y := (abs_nonneg _).trans hy'
  have hu : u32r = 1 / 16777216 := by norm_num [u32r]
  have hZ0 : 0 ≤ X + Y := by linarith
  have hXZ : X ≤ X + Y := by linarith
  generalize X + Y = Z at *
  have hZa : 0 ≤ Z * a := by positivity
  have hηa : η * a ≤ η := by nlinarith
  have hηa0 : 0 ≤ η * a := by positivity
  have hδa : δ * a ≤ δ := by nlinarith
  have hδa0 : 0 ≤ δ * a := by positivity
  have hZa1 : Z * a ≤ Z := by nlinarith
  refine ⟨by rw [hu]; linarith, ?_, ?_⟩
  · rw [hu] at b2a ⊢
    have : (1 + 1 / 16777216) * |s1 * ah| ≤ (1 + 1 / 16777216) * (((1 + 1 / 16777216) * (Z + δ) + η) * ((1 + 1 / 16777216) * a)) :=
      mul_le_mul_of_nonneg_left b2a (by norm_num)
    refine (add_le_add_left this _).trans ?_
    have : (1 + 1 / 16777216 : ℚ) * (((1 + 1 / 16777216) * (Z + δ) + η) * ((1 + 1 / 16777216) * a)) + η =
      (1 + 1 / 16777216) ^ 3 * (Z * a) + (1 + 1 / 16777216) ^ 3 * (δ * a) + (1 + 1 / 16777216) ^ 2 * (η * a) + η := by ring
    rw [this]
    norm_num
    linarith
  · rw [hu] at b3a ⊢
    have : (1 + 1 / 16777216) * |p1 + w| ≤ (1 + 1 / 16777216) * ((1 + 1 / 16777216) * (((1 + 1 / 16777216) * (Z + δ) + η) * ((1 + 1 / 16777216) * a)) + η + (X + δ)) :=
      mul_le_mul_of_nonneg_left b3a (by norm_num)
    refine (add_le_add_left this _).trans ?_
    have : (1 + 1 / 16777216 : ℚ) * ((1 + 1 / 16777216) * (((1 + 1 / 16777216) * (Z + δ) + η) * ((1 + 1 / 16777216) * a)) + η + (X + δ)) + η =
      (1 + 1 / 16777216) ^ 4 * (Z * a) + (1 + 1 / 16777216) ^ 4 * (δ * a) + (1 + 1 / 16777216) ^ 3 * (η * a) + (1 + 1 / 16777216) * (η + (X + δ)) + η := by ring
    rw [this]
    norm_num
    linarith

/-- The error of one sample. -/
theorem section_err {a ah x x' y' X Y z s1 p1 w t1 δ : ℚ} (h0 : 0 ≤ a) (h1 : a ≤ 1) (hah : |ah - a| ≤ u32r * a) (hη : 0 ≤ η) (hδ : 0 ≤ δ)
    (hx : |x| ≤ X) (hx' : |x'| ≤ X) (hy' : |y'| ≤ Y)
    (hz : |z - (x - y')| ≤ δ) (e1 : |s1 - z| ≤ u32r * |z| + η) (e2 : |p1 - s1 * ah| ≤ u32r * |s1 * ah| + η)
    (hw : |w - x'| ≤ δ) (e3 : |t1 - (p1 + w)| ≤ u32r * |p1 + w| + η) :
    |t1 - ((x - y') * a + x')| ≤ localErr a X Y (η + δ) := by
  obtain ⟨-, -, -, b3, b2, b4⟩ := section_bounds h0 hah hη hδ hx hx' hy' hz e1 e2 hw e3
  have hX : 0 ≤ X := (abs_nonneg _).trans hx
  have hY : 0 ≤ Y := (abs_nonneg _).trans hy'
  have hu : u32r = 1 / 16777216 := by norm_num [u32r]
  have hZ0 : 0 ≤ X + Y := by linarith
  unfold localErr
  generalize X + Y = Z at *
  have hZa : 0 ≤ Z * a := by positivity
  have hηa : η * a ≤ η := by nlinarith
  have hηa0 : 0 ≤ η * a := by positivity
  have hδa : δ * a ≤ δ := by nlinarith
  have hδa0 : 0 ≤ δ * a := by positivity
  have e : t1 - ((x - y') * a + x') = (t1 - (p1 + w)) + (p1 - s1 * ah) + (s1 * ah - (x - y') * a) + (w - x') := by ring
  rw [e]
  refine (abs_add_le _ _).trans ?_
  have h2 := (abs_add_le (t1 - (p1 + w)) (p1 - s1 * ah)).trans (add_le_add b3 b2)
  have h3 := (abs_add_le ((t1 - (p1 + w)) + (p1 - s1 * ah)) (s1 * ah - (x - y') * a)).trans (add_le_add h2 b4)
  refine (add_le_add h3 hw).trans ?_
  rw [hu]
  have : (1 / 16777216 : ℚ) * ((1 + 1 / 16777216) * (((1 + 1 / 16777216) * (Z + δ) + η) * ((1 + 1 / 16777216) * a)) + η + (X + δ)) + η +
      (1 / 16777216 * (((1 + 1 / 16777216) * (Z + δ) + η) * ((1 + 1 / 16777216) * a)) + η) +
      ((1 / 16777216 * (Z + δ) + η + δ) * ((1 + 1 / 16777216) * a) + Z * (1 / 16777216 * a)) + δ =
      ((1 / 16777216) * (1 + 1 / 16777216) ^ 3 + (1 / 16777216) * (1 + 1 / 16777216) ^ 2 + 1 / 16777216 * (1 + 1 / 16777216) + 1 / 16777216) * (Z * a) +
      ((1 / 16777216) * (1 + 1 / 16777216) ^ 3 + (1 / 16777216) * (1 + 1 / 16777216) ^ 2 + (1 + 1 / 16777216) ^ 2) * (δ * a) +
      ((1 / 16777216) * (1 + 1 / 16777216) ^ 2 + (1 / 16777216) * (1 + 1 / 16777216) + (1 + 1 / 16777216)) * (η * a) +
      (1 / 16777216 + 2) * η + (1 / 16777216 + 1) * δ + 1 / 16777216 * X := by ring
  rw [this, show (4 : ℚ) * a * Z = 4 * (Z * a) by ring]
  norm_num
  linarith

/-- One sample, without errors of the operands. -/
theorem section_step (hS : S.Acc u32r η Ω) {a ah x x' y' X Y : ℚ} (h0 : 0 ≤ a) (h1 : a ≤ 1) (hah : |ah - a| ≤ u32r * a)
    (hx : |x| ≤ X) (hx' : |x'| ≤ X) (hy' : |y'| ≤ Y) (hΩ : 4 * (X + Y + η) ≤ Ω) :
    (Fl.fin x - Fl.fin y') * Fl.fin ah + Fl.fin x' = (Fl.fin (S.rnd (S.rnd (S.rnd (x - y') * ah) + x')) : Fl S) ∧
    |S.rnd (S.rnd (S.rnd (x - y') * ah) + x') - ((x - y') * a + x')| ≤ localErr a X Y η := by
  obtain ⟨f1, f2, f3⟩ := section_fits (Ω := Ω) h0 h1 hah hS.hη le_rfl hx hx' hy' (by rwa [add_zero]) (by simp) (hS.err (x - y')) (hS.err _)
    (show |x' - x'| ≤ 0 by simp) (hS.err _)
  have f4 := section_err h0 h1 hah hS.hη le_rfl hx hx' hy' (by simp) (hS.err (x - y')) (hS.err _) (show |x' - x'| ≤ 0 by simp) (hS.err _)
  rw [add_zero] at f4
  exact ⟨by rw [fin_sub hS f1, fin_mul hS f2, fin_add hS f3], f4⟩

/-- The coefficient as stored. -/
def CoefOk (S : Format) (d : Dec) : Prop := |S.rnd d.toRat - d.toRat| ≤ u32r * d.toRat ∧ S.fits (S.rnd d.toRat) = true

/-- Arithmetic of the sections. `V v q` says that the sample `v` stands for the number `q`. -/
structure SecArith (S : Format) {T : Type} [Zero T] [One T] [Add T] [Sub T] [Mul T] [Sample T] (V : T → ℚ → Prop) (η Ω : ℚ) : Prop where
  hη : 0 ≤ η
  zero : V 0 0
  uniq : ∀ {v p q}, V v p → V v q → p = q
  sec : ∀ {d : Dec} {v v' w : T} {x x' y' X Y : ℚ}, CoefOk S d → 0 ≤ d.toRat → d.toRat ≤ 1 → V v x → V v' x' → V w y' →
    |x| ≤ X → |x'| ≤ X → |y'| ≤ Y → 4 * (X + Y + η) ≤ Ω →
    ∃ y, V ((v - w) * Sample.ofDouble d.toRat + v') y ∧ |y - ((x - y') * d.toRat + x')| ≤ localErr d.toRat X Y η

variable {T : Type} [Zero T] [One T] [Add T] [Sub T] [Mul T] [Sample T] {V : T → ℚ → Prop}

/-- A section with rounding, all samples: `Y` is a bound for the output that is consistent. -/
theorem section_round (hS : SecArith S V η Ω) {d : Dec} {X Y : ℚ} (hd : CoefOk S d) (h0 : 0 ≤ d.toRat) (h1 : d.toRat < 1)
    {x : ℕ → ℚ} {xt : ℕ → T} (hv : ∀ n, V (xt n) (x n)) (hx : ∀ n, |x n| ≤ X) (hΩ : 4 * (X + Y + η) ≤ Ω)
    (hY0 : 0 ≤ Y) (hY : (1 + 2 * d.toRat) * X + localErr d.toRat X Y η / (1 - d.toRat) ≤ Y) :
    ∃ y : ℕ → ℚ, (∀ n, V (allpass (Sample.ofDouble d.toRat) xt n) (y n)) ∧
      (∀ n, |y n - allpass d.toRat x n| ≤ localErr d.toRat X Y η / (1 - d.toRat)) ∧ (∀ n, |y n| ≤ Y) ∧
      ∀ Y', (∀ n, |y n| ≤ Y') → 4 * (X + Y' + η) ≤ Ω → ∀ n, |resid d.toRat x y n| ≤ localErr d.toRat X Y' η := by
  have hX : 0 ≤ X := (abs_nonneg _).trans (hx 0)
  have hη := hS.hη
  classical
  set y : ℕ → ℚ := fun n => if h : ∃ q, V (allpass (Sample.ofDouble d.toRat) xt n) q then h.choose else 0 with hy
  have val : ∀ {n q}, V (allpass (Sample.ofDouble d.toRat) xt n) q → V (allpass (Sample.ofDouble d.toRat) xt n) (y n) ∧ q = y n := by
    intro n q h
    have h2 : ∃ q, V (allpass (Sample.ofDouble d.toRat) xt n) q := ⟨q, h⟩
    have h3 : V (allpass (Sample.ofDouble d.toRat) xt n) (y n) := by
      rw [hy]
      simp only [dif_pos h2]
      exact h2.choose_spec
    exact ⟨h3, hS.uniq h h3⟩
  -- one sample
  have step0 : ∀ {Y'}, 0 ≤ Y' → 4 * (X + Y' + η) ≤ Ω → V (allpass (Sample.ofDouble d.toRat) xt 0) (y 0) ∧
      |resid d.toRat x y 0| ≤ localErr d.toRat X Y' η := by
    intro Y' hY' hΩ'
    obtain ⟨q, q1, q2⟩ := hS.sec hd h0 h1.le (hv 0) hS.zero hS.zero (hx 0) (by simpa using hX) (by simpa using hY') hΩ'
    obtain ⟨v1, rfl⟩ := val (n := 0) q1
    exact ⟨v1, q2⟩
  have step : ∀ {Y' n}, V (allpass (Sample.ofDouble d.toRat) xt n) (y n) → |y n| ≤ Y' → 4 * (X + Y' + η) ≤ Ω →
      V (allpass (Sample.ofDouble d.toRat) xt (n + 1)) (y (n + 1)) ∧ |resid d.toRat x y (n + 1)| ≤ localErr d.toRat X Y' η := by
    intro Y' n h hY' hΩ'
    obtain ⟨q, q1, q2⟩ := hS.sec hd h0 h1.le (hv (n + 1)) (hv n) h (hx _) (hx _) hY' hΩ'
    obtain ⟨v1, rfl⟩ := val (n := n + 1) q1
    exact ⟨v1, q2⟩
  have key : ∀ n, (∀ k ≤ n, |resid d.toRat x y k| ≤ localErr d.toRat X Y η) →
      |y n - allpass d.toRat x n| ≤ localErr d.toRat X Y η / (1 - d.toRat) ∧ |y n| ≤ Y := by
    intro n hn
    have e := resid_onePole d.toRat x y n
    have h2 : |y n - allpass d.toRat x n| ≤ localErr d.toRat X Y η / (1 - d.toRat) := by
      rw [show y n - allpass d.toRat x n = onePole d.toRat (resid d.toRat x y) n by linarith]
      exact onePole_le h0 h1 hn
    refine ⟨h2, ?_⟩
    have h3 := allpass_le h0 h1 (n := n) hX fun k _ => hx k
    have := abs_sub_abs_le_abs_sub (y n) (allpass d.toRat x n)
    linarith
  have main : ∀ n, (∀ k ≤ n, |resid d.toRat x y k| ≤ localErr d.toRat X Y η) ∧ V (allpass (Sample.ofDouble d.toRat) xt n) (y n) := by
    intro n
    induction n with
    | zero =>
      obtain ⟨s1, s2⟩ := step0 hY0 hΩ
      refine ⟨fun k hk => ?_, s1⟩
      obtain rfl : k = 0 := by omega
      exact s2
    | succ n ih =>
      obtain ⟨s1, s2⟩ := step ih.2 (key n ih.1).2 hΩ
      refine ⟨fun k hk => ?_, s1⟩
      rcases Nat.lt_or_ge k (n + 1) with h | h
      · exact ih.1 k (by omega)
      · obtain rfl : k = n + 1 := by omega
        exact s2
  refine ⟨y, fun n => (main n).2, fun n => (key n (main n).1).1, fun n => (key n (main n).1).2, fun Y' hY' hΩ' n => ?_⟩
  cases n with
  | zero => exact (step0 ((abs_nonneg _).trans (hY' 0)) hΩ').2
  | succ n => exact (step (main n).2 (hY' n) hΩ').2

/-! ## Chains of sections -/

/-- Relative size of the absolute rounding error. -/
abbrev τ32 : ℚ := 2⁻¹ ^ 50

/-- Bound for the signal: peak gain so far plus error so far. -/
def nzAmp (s : ℤ) (lev : List ℤ × ℚ) (E : ℚ) : ℚ := levBound s lev + E

/-- First bound for the error of the output of a section. -/
def nzCrude (s : ℤ) (lev : List ℤ × ℚ) (E : ℚ) (d : Dec) : ℚ :=
  (1 + 2 * d.toRat) * E + localErr d.toRat (nzAmp s lev E) (4 * nzAmp s lev E) τ32 / (1 - d.toRat)

/-- Bound for the error of the output of the chain, relative to the size of its input: the rounding errors of every section
pass the pole of the section and the remaining sections. -/
def noise (s : ℤ) (N : ℕ) : List Dec → List ℤ × ℚ → ℚ → ℚ
  | [], _, _ => 0
  | d :: ds, lev, E =>
    levBound s (ds.foldl (levStep s) (levInit s N)) *
      (localErr d.toRat (nzAmp s lev E) (nzAmp s (levStep s lev d) (nzCrude s lev E d)) τ32 / (1 - d.toRat)) +
    noise s N ds (levStep s lev d) (nzCrude s lev E d)

/-- Conditions on coefficients and bounds. -/
def noiseOk (s : ℤ) : List Dec → List ℤ × ℚ → ℚ → Bool
  | [], _, _ => true
  | d :: ds, lev, E =>
    decide (0 < d.toRat ∧ d.toRat + κ24 < 1 ∧ 0 ≤ E ∧ 0 ≤ nzAmp s lev E ∧ nzAmp s lev E ≤ 2 ^ 10 ∧
      nzAmp s (levStep s lev d) (nzCrude s lev E d) ≤ 4 * nzAmp s lev E ∧
      (1 + 2 * d.toRat) * nzAmp s lev E + localErr d.toRat (nzAmp s lev E) (4 * nzAmp s lev E) τ32 / (1 - d.toRat) ≤ 4 * nzAmp s lev E) &&
    noiseOk s ds (levStep s lev d) (nzCrude s lev E d)

theorem localErr_mul (a X Y t m : ℚ) : localErr a (X * m) (Y * m) (t * m) = localErr a X Y t * m := by
  unfold localErr
  ring

theorem localErr_mono {a X Y t t' : ℚ} (h : t ≤ t') : localErr a X Y t ≤ localErr a X Y t' := by
  unfold localErr
  linarith

theorem coefsNear_exact (ds : List Dec) (h : ∀ d ∈ ds, 0 < d.toRat) : CoefsNear (K := ℚ) (ds.map Dec.toRat) ds := by
  induction ds with
  | nil => exact List.Forall₂.nil
  | cons d ds ih =>
    refine List.Forall₂.cons ⟨(h d (by simp)).le, ?_⟩ (ih fun d hd => h d (by simp [hd]))
    simp

theorem noiseOk_pos {s : ℤ} {ds : List Dec} {lev : List ℤ × ℚ} {E : ℚ} (h : noiseOk s ds lev E = true) :
    ∀ d ∈ ds, 0 < d.toRat ∧ d.toRat + κ24 < 1 := by
  induction ds generalizing lev E with
  | nil => simp
  | cons d ds ih =>
    rw [noiseOk, Bool.and_eq_true, decide_eq_true_eq] at h
    intro d' hd'
    rcases List.mem_cons.1 hd' with rfl | hd'
    · exact ⟨h.1.1, h.1.2.1⟩
    · exact ih h.2 d' hd'

theorem apChain_noise (hS : SecArith S V η Ω) {s : ℤ} (hs : 0 < s) (N : ℕ) {X0 : ℚ} (hη : η ≤ τ32 * X0) (hΩ : 2 ^ 15 * X0 ≤ Ω)
    (ds : List Dec) (hco : ∀ d ∈ ds, CoefOk S d) {lev : List ℤ × ℚ} {E : ℚ} (hok : noiseOk s ds lev E = true)
    {pre : List ℚ} (hlev : ∀ n, absum (fun k => apChain pre impulse k - lseq s lev.1 k) n ≤ lev.2)
    {x r : ℕ → ℚ} {xt : ℕ → T} (hv : ∀ n, V (xt n) (x n)) (hr : ∀ n, |r n| ≤ X0) (hx : ∀ n, |x n - apChain pre r n| ≤ E * X0) :
    ∃ y : ℕ → ℚ, (∀ n, V (apChain (ds.map fun d => (Sample.ofDouble d.toRat : T)) xt n) (y n)) ∧
      ∀ n, |y n - apChain (ds.map Dec.toRat) x n| ≤ noise s N ds lev E * X0 := by
  have hX0 : 0 ≤ X0 := (abs_nonneg _).trans (hr 0)
  induction ds generalizing lev E pre x xt with
  | nil => exact ⟨x, hv, fun n => by simp [apChain, noise]⟩
  | cons d ds ih =>
    have hpos := noiseOk_pos hok
    rw [noiseOk, Bool.and_eq_true, decide_eq_true_eq] at hok
    obtain ⟨⟨p0, p1, pE, hA0, pA, pT, pY⟩, hok'⟩ := hok
    have hcd := hco d (by simp)
    set a := d.toRat with ha
    have ha1 : a < 1 := by
      have : (0 : ℚ) < κ24 := by positivity
      linarith
    have h1a : 0 < 1 - a := by linarith
    -- the input
    have ampOf : ∀ (lev : List ℤ × ℚ) (E : ℚ) (pre : List ℚ) (x : ℕ → ℚ), (∀ n, absum (fun k => apChain pre impulse k - lseq s lev.1 k) n ≤ lev.2) →
        (∀ n, |x n - apChain pre r n| ≤ E * X0) → ∀ n, |x n| ≤ nzAmp s lev E * X0 := by
      intro lev E pre x hlev hx n
      have h2 := absum_add_le (fun k => apChain pre (impulse : ℕ → ℚ) k - lseq s lev.1 k) (lseq s lev.1) (n + 1)
      simp only [sub_add_cancel] at h2
      have h3 : |apChain pre r n| ≤ levBound s lev * X0 := by
        rw [apChain_eq_conv]
        refine conv_le ?_ hX0 fun k _ => hr k
        refine (show absum (apChain pre (impulse : ℕ → ℚ)) (n + 1) ≤ _ from h2).trans ?_
        have h4 := absum_lseq_le (K := ℚ) hs lev.1 (n + 1)
        have h5 := hlev (n + 1)
        unfold levBound
        linarith
      have h4 := abs_sub_abs_le_abs_sub (x n) (apChain pre r n)
      have h5 := hx n
      unfold nzAmp
      rw [add_mul]
      linarith
    have hxA := ampOf lev E pre x hlev hx
    set A := nzAmp s lev E with hA
    have hΩ' : ∀ B, B ≤ 4 * A → 4 * (A * X0 + B * X0 + η) ≤ Ω := by
      intro B hB
      have hτ : τ32 * X0 ≤ X0 := by
        have : τ32 ≤ 1 := by norm_num [τ32]
        nlinarith
      have h2 : A * X0 ≤ 2 ^ 10 * X0 := mul_le_mul_of_nonneg_right pA hX0
      have h3 : B * X0 ≤ 4 * (2 ^ 10 * X0) := by
        have := mul_le_mul_of_nonneg_right hB hX0
        linarith
      refine le_trans ?_ hΩ
      have : (2 : ℚ) ^ 15 * X0 = 32 * (2 ^ 10 * X0) := by ring
      rw [this]
      have h4 : X0 ≤ 2 ^ 10 * X0 := by nlinarith
      linarith
    have hle : ∀ B, localErr a (A * X0) (B * X0) η ≤ localErr a A B τ32 * X0 := by
      intro B
      rw [← localErr_mul]
      exact localErr_mono hη
    obtain ⟨y', hv1, hsec, hsecY, hres⟩ := section_round hS (X := A * X0) (Y := 4 * A * X0) hcd p0.le ha1 hv hxA (hΩ' _ le_rfl) (by positivity) (by
      have := mul_le_mul_of_nonneg_right pY hX0
      have h2 := div_le_div_of_nonneg_right (hle (4 * A)) h1a.le
      rw [mul_div_right_comm] at h2
      rw [add_mul] at this
      linarith)
    -- the output
    have hx1 : ∀ n, |y' n - apChain (pre ++ [a]) r n| ≤ nzCrude s lev E d * X0 := by
      intro n
      have h2 := hsec n
      have h3 : |allpass a x n - apChain (pre ++ [a]) r n| ≤ (1 + 2 * a) * (E * X0) := by
        rw [apChain_append]
        show |allpass a x n - allpass a (apChain pre r) n| ≤ _
        have e := allpass_add a (fun n => x n - apChain pre r n) (apChain pre r) n
        simp only [sub_add_cancel] at e
        have e' : allpass a x n = allpass a (fun n => x n - apChain pre r n) n + allpass a (apChain pre r) n := e
        rw [e', add_sub_cancel_right]
        exact allpass_le p0.le ha1 (by positivity) fun k _ => hx k
      have h4 := div_le_div_of_nonneg_right (hle (4 * A)) h1a.le
      rw [mul_div_right_comm] at h4
      have h5 := abs_sub_le (y' n) (allpass a x n) (apChain (pre ++ [a]) r n)
      have e : nzCrude s lev E d * X0 = (1 + 2 * a) * (E * X0) + localErr a A (4 * A) τ32 / (1 - a) * X0 := by
        simp only [nzCrude, ← ha, ← hA]
        ring
      rw [e]
      linarith
    have hlev1 : ∀ n, absum (fun k => apChain (pre ++ [a]) impulse k - lseq s (levStep s lev d).1 k) n ≤ (levStep s lev d).2 := by
      intro n
      have := levStep_near (K := ℚ) hs (d := d) (a := a) p0.le (by simp [ha]) p1 (st := lev) (x := apChain pre impulse)
        (fun n => by simpa using hlev n) n
      rw [apChain_append]
      exact this.trans (le_of_eq (by simp))
    have hyA := ampOf _ _ _ _ hlev1 hx1
    have hres := hres _ hyA (hΩ' _ pT)
    obtain ⟨y, y1, y2⟩ := ih (fun d hd => hco d (by simp [hd])) hok' hlev1 hv1 hx1
    refine ⟨y, y1, fun n => ?_⟩
    · have e1 : y' = fun n => allpass a x n + onePole a (resid a x y') n :=
        funext (resid_onePole a x _)
      have e2 : apChain (ds.map Dec.toRat) y' n =
          apChain (ds.map Dec.toRat) (allpass a x) n +
            apChain (ds.map Dec.toRat) (onePole a (resid a x y')) n := by
        conv_lhs => rw [e1]
        rw [apChain_add]
      have hQ : ∀ n, absum (apChain (ds.map Dec.toRat) (impulse : ℕ → ℚ)) n ≤ levBound s (ds.foldl (levStep s) (levInit s N)) := by
        intro n
        have := apChain_absum (K := ℚ) hs N (coefsNear_exact ds fun d hd => (hpos d (by simp [hd])).1) (fun d hd => (hpos d (by simp [hd])).2) n
        simpa using this
      have h3 : |apChain (ds.map Dec.toRat) (onePole a (resid a x y')) n| ≤
          levBound s (ds.foldl (levStep s) (levInit s N)) *
            (localErr a A (nzAmp s (levStep s lev d) (nzCrude s lev E d)) τ32 * X0 / (1 - a)) := by
        rw [apChain_eq_conv]
        refine conv_le (hQ _) ?_ fun k _ => onePole_le p0.le ha1 fun k _ => (hres k).trans (hle _)
        exact div_nonneg ((abs_nonneg _).trans ((hres 0).trans (hle _))) h1a.le
      have h4 := y2 n
      show |y n - apChain (ds.map Dec.toRat) (allpass a x) n| ≤ _
      have h5 := abs_sub_le (y n) (apChain (ds.map Dec.toRat) y' n) (apChain (ds.map Dec.toRat) (allpass a x) n)
      rw [show apChain (ds.map Dec.toRat) y' n - apChain (ds.map Dec.toRat) (allpass a x) n =
        apChain (ds.map Dec.toRat) (onePole a (resid a x y')) n by rw [e2]; ring] at h5
      have e3 : noise s N (d :: ds) lev E * X0 = levBound s (ds.foldl (levStep s) (levInit s N)) *
            (localErr a A (nzAmp s (levStep s lev d) (nzCrude s lev E d)) τ32 * X0 / (1 - a)) +
          noise s N ds (levStep s lev d) (nzCrude s lev E d) * X0 := by
        simp only [noise, ← ha, ← hA]
        ring
      rw [e3]
      linarith

end Panda
