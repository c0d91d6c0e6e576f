import Mathlib.Analysis.Real.Pi.Bounds
import Verif.Model.Resampler
import Verif.Proofs.UltraPoly

/-!
# The coefficients of the FIR tables are the designed ones

The coefficients of the windows as integers, and the comparison with the tables.
-/

namespace Panda.FirDesign

/-! ## The coefficients of the window as integers -/

/-- Multiples of `lau m` and `lau (m + 1)` for `x = X / Dx` -/
def lz (X : ℤ) : ℕ → List ℤ × List ℤ
  | 0 => ([1], [3 * X, 3 * X])
  | m + 1 => ((lz X m).2,
      lin ((4 * m + 7) * X) (-((4 * m + 6) * (4 * (m + 1)) * Dx ^ 2)) (lin 1 1 (lz X m).2 (0 :: (lz X m).2)) (0 :: (lz X m).1))

/-- The factor -/
noncomputable def lsc (m : ℕ) : ℝ := esc m * (Dx : ℝ) ^ m

theorem lsc_pos (m : ℕ) : 0 < lsc m := by
  have hDx : (0 : ℝ) < Dx := by exact_mod_cast Dx_pos
  unfold lsc
  have := esc_pos m
  positivity

theorem lsc_succ (m : ℕ) : lsc (m + 1) = 4 * (m + 1) * Dx * lsc m := by
  unfold lsc
  rw [esc_succ, pow_succ]
  ring

theorem sh_getD (l : List ℤ) (i : ℕ) : (((0 :: l).getD i 0 : ℤ) : ℝ) = sh (fun i => ((l.getD i 0 : ℤ) : ℝ)) i := by
  cases i with
  | zero => simp [sh]
  | succ i => rfl

theorem sh_mul (c : ℝ) (f : ℕ → ℝ) (i : ℕ) : sh (fun i => c * f i) i = c * sh f i := by
  cases i <;> simp [sh]

theorem lz_eq (X : ℤ) : ∀ m, (∀ i, (((lz X m).1.getD i 0 : ℤ) : ℝ) = lsc m * lau (3 / 4) (X / Dx) m i) ∧
    ∀ i, (((lz X m).2.getD i 0 : ℤ) : ℝ) = lsc (m + 1) * lau (3 / 4) (X / Dx) (m + 1) i
  | 0 => by
    have hDx : (Dx : ℝ) ≠ 0 := by exact_mod_cast Dx_pos.ne'
    constructor
    · intro i
      cases i with
      | zero => simp [lz, lau, lsc, esc]
      | succ i => simp [lz, lau]
    · intro i
      match i with
      | 0 =>
        simp [lz, lau, lsc, esc]
        field_simp
      | 1 =>
        simp [lz, lau, lsc, esc]
        field_simp
      | i + 2 => simp [lz, lau]
  | m + 1 => by
    obtain ⟨h1, h2⟩ := lz_eq X m
    refine ⟨h2, fun i => ?_⟩
    have hDx : (Dx : ℝ) ≠ 0 := by exact_mod_cast Dx_pos.ne'
    have hm : ((m : ℝ) + 2) ≠ 0 := by positivity
    simp only [lz, getD_lin]
    push_cast
    rw [sh_getD, sh_getD, h2]
    simp only [h1, h2]
    rw [sh_mul, sh_mul, lau, lsc_succ (m + 1), lsc_succ m]
    push_cast
    field_simp
    ring

/-! ## The checker -/

/-- Sign of `sin (π K / 2)` for an odd `K` -/
def sgn (K : ℕ) : ℤ := if K % 4 = 1 then 1 else -1

/-- The coefficient number `j`; `bs` are the coefficients of the window (multiples), `bn` the middle one and `ε` bounds the error of them. -/
def coefCheck (n : ℕ) (bs : List ℤ) (bn ε : ℤ) (t : Dec) (j : ℕ) : Bool :=
  let K := (2 * (j : ℤ) + 1 - n).natAbs
  let E : ℤ := 10 ^ t.e
  decide (|t.m| ≤ E) &&
    decide (|t.m * 314159265358979323846 * K * bn - sgn K * bs.getD (2 * j + 1) 0 * E * 10 ^ 20| +
      E * (K * bn + (4 * K + 1) * ε * 10 ^ 20) ≤ 60000 * K * E * (bn - ε))

def coefsCheck (n : ℕ) (bs : List ℤ) (bn ε : ℤ) : List Dec → ℕ → Bool
  | [], _ => true
  | t :: ts, j => coefCheck n bs bn ε t j && coefsCheck n bs bn ε ts (j + 1)

def tableCheck (n : ℕ) (X : ℤ) (tab : List Dec) : Bool :=
  let bs := (lz X (2 * n)).1
  let bn := bs.getD n 0
  let ε := 20 ^ (2 * n) * (2 * n).factorial * Dx ^ (2 * n - 1)
  decide (ε < bn) && decide (n % 2 = 0) && decide (tab.length = n) && coefsCheck n bs bn ε tab 0

theorem coefsCheck_get {n : ℕ} {bs : List ℤ} {bn ε : ℤ} : ∀ {tab : List Dec} {j0 : ℕ}, coefsCheck n bs bn ε tab j0 = true →
    ∀ j (h : j < tab.length), coefCheck n bs bn ε tab[j] (j0 + j) = true
  | t :: ts, j0, hc, j, h => by
    rw [coefsCheck, Bool.and_eq_true] at hc
    cases j with
    | zero => exact hc.1
    | succ j =>
      have := coefsCheck_get hc.2 j (by simpa using h)
      rw [show j0 + 1 + j = j0 + (j + 1) by ring] at this
      exact this

theorem sin_odd (K : ℕ) (h : K % 2 = 1) : Real.sin (Real.pi * (K * 0.5)) = sgn K := by
  unfold sgn
  split_ifs with h4
  · obtain ⟨q, rfl⟩ : ∃ q, K = 4 * q + 1 := ⟨K / 4, by omega⟩
    have e : Real.pi * (((4 * q + 1 : ℕ) : ℝ) * 0.5) = Real.pi / 2 + q * (2 * Real.pi) := by
      push_cast
      ring
    rw [e, Real.sin_add_nat_mul_two_pi, Real.sin_pi_div_two]
    norm_num
  · obtain ⟨q, rfl⟩ : ∃ q, K = 4 * q + 3 := ⟨K / 4, by omega⟩
    have e : Real.pi * (((4 * q + 3 : ℕ) : ℝ) * 0.5) = (Real.pi / 2 + Real.pi) + q * (2 * Real.pi) := by
      push_cast
      ring
    rw [e, Real.sin_add_nat_mul_two_pi, Real.sin_add_pi, Real.sin_pi_div_two]
    norm_num

theorem octSinc_neg (x : ℝ) : octSinc (-x) = octSinc x := by
  unfold octSinc
  rw [mul_neg, Real.sin_neg, neg_div_neg_eq]
  simp only [neg_eq_zero]

theorem octSinc_half (q : ℤ) (h : q.natAbs % 2 = 1) : octSinc ((q : ℝ) * 0.5) / 2 = sgn q.natAbs / (Real.pi * q.natAbs) := by
  have e : octSinc ((q : ℝ) * 0.5) = octSinc ((q.natAbs : ℝ) * 0.5) := by
    rcases Int.natAbs_eq q with hq | hq
    · conv_lhs => rw [hq]
      simp
    · conv_lhs => rw [hq]
      push_cast
      rw [neg_mul, octSinc_neg]
      simp
  have hK : (q.natAbs : ℝ) ≠ 0 := by
    have : q.natAbs ≠ 0 := fun h0 => by simp [h0] at h
    exact_mod_cast this
  rw [e]
  unfold octSinc
  rw [if_neg (mul_ne_zero hK (by norm_num)), sin_odd _ h]
  have := Real.pi_pos.ne'
  rw [show (0.5 : ℝ) = 1 / 2 by norm_num]
  field_simp

/-- The inequality which is left, for real numbers -/
theorem close_real {τ P K bn b B0 B s ε : ℝ} (hT : |τ| ≤ 1) (hK : 0 < K) (hs : |s| = 1) (hε : 0 ≤ ε) (hεb : ε < bn)
    (hP : |Real.pi - P| ≤ 1 / 10 ^ 20) (hb : |b - bn| ≤ ε) (hB : |B - B0| ≤ ε)
    (h : |τ * P * K * bn - s * B0| + (K * bn / 10 ^ 20 + (4 * K + 1) * ε) ≤ 6 / 10 ^ 16 * K * (bn - ε)) :
    |τ - s / (Real.pi * K) * (B / b)| ≤ 2 / 10 ^ 16 := by
  have hπ := Real.pi_pos
  have hbn0 : 0 < bn := lt_of_le_of_lt hε hεb
  have hπ4 : Real.pi ≤ 4 := by linarith [Real.pi_lt_d2]
  have hbn : bn - ε ≤ b := by
    have := (abs_le.mp hb).1
    linarith
  have hb0 : 0 < b := by linarith
  have hden : 0 < Real.pi * K * b := by positivity
  have e : τ * Real.pi * K * b - s * B
      = (τ * P * K * bn - s * B0) + τ * (Real.pi - P) * (K * bn) + τ * (Real.pi * K) * (b - bn) - s * (B - B0) := by ring
  have a1 : |τ * (Real.pi - P) * (K * bn)| ≤ K * bn / 10 ^ 20 := by
    rw [abs_mul, abs_mul, abs_of_pos (by positivity : (0 : ℝ) < K * bn)]
    have h1 := mul_le_mul hT hP (abs_nonneg _) zero_le_one
    have h2 := mul_le_mul_of_nonneg_right h1 (by positivity : (0 : ℝ) ≤ K * bn)
    refine h2.trans (le_of_eq ?_)
    ring
  have a2 : |τ * (Real.pi * K) * (b - bn)| ≤ 4 * K * ε := by
    rw [abs_mul, abs_mul, abs_of_pos (by positivity : (0 : ℝ) < Real.pi * K)]
    have h3 : Real.pi * K ≤ 4 * K := mul_le_mul_of_nonneg_right hπ4 hK.le
    have h4 := mul_le_mul hT h3 (by positivity) zero_le_one
    rw [one_mul] at h4
    exact mul_le_mul h4 hb (abs_nonneg _) (by positivity)
  have a3 : |s * (B - B0)| ≤ ε := by
    rw [abs_mul, hs, one_mul]
    exact hB
  have a4 : |τ * Real.pi * K * b - s * B| ≤ |τ * P * K * bn - s * B0| + K * bn / 10 ^ 20 + 4 * K * ε + ε := by
    rw [e]
    refine (abs_sub _ _).trans ?_
    refine (add_le_add (abs_add_three _ _ _) le_rfl).trans ?_
    linarith
  have a5 : 6 / 10 ^ 16 * K * (bn - ε) ≤ 2 / 10 ^ 16 * (Real.pi * K * b) := by
    have h3 : 3 * K ≤ Real.pi * K := mul_le_mul_of_nonneg_right Real.pi_gt_three.le hK.le
    have := mul_le_mul h3 hbn (by linarith) (by positivity)
    linarith
  have efin : τ - s / (Real.pi * K) * (B / b) = (τ * Real.pi * K * b - s * B) / (Real.pi * K * b) := by
    field_simp
  rw [efin, abs_div, abs_of_pos hden, div_le_iff₀ hden]
  linarith

theorem table_close {n : ℕ} {X : ℤ} {tab : List Dec} (h : tableCheck n X tab = true) {x : ℝ} (hX1 : 1 ≤ (X : ℝ) / Dx)
    (hX2 : ((X + 1 : ℤ) : ℝ) / Dx ≤ 5 / 4) (h0 : (X : ℝ) / Dx ≤ x) (h1 : x ≤ ((X + 1 : ℤ) : ℝ) / Dx) :
    lau (3 / 4) x (2 * n) n ≠ 0 ∧ tab.length = n ∧ ∀ win, IsUltraspherical n (3 / 4) x win →
      ∀ j (hj : j < tab.length), |((tab[j].toRat : ℚ) : ℝ) - mkfirCoef n win j| ≤ 2 / 10 ^ 16 := by
  simp only [tableCheck, Bool.and_eq_true, decide_eq_true_eq] at h
  obtain ⟨⟨⟨hε, hn2⟩, hlen⟩, hc⟩ := h
  have hDx : (0 : ℝ) < Dx := by exact_mod_cast Dx_pos
  set bs := (lz X (2 * n)).1
  set bn := bs.getD n 0
  set ε : ℤ := 20 ^ (2 * n) * (2 * n).factorial * Dx ^ (2 * n - 1) with hεd
  have hb : ∀ i, ((bs.getD i 0 : ℤ) : ℝ) = lsc (2 * n) * lau (3 / 4) (X / Dx) (2 * n) i := (lz_eq X (2 * n)).1
  have hn1 : 1 ≤ n ∨ n = 0 := by omega
  rcases hn1 with hn1 | rfl
  swap
  · refine ⟨by simp [lau], hlen, fun win _ j hj => ?_⟩
    omega
  have hX2' : ((X + 1 : ℤ) : ℝ) / Dx = X / Dx + 1 / Dx := by
    push_cast
    rw [add_div]
  have hd1 : (0 : ℝ) < 1 / Dx := by positivity
  have hx54 : |x| ≤ 5 / 4 := abs_le.mpr ⟨by linarith, by linarith⟩
  have hX54 : |(X : ℝ) / Dx| ≤ 5 / 4 := abs_le.mpr ⟨by linarith, by linarith⟩
  have hdist : |x - X / Dx| ≤ 1 / Dx := by
    rw [abs_of_nonneg (by linarith)]
    linarith
  -- the error of the coefficients
  have hεr : (ε : ℝ) = lsc (2 * n) * (5 ^ (2 * n) * (1 / Dx)) := by
    rw [hεd, lsc, esc]
    push_cast
    obtain ⟨m, hm⟩ : ∃ m, 2 * n = m + 1 := ⟨2 * n - 1, by omega⟩
    rw [hm, Nat.add_sub_cancel, pow_succ (Dx : ℝ), show (20 : ℝ) = 4 * 5 by norm_num, mul_pow]
    field_simp
  have herr : ∀ i, |lsc (2 * n) * lau (3 / 4) x (2 * n) i - (bs.getD i 0 : ℤ)| ≤ ε := by
    intro i
    rw [hb, ← mul_sub, abs_mul, abs_of_pos (lsc_pos _), hεr]
    have := lau_lip hx54 hX54 (2 * n) i
    exact mul_le_mul_of_nonneg_left (this.trans (mul_le_mul_of_nonneg_left hdist (by positivity))) (lsc_pos _).le
  set b : ℕ → ℝ := fun i => lsc (2 * n) * lau (3 / 4) x (2 * n) i with hbd
  have hεn : (0 : ℝ) ≤ ε := (abs_nonneg _).trans (herr 0)
  have hεlt : (ε : ℝ) < bn := by exact_mod_cast hε
  have hbn : (bn : ℝ) - ε ≤ b n := by
    have := (abs_le.mp (herr n)).1
    simp only [hbd]
    linarith
  have hbnpos : 0 < b n := by linarith
  have hlau : lau (3 / 4) x (2 * n) n ≠ 0 := fun h0 => by
    simp only [hbd, h0, mul_zero] at hbnpos
    exact lt_irrefl _ hbnpos
  refine ⟨hlau, hlen, fun win hw j hj => ?_⟩
  have hcj := coefsCheck_get hc j hj
  rw [Nat.zero_add] at hcj
  simp only [coefCheck, Bool.and_eq_true, decide_eq_true_eq] at hcj
  obtain ⟨ht, hcj⟩ := hcj
  set q : ℤ := 2 * (j : ℤ) + 1 - n
  set K := q.natAbs with hK
  have hKodd : K % 2 = 1 := by omega
  have hKpos : (0 : ℝ) < K := by
    have : 0 < K := by omega
    exact_mod_cast this
  set E : ℤ := 10 ^ tab[j].e with hE
  have hEpos : (0 : ℝ) < E := by
    rw [hE]
    push_cast
    positivity
  set T : ℤ := tab[j].m
  have htv : ((tab[j].toRat : ℚ) : ℝ) = T / E := by
    rw [Dec.toRat, Rat.mkRat_eq_div, hE]
    push_cast
    rfl
  have hwin : mkfirCoef n win j = sgn K / (Real.pi * K) * (b (2 * j + 1) / b n) := by
    unfold mkfirCoef usSinc
    rw [window_unique hw (by omega : 2 * j + 1 ≤ 2 * n), hbd]
    have e : ((2 * j + 1 : ℕ) : ℝ) - n = (q : ℝ) := by
      simp only [q]
      push_cast
      ring
    rw [e, mul_div_right_comm, octSinc_half q hKodd, mul_div_mul_left _ _ (lsc_pos _).ne']
  have hπ := Real.pi_pos
  rw [htv, hwin]
  set B := b (2 * j + 1) with hB
  set B0 : ℤ := bs.getD (2 * j + 1) 0 with hB0
  have hBe : |B - B0| ≤ ε := herr (2 * j + 1)
  have hbe : |b n - bn| ≤ ε := herr n
  set s : ℤ := sgn K with hs
  have hsabs : |(s : ℝ)| = 1 := by
    rw [hs]
    unfold sgn
    split_ifs <;> norm_num
  have hT : |(T : ℝ) / E| ≤ 1 := by
    rw [abs_div, abs_of_pos hEpos, div_le_one hEpos]
    have : ((|T| : ℤ) : ℝ) ≤ E := by exact_mod_cast ht
    rwa [Int.cast_abs] at this
  have hcr0 : |(T : ℝ) * 314159265358979323846 * (K : ℝ) * (bn : ℝ) - (s : ℝ) * (B0 : ℝ) * (E : ℝ) * 10 ^ 20|
      + (E : ℝ) * ((K : ℝ) * (bn : ℝ) + (4 * (K : ℝ) + 1) * (ε : ℝ) * 10 ^ 20) ≤ 60000 * (K : ℝ) * (E : ℝ) * ((bn : ℝ) - ε) := by
    exact_mod_cast hcj
  have hπP : |Real.pi - 3.14159265358979323846| ≤ 1 / 10 ^ 20 := by
    rw [abs_of_nonneg (by linarith [Real.pi_gt_d20])]
    linarith [Real.pi_lt_d20]
  refine close_real hT hKpos hsabs hεn hεlt hπP hbe hBe ?_
  have e1 : (T : ℝ) * 314159265358979323846 * K * bn - s * B0 * E * 10 ^ 20
      = (E * 10 ^ 20) * (T / E * 3.14159265358979323846 * K * bn - s * B0) := by
    field_simp
    ring
  have e2 : (0 : ℝ) < E * 10 ^ 20 := by positivity
  rw [e1, abs_mul, abs_of_pos e2] at hcr0
  refine le_of_mul_le_mul_left ?_ e2
  have e3 : (E * 10 ^ 20 : ℝ) * (6 / 10 ^ 16 * K * (bn - ε)) = 60000 * K * E * (bn - ε) := by ring
  rw [e3, mul_add]
  refine (add_le_add le_rfl (le_of_eq ?_)).trans hcr0
  ring

end Panda.FirDesign
