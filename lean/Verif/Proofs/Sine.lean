import Verif.Proofs.Freq
import Verif.Spec.Sine

/-!
# Sinusoids through FIR stages
-/

set_option linter.unusedSectionVars false

namespace Panda

open Finset

/-! ## Sums of sinusoids -/

theorem tones_nil (s : ℝ) : tones [] s = 0 := rfl

theorem tones_cons (a : ℝ × ℝ × ℝ) (L : List (ℝ × ℝ × ℝ)) (s : ℝ) :
    tones (a :: L) s = a.1 * Real.cos (a.2.1 * s + a.2.2) + tones L s := by simp [tones]

theorem tones_append (L L' : List (ℝ × ℝ × ℝ)) (s : ℝ) : tones (L ++ L') s = tones L s + tones L' s := by simp [tones]

theorem amps_cons (a : ℝ × ℝ × ℝ) (L : List (ℝ × ℝ × ℝ)) : amps (a :: L) = |a.1| + amps L := by simp [amps]

theorem amps_append (L L' : List (ℝ × ℝ × ℝ)) : amps (L ++ L') = amps L + amps L' := by simp [amps]

theorem amps_nonneg (L : List (ℝ × ℝ × ℝ)) : 0 ≤ amps L := by
  induction L with
  | nil => exact le_refl (0 : ℝ)
  | cons a L ih => rw [amps_cons]; positivity

theorem abs_tones_le (L : List (ℝ × ℝ × ℝ)) (s : ℝ) : |tones L s| ≤ amps L := by
  induction L with
  | nil => simp [tones, amps]
  | cons a L ih =>
    rw [tones_cons, amps_cons]
    refine (abs_add_le _ _).trans (add_le_add ?_ ih)
    rw [abs_mul]
    exact mul_le_of_le_one_right (abs_nonneg _) (Real.abs_cos_le_one _)

variable [Sample ℝ]

/-- From sample `N` on, `x` is within `ε` of a sum of sinusoids. -/
def NearTones (x : ℕ → ℝ) (L : List (ℝ × ℝ × ℝ)) (ε : ℝ) (N : ℕ) : Prop := ∀ n ≥ N, |x n - tones L n| ≤ ε

theorem NearTones.zext {x : ℕ → ℝ} {L : List (ℝ × ℝ × ℝ)} {ε : ℝ} {N : ℕ} (h : NearTones x L ε N) {z : ℤ} (hz : (N : ℤ) ≤ z) :
    |zext x z - tones L z| ≤ ε := by
  rw [zext_of_nonneg _ (by omega)]
  have := h z.toNat (by omega)
  have e : ((z.toNat : ℕ) : ℝ) = (z : ℝ) := by
    have : ((z.toNat : ℕ) : ℤ) = z := Int.toNat_of_nonneg (by omega)
    exact_mod_cast this
  rwa [e] at this

/-! ## Interpolation -/

/-- What a sinusoid becomes: itself, delayed, and two error terms. -/
noncomputable def upTones (t : List ℝ) (a : ℝ × ℝ × ℝ) : List (ℝ × ℝ × ℝ) :=
  [(a.1, a.2.1 / 2, a.2.2 - a.2.1 / 2 * ((t.length : ℝ) - 1)),
    (a.1 * ((firAmp t (a.2.1 / 2) - 1) / 2), a.2.1 / 2, a.2.2 - a.2.1 / 2 * ((t.length : ℝ) - 1)),
    (a.1 * ((firAmp t (a.2.1 / 2) - 1) / 2), a.2.1 / 2 + Real.pi, a.2.2 - a.2.1 / 2 * ((t.length : ℝ) - 1))]

omit [Sample ℝ] in
theorem cos_add_nat_pi (y : ℝ) (n : ℕ) : Real.cos (y + n * Real.pi) = if n % 2 = 0 then Real.cos y else -Real.cos y := by
  rw [Real.cos_add_nat_mul_pi]
  split
  · rw [(Nat.even_iff.2 ‹_›).neg_one_pow, one_mul]
  · rw [(Nat.odd_iff.2 (by omega)).neg_one_pow, neg_one_mul]

theorem tones_up (t : List ℝ) (a : ℝ × ℝ × ℝ) (n : ℕ) :
    tones (upTones t a) n = (if n % 2 = 0 then firAmp t (a.2.1 / 2) else 1) *
      (a.1 * Real.cos (a.2.1 / 2 * (n - ((t.length : ℝ) - 1)) + a.2.2)) := by
  unfold upTones
  simp only [tones_cons, tones_nil]
  have e1 : a.2.1 / 2 * (n : ℝ) + (a.2.2 - a.2.1 / 2 * ((t.length : ℝ) - 1)) =
      a.2.1 / 2 * (n - ((t.length : ℝ) - 1)) + a.2.2 := by ring
  have e2 : (a.2.1 / 2 + Real.pi) * (n : ℝ) + (a.2.2 - a.2.1 / 2 * ((t.length : ℝ) - 1)) =
      a.2.1 / 2 * (n - ((t.length : ℝ) - 1)) + a.2.2 + n * Real.pi := by ring
  rw [e1, e2, cos_add_nat_pi]
  split <;> ring

theorem firUp_tones {t : List ℝ} (hp : t.reverse = t) (he : t.length % 2 = 0) (h2 : 2 ≤ t.length) {G : ℝ} (hG : tapAbs t ≤ G)
    (hG1 : 1 ≤ G) {x : ℕ → ℝ} {L : List (ℝ × ℝ × ℝ)} {ε : ℝ} {N : ℕ} (hx : NearTones x L ε N) :
    NearTones (firUpOp t.length (seq t) x) (L.flatMap (upTones t)) (G * ε) (2 * (N + (t.length - 1))) := by
  intro n hn
  have hε : 0 ≤ ε := (abs_nonneg _).trans (hx N le_rfl)
  obtain ⟨l, hl⟩ : 2 ∣ t.length := Nat.dvd_of_mod_eq_zero he
  unfold firUpOp
  obtain ⟨m, hm⟩ : ∃ m, n / 2 = m := ⟨_, rfl⟩
  have ho : t.length / 2 = l := by omega
  rw [hm, ho]
  split
  · next hpar =>
    have key : ∀ L : List (ℝ × ℝ × ℝ), tones (L.flatMap (upTones t)) n =
        ∑ i ∈ range t.length, seq t i * tones L ((m - ((t.length : ℤ) - 1) + i : ℤ) : ℝ) := by
      intro L
      induction L with
      | nil => simp [tones]
      | cons a L ih =>
        rw [List.flatMap_cons, tones_append, ih, tones_up, if_pos hpar]
        simp only [tones_cons, mul_add, sum_add_distrib]
        congr 1
        have := cos_fir hp (a.2.1 * (m - ((t.length : ℝ) - 1)) + a.2.2) (a.2.1 / 2)
        rw [show a.2.1 * ((m : ℝ) - ((t.length : ℝ) - 1)) + a.2.2 + ((t.length : ℝ) - 1) * (a.2.1 / 2) =
          a.2.1 / 2 * (n - ((t.length : ℝ) - 1)) + a.2.2 by
            have : (n : ℝ) = 2 * (m : ℝ) := by
              have : n = 2 * m := by omega
              exact_mod_cast this
            rw [this]
            ring] at this
        rw [mul_left_comm, ← this, mul_sum]
        refine sum_congr rfl fun i _ => ?_
        rw [mul_left_comm]
        congr 3
        push_cast
        ring
    rw [key, ← sum_sub_distrib]
    have hb : ∀ i < t.length, |zext x (m - ((t.length : ℤ) - 1) + i) -
        tones L ((m - ((t.length : ℤ) - 1) + i : ℤ) : ℝ)| ≤ ε := fun i hi => hx.zext (by omega)
    have := abs_fir_le t _ hb
    simp only [mul_sub] at this
    exact this.trans (mul_le_mul_of_nonneg_right hG hε)
  · next hpar =>
    have key : ∀ L : List (ℝ × ℝ × ℝ), tones (L.flatMap (upTones t)) n =
        tones L ((m - ((t.length : ℤ) - 1) + (l : ℕ) : ℤ) : ℝ) := by
      intro L
      induction L with
      | nil => simp [tones]
      | cons a L ih =>
        rw [List.flatMap_cons, tones_append, ih, tones_up, if_neg hpar, tones_cons, one_mul]
        congr 3
        have h1 : (n : ℝ) = 2 * (m : ℝ) + 1 := by
          have : n = 2 * m + 1 := by omega
          exact_mod_cast this
        have h3 : (t.length : ℝ) = 2 * ((l : ℕ) : ℝ) := by
          have : t.length = 2 * l := by omega
          exact_mod_cast this
        push_cast
        rw [h1]
        rw [h3]
        ring
    rw [key]
    refine (hx.zext (by omega)).trans ?_
    nlinarith

/-! ## Decimation -/

/-- What a sinusoid becomes. -/
noncomputable def downTone (t : List ℝ) (h : ℝ) (a : ℝ × ℝ × ℝ) : ℝ × ℝ × ℝ :=
  (a.1 * (firAmp t a.2.1 + h), 2 * a.2.1, a.2.2 - a.2.1 * ((t.length : ℝ) - 1))

theorem firDown_tones {t : List ℝ} (hp : t.reverse = t) (he : t.length % 2 = 0) (h2 : 2 ≤ t.length) {h G : ℝ}
    (hG : tapAbs t + |h| ≤ G) {x : ℕ → ℝ} {L : List (ℝ × ℝ × ℝ)} {ε : ℝ} {N : ℕ} (hx : NearTones x L ε N) :
    NearTones (firDownOp t.length (seq t) h x) (L.map (downTone t h)) (G * ε) ((N + 1) / 2 + (t.length - 1)) := by
  intro m hm
  have hε : 0 ≤ ε := (abs_nonneg _).trans (hx N le_rfl)
  unfold firDownOp
  obtain ⟨l, hl⟩ : 2 ∣ t.length := Nat.dvd_of_mod_eq_zero he
  have ho : t.length / 2 = l := by omega
  rw [ho]
  have h3 : (t.length : ℝ) = 2 * (l : ℝ) := by exact_mod_cast hl
  have key : ∀ L : List (ℝ × ℝ × ℝ), tones (L.map (downTone t h)) m =
      ∑ i ∈ range t.length, seq t i * tones L ((2 * (m - ((t.length : ℤ) - 1) + i) : ℤ) : ℝ) +
        h * tones L ((2 * (m - ((t.length : ℤ) - 1) + (l : ℕ) - 1) + 1 : ℤ) : ℝ) := by
    intro L
    induction L with
    | nil => simp [tones]
    | cons a L ih =>
      rw [List.map_cons, tones_cons, ih]
      have e0 : ∀ f g : ℕ → ℝ, ∑ i ∈ range t.length, seq t i * (f i + g i) =
          ∑ i ∈ range t.length, seq t i * f i + ∑ i ∈ range t.length, seq t i * g i := by
        intro f g
        simp only [mul_add, sum_add_distrib]
      simp only [tones_cons]
      rw [e0]
      have := cos_fir hp (a.2.1 * (2 * (m - ((t.length : ℝ) - 1))) + a.2.2) a.2.1
      rw [show a.2.1 * (2 * ((m : ℝ) - ((t.length : ℝ) - 1))) + a.2.2 + ((t.length : ℝ) - 1) * a.2.1 =
        2 * a.2.1 * m + (a.2.2 - a.2.1 * ((t.length : ℝ) - 1)) by ring] at this
      have e1 : ∑ i ∈ range t.length, seq t i * (a.1 * Real.cos (a.2.1 * ((2 * (m - ((t.length : ℤ) - 1) + i) : ℤ) : ℝ) + a.2.2)) =
          a.1 * (firAmp t a.2.1 * Real.cos (2 * a.2.1 * m + (a.2.2 - a.2.1 * ((t.length : ℝ) - 1)))) := by
        rw [← this, mul_sum]
        refine sum_congr rfl fun i _ => ?_
        rw [mul_left_comm]
        congr 3
        push_cast
        ring
      rw [e1]
      have e2 : a.2.1 * ((2 * (m - ((t.length : ℤ) - 1) + (l : ℕ) - 1) + 1 : ℤ) : ℝ) + a.2.2 =
          2 * a.2.1 * m + (a.2.2 - a.2.1 * ((t.length : ℝ) - 1)) := by
        push_cast
        rw [h3]
        ring
      rw [e2]
      unfold downTone
      ring
  rw [key]
  have hb : ∀ i < t.length, |zext x (2 * (m - ((t.length : ℤ) - 1) + i)) -
      tones L ((2 * (m - ((t.length : ℤ) - 1) + i) : ℤ) : ℝ)| ≤ ε := fun i hi => hx.zext (by omega)
  have h1 := abs_fir_le t _ hb
  rw [sum_congr rfl fun i _ => mul_sub _ _ _, sum_sub_distrib] at h1
  have h4 := hx.zext (z := 2 * (m - ((t.length : ℤ) - 1) + (l : ℕ) - 1) + 1) (by omega)
  rw [add_sub_add_comm, ← mul_sub]
  refine (abs_add_le _ _).trans ?_
  rw [abs_mul]
  calc _ ≤ tapAbs t * ε + |h| * ε := add_le_add h1 (mul_le_mul_of_nonneg_left h4 (abs_nonneg _))
    _ = (tapAbs t + |h|) * ε := by ring
    _ ≤ G * ε := mul_le_mul_of_nonneg_right hG hε

/-! ## Bounds for the amplitude response -/

/-- The table of a stage. -/
def tab (k p : ℕ) : List Dec := (firTable k p).getD []

theorem ripple_check_all : ∀ k ∈ [2, 4, 8], ∀ p ∈ [1, 8, 12, 16, 20, 24],
    Bern.cosCheck (ampInts ((firTable k p).getD [])) 0 65535 (5 * 10 ^ 24) (5 * 10 ^ 24 + ripple k p * 10 ^ 15)
      (ripple k p * 10 ^ 15) 12 = true := by
  decide +kernel

theorem tab_facts : ∀ k ∈ [2, 4, 8], ∀ p ∈ [1, 8, 12, 16, 20, 24],
    (tab k p).reverse = tab k p ∧ (tab k p).length % 2 = 0 ∧ 2 ≤ (tab k p).length := by decide +kernel

theorem amp_pass {k p : ℕ} (hk : k ∈ [2, 4, 8]) (hp : p ∈ [1, 8, 12, 16, 20, 24]) {x : ℝ} (hx : |x| ≤ edge k) :
    |firAmp (exactTaps (tab k p)) x - 1| ≤ (ripple k p : ℝ) / 10 ^ 10 := by
  obtain ⟨h1, h2, -⟩ := tab_facts k hk p hp
  have := Bern.cosCheck_sound (ripple_check k hk p hp) (cos_ge_edge hk hx)
  rw [show (firTable k p).getD [] = tab k p from rfl, cosSum_amp h1 h2 (table_exponents k hk p hp)] at this
  simp only [Nat.cast_mul, Nat.cast_pow, Nat.cast_ofNat] at this
  rw [show (10 : ℝ) ^ 25 * firAmp (exactTaps (tab k p)) x - 10 ^ 25 = 10 ^ 25 * (firAmp (exactTaps (tab k p)) x - 1) by ring,
    abs_mul, abs_of_pos (by positivity : (0 : ℝ) < 10 ^ 25)] at this
  rw [le_div_iff₀ (by positivity)]
  have e : (10 : ℝ) ^ 25 = 10 ^ 10 * 10 ^ 15 := by norm_num
  rw [e] at this
  have hp15 : (0 : ℝ) < 10 ^ 15 := by positivity
  nlinarith

theorem amp_all {k p : ℕ} (hk : k ∈ [2, 4, 8]) (hp : p ∈ [1, 8, 12, 16, 20, 24]) (x : ℝ) :
    |firAmp (exactTaps (tab k p)) x| ≤ 1 + (ripple k p : ℝ) / 10 ^ 10 := by
  obtain ⟨h1, h2, -⟩ := tab_facts k hk p hp
  have key : ∀ y : ℝ, 0 ≤ Real.cos y → |firAmp (exactTaps (tab k p)) y| ≤ 1 + (ripple k p : ℝ) / 10 ^ 10 := by
    intro y hy
    have := Bern.cosCheck_sound (ripple_check_all k hk p hp) (x := y) (by push_cast; positivity)
    rw [show (firTable k p).getD [] = tab k p from rfl, cosSum_amp h1 h2 (table_exponents k hk p hp)] at this
    push_cast at this
    rw [abs_le] at this ⊢
    have e : (10 : ℝ) ^ 25 = 10 ^ 10 * 10 ^ 15 := by norm_num
    have e2 : (10 : ℝ) ^ 24 * 10 = 10 ^ 10 * 10 ^ 15 := by norm_num
    have e3 : (ripple k p : ℝ) = (ripple k p : ℝ) / 10 ^ 10 * 10 ^ 10 := by field_simp
    set r : ℝ := (ripple k p : ℝ) / 10 ^ 10 with hr
    have hr0 : 0 ≤ r := by positivity
    rw [e3] at this
    have hp15 : (0 : ℝ) < 10 ^ 25 := by positivity
    constructor
    · by_contra hcon
      push Not at hcon
      nlinarith [this.1]
    · by_contra hcon
      push Not at hcon
      nlinarith [this.2]
  rcases le_total 0 (Real.cos x) with h | h
  · exact key x h
  · have := key (x + Real.pi) (by rw [Real.cos_add_pi]; linarith)
    have e := firAmp_shift (t := exactTaps (tab k p)) (by simpa [exactTaps] using h2) x 1
    simp only [Int.cast_one, one_mul, zpow_one, neg_one_mul] at e
    rwa [e, abs_neg] at this

section stored
variable [Accurate ℝ]

theorem firAmp_stored (t : List Dec) (q : ℚ) (x : ℝ) :
    |firAmp (t.map fun d => (Sample.ofDouble (d.toRat * q) : ℝ)) x - (q : ℝ) / 2 * firAmp (exactTaps t) x| ≤
      2⁻¹ ^ 24 * (|(q : ℝ)| / 2 * ((absSum t : ℚ) : ℝ)) := by
  unfold firAmp
  have hl : (exactTaps t).length = t.length := by simp [exactTaps]
  rw [List.length_map, hl, mul_sum, ← sum_sub_distrib]
  refine (abs_sum_le_sum_abs _ _).trans ?_
  have ha : ((absSum t : ℚ) : ℝ) = ∑ i ∈ range t.length, |seq (exactTaps t) i| := by
    have := sum_seq (exactTaps t) fun x => |x|
    rw [hl] at this
    rw [this]
    unfold absSum exactTaps
    rw [cast_sum, List.map_map]
    congr 2
    funext d
    simp only [Function.comp, Rat.cast_abs]
  rw [ha, mul_sum, mul_sum]
  refine sum_le_sum fun i hi => ?_
  have hi := mem_range.1 hi
  have e1 : seq (t.map fun d => (Sample.ofDouble (d.toRat * q) : ℝ)) i = Sample.ofDouble (t[i].toRat * q) := by
    rw [seq_lt (by simpa using hi), List.getElem_map]
  have e2 : seq (exactTaps t) i = ((t[i].toRat * 2 : ℚ) : ℝ) := by
    rw [seq_lt (by simpa [exactTaps] using hi)]
    simp [exactTaps]
  rw [e1, e2]
  have h := Accurate.ofDouble (K := ℝ) (t[i].toRat * q)
  have hc := Real.abs_cos_le_one ((2 * (i : ℝ) - ((t.length : ℝ) - 1)) * x)
  generalize Real.cos ((2 * (i : ℝ) - ((t.length : ℝ) - 1)) * x) = c at hc ⊢
  have e3 : (Sample.ofDouble (t[i].toRat * q) : ℝ) * c - (q : ℝ) / 2 * (((t[i].toRat * 2 : ℚ) : ℝ) * c) =
      (Sample.ofDouble (t[i].toRat * q) - ((t[i].toRat * q : ℚ) : ℝ)) * c := by
    push_cast
    ring
  rw [e3, abs_mul]
  refine (mul_le_of_le_one_right (abs_nonneg _) hc).trans (h.trans (le_of_eq ?_))
  push_cast
  rw [abs_mul, abs_mul, abs_two]
  ring

/-- Bound for the error of the amplitude response with taps accurate to `2^-24`. -/
def ampErr (k p : ℕ) : ℚ := (ripple k p : ℚ) / 10 ^ 10 + 2⁻¹ ^ 24 * absSum (tab k p)

theorem ampErr_nonneg (k p : ℕ) : (0 : ℝ) ≤ (ampErr k p : ℚ) := by
  have h : (0 : ℚ) ≤ ampErr k p := by
    unfold ampErr absSum
    have : 0 ≤ ((tab k p).map fun d => |d.toRat * 2|).sum := List.sum_nonneg fun y hy => by
      obtain ⟨d, -, rfl⟩ := List.mem_map.1 hy
      exact abs_nonneg _
    positivity
  exact_mod_cast h

theorem amp_up {k p : ℕ} (hk : k ∈ [2, 4, 8]) (hp : p ∈ [1, 8, 12, 16, 20, 24]) (x : ℝ) :
    |firAmp ((tab k p).map fun d => (Sample.ofDouble (d.toRat * 2) : ℝ)) x| ≤ 1 + ((ampErr k p : ℚ) : ℝ) ∧
    (|x| ≤ edge k → |firAmp ((tab k p).map fun d => (Sample.ofDouble (d.toRat * 2) : ℝ)) x - 1| ≤ ((ampErr k p : ℚ) : ℝ)) := by
  have h := firAmp_stored (tab k p) 2 x
  have h1 := amp_all hk hp x
  have e : ((ampErr k p : ℚ) : ℝ) = (ripple k p : ℝ) / 10 ^ 10 + 2⁻¹ ^ 24 * ((absSum (tab k p) : ℚ) : ℝ) := by
    unfold ampErr
    push_cast
    ring
  rw [e]
  rw [show ((2 : ℚ) : ℝ) = 2 by norm_num, abs_two, div_self (by norm_num : (2 : ℝ) ≠ 0), one_mul, one_mul] at h
  rw [abs_le] at h h1
  constructor
  · rw [abs_le]
    constructor <;> linarith [h.1, h.2, h1.1, h1.2]
  · intro hx
    have h2 := amp_pass hk hp hx
    rw [abs_le] at h2 ⊢
    constructor <;> linarith [h.1, h.2, h2.1, h2.2]

/-- Frequency response of a decimation stage. -/
noncomputable def downAmp (k p : ℕ) (x : ℝ) : ℝ :=
  firAmp ((tab k p).map fun d => (Sample.ofDouble (d.toRat * 1) : ℝ)) x + Sample.half

theorem amp_down {k p : ℕ} (hk : k ∈ [2, 4, 8]) (hp : p ∈ [1, 8, 12, 16, 20, 24]) (x : ℝ) :
    |downAmp k p x| ≤ 1 + ((ampErr k p : ℚ) : ℝ) / 2 ∧
    ∀ j : ℤ, |x - j * Real.pi| ≤ edge k →
      |downAmp k p x - (if j % 2 = 0 then 1 else 0)| ≤ ((ampErr k p : ℚ) : ℝ) / 2 := by
  have h := firAmp_stored (tab k p) 1 x
  have h1 := amp_all hk hp x
  have e : ((ampErr k p : ℚ) : ℝ) = (ripple k p : ℝ) / 10 ^ 10 + 2⁻¹ ^ 24 * ((absSum (tab k p) : ℚ) : ℝ) := by
    unfold ampErr
    push_cast
    ring
  rw [e]
  unfold downAmp
  rw [show ((1 : ℚ) : ℝ) = 1 by norm_num, abs_one] at h
  rw [Accurate.half (K := ℝ)]
  rw [abs_le] at h h1
  constructor
  · rw [abs_le]
    constructor <;> linarith [h.1, h.2, h1.1, h1.2]
  · intro j hx
    have h2 := amp_pass hk hp hx
    obtain ⟨-, he, -⟩ := tab_facts k hk p hp
    have hs := firAmp_shift (t := exactTaps (tab k p)) (by simpa [exactTaps] using he) (x - j * Real.pi) j
    rw [sub_add_cancel] at hs
    rw [abs_le] at h2 ⊢
    split
    · next hj =>
      rw [(Int.even_iff.2 hj).neg_one_zpow, one_mul] at hs
      rw [hs] at h h1
      constructor <;> linarith [h.1, h.2, h2.1, h2.2]
    · next hj =>
      rw [(Int.odd_iff.2 (by omega)).neg_one_zpow, neg_one_mul] at hs
      rw [hs] at h h1
      constructor <;> linarith [h.1, h.2, h2.1, h2.2]

/-! ## Stages -/

/-- From sample `N` on, `x` is a sinusoid, plus sinusoids whose amplitudes add up to at most `δ`, plus errors up to `ε`. -/
def NearSine (x : ℕ → ℝ) (C ω φ δ ε : ℝ) (N : ℕ) : Prop := ∃ L, amps L ≤ δ ∧ NearTones x ((C, ω, φ) :: L) ε N

theorem NearSine.bound {x : ℕ → ℝ} {C ω φ δ ε : ℝ} {N : ℕ} (h : NearSine x C ω φ δ ε N) {n : ℕ} (hn : N ≤ n) :
    |x n - C * Real.cos (ω * n + φ)| ≤ δ + ε := by
  obtain ⟨L, hL, h⟩ := h
  have h1 := h n hn
  have h2 := abs_tones_le L n
  rw [tones_cons] at h1
  simp only at h1
  rw [abs_le] at h1 h2 ⊢
  constructor <;> linarith [h1.1, h1.2, h2.1, h2.2]

/-- What a sinusoid becomes, as two sinusoids. -/
noncomputable def upTones2 (t : List ℝ) (a : ℝ × ℝ × ℝ) : List (ℝ × ℝ × ℝ) :=
  [(a.1 * ((1 + firAmp t (a.2.1 / 2)) / 2), a.2.1 / 2, a.2.2 - a.2.1 / 2 * ((t.length : ℝ) - 1)),
    (a.1 * ((firAmp t (a.2.1 / 2) - 1) / 2), a.2.1 / 2 + Real.pi, a.2.2 - a.2.1 / 2 * ((t.length : ℝ) - 1))]

theorem tones_up2 (t : List ℝ) (a : ℝ × ℝ × ℝ) (s : ℝ) : tones (upTones2 t a) s = tones (upTones t a) s := by
  unfold upTones upTones2
  simp only [tones_cons, tones_nil]
  ring

theorem amps_up2 {t : List ℝ} {e : ℝ} (he : 0 ≤ e) (h : ∀ x, |firAmp t x| ≤ 1 + e) (L : List (ℝ × ℝ × ℝ)) :
    amps (L.flatMap (upTones2 t)) ≤ (1 + e) * amps L := by
  induction L with
  | nil => simp [amps]
  | cons a L ih =>
    rw [List.flatMap_cons, amps_append, amps_cons, mul_add]
    refine add_le_add ?_ ih
    unfold upTones2
    simp only [amps, List.map_cons, List.map_nil, List.sum_cons, List.sum_nil, add_zero]
    have h1 := h (a.2.1 / 2)
    generalize firAmp t (a.2.1 / 2) = A at h1
    rw [abs_mul, abs_mul, ← mul_add, mul_comm]
    refine mul_le_mul_of_nonneg_right ?_ (abs_nonneg _)
    rw [abs_le] at h1
    rcases abs_cases ((1 + A) / 2) with ⟨h2, -⟩ | ⟨h2, -⟩ <;> rcases abs_cases ((A - 1) / 2) with ⟨h3, -⟩ | ⟨h3, -⟩ <;> rw [h2, h3] <;> linarith

theorem tones_flatMap {f g : ℝ × ℝ × ℝ → List (ℝ × ℝ × ℝ)} {s : ℝ} (h : ∀ a, tones (f a) s = tones (g a) s)
    (L : List (ℝ × ℝ × ℝ)) : tones (L.flatMap f) s = tones (L.flatMap g) s := by
  induction L with
  | nil => rfl
  | cons a L ih => rw [List.flatMap_cons, List.flatMap_cons, tones_append, tones_append, ih, h]

theorem up_sine {k p : ℕ} (hk : k ∈ [2, 4, 8]) (hp : p ∈ [1, 8, 12, 16, 20, 24]) (vec : Bool) {x : ℕ → ℝ} {C ω φ δ ε : ℝ} {N : ℕ}
    (h : NearSine x C ω φ δ ε N) (hω : |ω / 2| ≤ edge k) :
    NearSine ((firStage .up vec (tab k p)).op x) C (ω / 2) (φ - ω / 2 * (((tab k p).length : ℝ) - 1))
      ((1 + (ampErr k p : ℚ)) * δ + (ampErr k p : ℚ) * |C|) ((stageGain .up (tab k p) : ℚ) * ε)
      ((firStage (K := ℝ) .up vec (tab k p)).settle N) := by
  obtain ⟨L, hL, h⟩ := h
  obtain ⟨f1, f2, f3⟩ := tab_facts k hk p hp
  obtain ⟨a1, a2⟩ := amp_up hk hp (ω / 2)
  have a2 := a2 hω
  have hg := firStage_gain (K := ℝ) .up vec (tab k p)
  have he := ampErr_nonneg k p
  set t : List ℝ := (tab k p).map fun d => (Sample.ofDouble (d.toRat * 2) : ℝ) with ht
  have hl : t.length = (tab k p).length := by simp [ht]
  have hpal : t.reverse = t := by rw [ht, ← List.map_reverse, f1]
  have key := firUp_tones hpal (by rw [hl, f2]) (by rw [hl]; exact f3) hg.1 hg.2 h
  refine ⟨[(C * ((firAmp t (ω / 2) - 1) / 2), ω / 2, φ - ω / 2 * ((t.length : ℝ) - 1)),
    (C * ((firAmp t (ω / 2) - 1) / 2), ω / 2 + Real.pi, φ - ω / 2 * ((t.length : ℝ) - 1))] ++ L.flatMap (upTones2 t), ?_, ?_⟩
  · rw [amps_append]
    have h1 := amps_up2 he (fun x => (amp_up hk hp x).1) L
    have h2 : (1 + ((ampErr k p : ℚ) : ℝ)) * amps L ≤ (1 + ((ampErr k p : ℚ) : ℝ)) * δ :=
      mul_le_mul_of_nonneg_left hL (by linarith)
    have h3 : amps [(C * ((firAmp t (ω / 2) - 1) / 2), ω / 2, φ - ω / 2 * ((t.length : ℝ) - 1)),
        (C * ((firAmp t (ω / 2) - 1) / 2), ω / 2 + Real.pi, φ - ω / 2 * ((t.length : ℝ) - 1))] =
        |firAmp t (ω / 2) - 1| * |C| := by
      simp only [amps, List.map_cons, List.map_nil, List.sum_cons, List.sum_nil, add_zero]
      rw [abs_mul, abs_div, abs_two]
      ring
    have h4 := mul_le_mul_of_nonneg_right a2 (abs_nonneg C)
    rw [h3]
    linarith
  · intro n hn
    have := key n (by
      simp only [firStage, Stage.settle, Stage.up, Stage.ntaps, if_true] at hn
      exact hn)
    have e : tones (((C, ω, φ) :: L).flatMap (upTones t)) n =
        tones ((C, ω / 2, φ - ω / 2 * (((tab k p).length : ℝ) - 1)) ::
          ([(C * ((firAmp t (ω / 2) - 1) / 2), ω / 2, φ - ω / 2 * ((t.length : ℝ) - 1)),
            (C * ((firAmp t (ω / 2) - 1) / 2), ω / 2 + Real.pi, φ - ω / 2 * ((t.length : ℝ) - 1))] ++
            L.flatMap (upTones2 t))) n := by
      rw [List.flatMap_cons, tones_append, ← tones_flatMap (fun a => tones_up2 t a n), ← tones_append, ← hl]
      rfl
    rw [← e]
    exact this

theorem down_sine {k p : ℕ} (hk : k ∈ [2, 4, 8]) (hp : p ∈ [1, 8, 12, 16, 20, 24]) (vec : Bool) {x : ℕ → ℝ} {C ω φ δ ε : ℝ} {N : ℕ}
    (h : NearSine x C ω φ δ ε N) {C' η : ℝ} (hC : |C * downAmp k p ω - C'| ≤ η) :
    NearSine ((firStage .down vec (tab k p)).op x) C' (2 * ω) (φ - ω * (((tab k p).length : ℝ) - 1))
      ((1 + (ampErr k p : ℚ) / 2) * δ + η) ((stageGain .down (tab k p) : ℚ) * ε)
      ((firStage (K := ℝ) .down vec (tab k p)).settle N) := by
  obtain ⟨L, hL, h⟩ := h
  obtain ⟨f1, f2, f3⟩ := tab_facts k hk p hp
  have hg := firStage_gain (K := ℝ) .down vec (tab k p)
  have he := ampErr_nonneg k p
  set t : List ℝ := (tab k p).map fun d => (Sample.ofDouble (d.toRat * 1) : ℝ) with ht
  have hl : t.length = (tab k p).length := by simp [ht]
  have hpal : t.reverse = t := by rw [ht, ← List.map_reverse, f1]
  have key := firDown_tones hpal (by rw [hl, f2]) (by rw [hl]; exact f3) (h := Sample.half) hg h
  refine ⟨(C * downAmp k p ω - C', 2 * ω, φ - ω * (((tab k p).length : ℝ) - 1)) :: L.map (downTone t Sample.half), ?_, ?_⟩
  · rw [amps_cons]
    have h1 : amps (L.map (downTone t Sample.half)) ≤ (1 + ((ampErr k p : ℚ) : ℝ) / 2) * amps L := by
      clear hL h key
      induction L with
      | nil => simp [amps]
      | cons a L ih =>
        rw [List.map_cons, amps_cons, amps_cons, mul_add]
        refine add_le_add ?_ ih
        show |a.1 * (firAmp t a.2.1 + Sample.half)| ≤ _
        rw [abs_mul, mul_comm]
        exact mul_le_mul_of_nonneg_right (amp_down hk hp a.2.1).1 (abs_nonneg _)
    have h2 : (1 + ((ampErr k p : ℚ) : ℝ) / 2) * amps L ≤ (1 + ((ampErr k p : ℚ) : ℝ) / 2) * δ :=
      mul_le_mul_of_nonneg_left hL (by linarith)
    linarith
  · intro n hn
    have := key n (by
      simp only [firStage, Stage.settle, Stage.up, Stage.ntaps] at hn
      rw [ge_iff_le, hl]
      simpa using hn)
    have e : tones (((C, ω, φ) :: L).map (downTone t Sample.half)) n =
        tones ((C', 2 * ω, φ - ω * (((tab k p).length : ℝ) - 1)) ::
          (C * downAmp k p ω - C', 2 * ω, φ - ω * (((tab k p).length : ℝ) - 1)) :: L.map (downTone t Sample.half)) n := by
      rw [List.map_cons, tones_cons, tones_cons, tones_cons]
      simp only [downTone, hl]
      rw [show firAmp t ω + Sample.half = downAmp k p ω from rfl]
      ring
    rw [← e]
    exact this

end stored

end Panda
