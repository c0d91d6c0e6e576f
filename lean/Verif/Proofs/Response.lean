import Verif.Proofs.Sine
import Verif.Proofs.Energy
import Verif.Spec.Response

/-!
# Sinusoids through IIR stages
-/

set_option linter.unusedSectionVars false

namespace Panda

open Finset

/-! ## One section -/

theorem one_add_cos_pos {a : ℝ} (ha : |a| < 1) (θ : ℝ) : 0 < 1 + a * Real.cos θ := by
  have h1 : |a * Real.cos θ| < 1 := by
    rw [abs_mul]
    calc |a| * |Real.cos θ| ≤ |a| * 1 := mul_le_mul_of_nonneg_left (Real.abs_cos_le_one θ) (abs_nonneg _)
      _ < 1 := by linarith
  linarith [(abs_lt.1 h1).1]

/-- `1 + a e^{iθ}` in polar coordinates. -/
theorem polar {a : ℝ} (ha : |a| < 1) (θ : ℝ) : ∃ R > 0,
    R * Real.cos (Real.arctan (a * Real.sin θ / (1 + a * Real.cos θ))) = 1 + a * Real.cos θ ∧
    R * Real.sin (Real.arctan (a * Real.sin θ / (1 + a * Real.cos θ))) = a * Real.sin θ := by
  have hp := one_add_cos_pos ha θ
  set t := a * Real.sin θ / (1 + a * Real.cos θ) with ht
  have hs : 0 < Real.sqrt (1 + t ^ 2) := Real.sqrt_pos.2 (by positivity)
  refine ⟨(1 + a * Real.cos θ) * Real.sqrt (1 + t ^ 2), by positivity, ?_, ?_⟩
  · rw [Real.cos_arctan]
    field_simp
  · rw [Real.sin_arctan]
    field_simp
    rw [ht]
    field_simp

/-- The section solves its recursion with a sinusoid turned by the phase. -/
theorem apPhase_spec {a : ℝ} (ha : |a| < 1) (θ ψ : ℝ) :
    Real.cos (ψ + θ + apPhase a θ) + a * Real.cos (ψ + apPhase a θ) = a * Real.cos (ψ + θ) + Real.cos ψ := by
  obtain ⟨R, hR, hc, hs⟩ := polar ha θ
  unfold apPhase
  set β := Real.arctan (a * Real.sin θ / (1 + a * Real.cos θ))
  have e1 : ψ + θ + (2 * β - θ) = (ψ + β) + β := by ring
  have e2 : ψ + (2 * β - θ) = (ψ + β) + β - θ := by ring
  rw [e1, e2]
  have e3 : Real.cos ψ = Real.cos ((ψ + β) - β) := by congr 1; ring
  have e4 : Real.cos (ψ + θ) = Real.cos ((ψ + β) - β + θ) := by congr 1; ring
  rw [e3, e4]
  obtain ⟨γ, hγ⟩ : ∃ γ, γ = ψ + β := ⟨_, rfl⟩
  rw [← hγ]
  clear hγ e1 e2 e3 e4
  have h1 : Real.cos (γ + β) + a * Real.cos (γ + β - θ) = R * Real.cos γ := by
    rw [Real.cos_sub (γ + β) θ, Real.cos_add, Real.sin_add]
    have : Real.cos β ^ 2 + Real.sin β ^ 2 = 1 := by rw [add_comm]; exact Real.sin_sq_add_cos_sq β
    linear_combination (-(Real.cos γ * Real.cos β - Real.sin γ * Real.sin β)) * hc -
      (Real.sin γ * Real.cos β + Real.cos γ * Real.sin β) * hs + R * Real.cos γ * this
  have h2 : a * Real.cos (γ - β + θ) + Real.cos (γ - β) = R * Real.cos γ := by
    rw [Real.cos_add (γ - β) θ, Real.cos_sub, Real.sin_sub]
    have : Real.cos β ^ 2 + Real.sin β ^ 2 = 1 := by rw [add_comm]; exact Real.sin_sq_add_cos_sq β
    linear_combination (-(Real.cos γ * Real.cos β + Real.sin γ * Real.sin β)) * hc +
      (Real.sin γ * Real.cos β - Real.cos γ * Real.sin β) * hs + R * Real.cos γ * this
  rw [h1, h2]

/-- A list of sinusoids, each turned by a phase depending on its frequency. -/
noncomputable def turn (φ : ℝ → ℝ) (L : List (ℝ × ℝ × ℝ)) : List (ℝ × ℝ × ℝ) := L.map fun a => (a.1, a.2.1, a.2.2 + φ a.2.1)

theorem amps_turn (φ : ℝ → ℝ) (L : List (ℝ × ℝ × ℝ)) : amps (turn φ L) = amps L := by
  unfold amps turn
  rw [List.map_map]
  rfl

theorem turn_turn (φ ψ : ℝ → ℝ) (L : List (ℝ × ℝ × ℝ)) : turn ψ (turn φ L) = turn (fun w => φ w + ψ w) L := by
  unfold turn
  rw [List.map_map]
  refine List.map_congr_left fun a _ => ?_
  simp [add_assoc]

theorem tones_turn_rec {a : ℝ} (ha : |a| < 1) (L : List (ℝ × ℝ × ℝ)) (s : ℝ) :
    tones (turn (apPhase a) L) (s + 1) + a * tones (turn (apPhase a) L) s = a * tones L (s + 1) + tones L s := by
  induction L with
  | nil => simp [tones, turn]
  | cons b L ih =>
    have e : turn (apPhase a) (b :: L) = (b.1, b.2.1, b.2.2 + apPhase a b.2.1) :: turn (apPhase a) L := rfl
    rw [e]
    simp only [tones_cons]
    have h := apPhase_spec ha b.2.1 (b.2.1 * s + b.2.2)
    have e1 : b.2.1 * (s + 1) + (b.2.2 + apPhase a b.2.1) = b.2.1 * s + b.2.2 + b.2.1 + apPhase a b.2.1 := by ring
    have e2 : b.2.1 * s + (b.2.2 + apPhase a b.2.1) = b.2.1 * s + b.2.2 + apPhase a b.2.1 := by ring
    have e3 : b.2.1 * (s + 1) + b.2.2 = b.2.1 * s + b.2.2 + b.2.1 := by ring
    rw [e1, e2, e3]
    linear_combination ih + b.1 * h

/-- `x` differs from a sum of sinusoids by at most `B`, and from sample `N` on by at most `ε`. -/
structure Near (x : ℕ → ℝ) (L : List (ℝ × ℝ × ℝ)) (ε B : ℝ) (N : ℕ) : Prop where
  all : ∀ n, |x n - tones L n| ≤ B
  late : ∀ n, N ≤ n → |x n - tones L n| ≤ ε

theorem Near.nonneg {x : ℕ → ℝ} {L : List (ℝ × ℝ × ℝ)} {ε B : ℝ} {N : ℕ} (h : Near x L ε B N) : 0 ≤ ε ∧ 0 ≤ B :=
  ⟨(abs_nonneg _).trans (h.late N le_rfl), (abs_nonneg _).trans (h.all 0)⟩

theorem Near.mono {x : ℕ → ℝ} {L : List (ℝ × ℝ × ℝ)} {ε ε' B B' : ℝ} {N N' : ℕ} (h : Near x L ε B N) (h1 : ε ≤ ε') (h2 : B ≤ B')
    (h3 : N ≤ N') : Near x L ε' B' N' :=
  ⟨fun n => (h.all n).trans h2, fun n hn => (h.late n (h3.trans hn)).trans h1⟩

/-- A section: the transient decays like `|a|^n`. -/
theorem allpass_near {a ρ : ℝ} (ha : |a| ≤ ρ) (hρ : ρ < 1) (M : ℕ) {x : ℕ → ℝ} {L : List (ℝ × ℝ × ℝ)} {ε B : ℝ} {N : ℕ}
    (h : Near x L ε B N) :
    Near (allpass a x) (turn (apPhase a) L) ((1 + 2 * |a|) * ε + 2 * ρ ^ M * (amps L + B)) (2 * amps L + 3 * B) (N + M) := by
  have ha1 : |a| < 1 := lt_of_le_of_lt ha hρ
  have h0 := abs_nonneg a
  have hρ0 : 0 ≤ ρ := h0.trans ha
  have hA := amps_nonneg L
  obtain ⟨hε, hB⟩ := h.nonneg
  set e : ℕ → ℝ := fun n => x n - tones L n with he
  set g : ℕ → ℝ := fun n => allpass a x n - tones (turn (apPhase a) L) n - a * e n with hg
  have hrec : ∀ n, g (n + 1) = -a * g n + (1 - a ^ 2) * e n := by
    intro n
    have h1 : allpass a x (n + 1) = (x (n + 1) - allpass a x n) * a + x n := rfl
    have h2 := tones_turn_rec ha1 L (n : ℝ)
    simp only [hg, he]
    rw [h1]
    push_cast
    linear_combination -h2
  have hz : |g 0| ≤ 2 * amps L := by
    have h1 : allpass a x 0 = (x 0 - 0) * a + 0 := rfl
    simp only [hg, he]
    rw [h1, show (x 0 - 0) * a + 0 - tones (turn (apPhase a) L) ((0 : ℕ) : ℝ) - a * (x 0 - tones L ((0 : ℕ) : ℝ)) =
      a * tones L ((0 : ℕ) : ℝ) - tones (turn (apPhase a) L) ((0 : ℕ) : ℝ) by ring]
    refine (abs_sub _ _).trans ?_
    rw [abs_mul]
    have h2 := abs_tones_le L ((0 : ℕ) : ℝ)
    have h3 := abs_tones_le (turn (apPhase a) L) ((0 : ℕ) : ℝ)
    rw [amps_turn] at h3
    nlinarith [abs_nonneg (tones L ((0 : ℕ) : ℝ))]
  have hq : |1 - a ^ 2| = (1 - |a|) * (1 + |a|) := by
    rw [abs_of_nonneg (by nlinarith [sq_abs a]), ← sq_abs]
    ring
  have hall : ∀ n, |g n| ≤ 2 * amps L + (1 + |a|) * B := by
    intro n
    induction n with
    | zero => nlinarith
    | succ n ih =>
      rw [hrec]
      refine (abs_add_le _ _).trans ?_
      rw [abs_mul, abs_mul, abs_neg, hq]
      have := h.all n
      have h3 : (1 - |a|) * (1 + |a|) * |e n| ≤ (1 - |a|) * (1 + |a|) * B :=
        mul_le_mul_of_nonneg_left this (mul_nonneg (by linarith) (by linarith))
      nlinarith
  have hlate : ∀ k, |g (N + k)| ≤ |a| ^ k * (2 * amps L + (1 + |a|) * B) + (1 + |a|) * ε := by
    intro k
    induction k with
    | zero =>
      have := hall N
      simp only [pow_zero, one_mul, Nat.add_zero]
      nlinarith
    | succ k ih =>
      rw [show N + (k + 1) = N + k + 1 by omega, hrec]
      refine (abs_add_le _ _).trans ?_
      rw [abs_mul, abs_mul, abs_neg, hq]
      have := h.late (N + k) (by omega)
      have h3 : (1 - |a|) * (1 + |a|) * |e (N + k)| ≤ (1 - |a|) * (1 + |a|) * ε :=
        mul_le_mul_of_nonneg_left this (mul_nonneg (by linarith) (by linarith))
      have h4 := mul_le_mul_of_nonneg_left ih h0
      rw [pow_succ]
      nlinarith
  have split : ∀ n, allpass a x n - tones (turn (apPhase a) L) n = g n + a * e n := by
    intro n
    simp only [hg]
    ring
  constructor
  · intro n
    rw [split]
    refine (abs_add_le _ _).trans ?_
    rw [abs_mul]
    have h1 := hall n
    have h2 : |a| * |e n| ≤ |a| * B := mul_le_mul_of_nonneg_left (h.all n) h0
    nlinarith
  · intro n hn
    obtain ⟨k, rfl⟩ := Nat.exists_eq_add_of_le (show N ≤ n by omega)
    rw [split]
    refine (abs_add_le _ _).trans ?_
    rw [abs_mul]
    have h1 := hlate k
    have h2 : |a| * |e (N + k)| ≤ |a| * ε := mul_le_mul_of_nonneg_left (h.late _ (by omega)) h0
    have h3 : |a| ^ k ≤ ρ ^ M :=
      (pow_le_pow_of_le_one h0 ha1.le (by omega)).trans (pow_le_pow_left₀ h0 ha M)
    have h4 : |a| ^ k * (2 * amps L + (1 + |a|) * B) ≤ ρ ^ M * (2 * amps L + 2 * B) :=
      mul_le_mul h3 (by nlinarith) (by positivity) (by positivity)
    nlinarith

/-! ## A branch -/

/-- Bound for the gain of the first `j` sections of a branch. -/
def branchGain (c : ℕ → ℝ) (b : ℕ) : ℕ → ℝ
  | 0 => 1
  | j + 1 => branchGain c b j * (1 + 2 * |c (2 * j + b)|)

theorem branchGain_pos (c : ℕ → ℝ) (b j : ℕ) : 0 < branchGain c b j := by
  induction j with
  | zero => exact one_pos
  | succ j ih =>
    unfold branchGain
    have := abs_nonneg (c (2 * j + b))
    positivity

theorem branch_near {c : ℕ → ℝ} {ρ : ℝ} (hc : ∀ i, |c i| ≤ ρ) (hρ : ρ < 1) (b M : ℕ) {x : ℕ → ℝ} {L : List (ℝ × ℝ × ℝ)} {ε B : ℝ}
    {N : ℕ} (h : Near x L ε B N) (j : ℕ) :
    Near (branch c b x j) (turn (fun θ => branchPhase c b θ j) L)
      (branchGain c b j * ε + j * 3 ^ j * ρ ^ M * (amps L + B)) (3 ^ j * (amps L + B) - amps L) (N + j * M) := by
  have hA := amps_nonneg L
  obtain ⟨hε, hB⟩ := h.nonneg
  have hρ0 : 0 ≤ ρ := (abs_nonneg _).trans (hc 0)
  induction j with
  | zero =>
    have e : turn (fun θ => branchPhase c b θ 0) L = L := by simp [turn, branchPhase]
    rw [e]
    exact h.mono (by simp [branchGain]) (by simp) (by simp)
  | succ j ih =>
    have := allpass_near (hc (2 * j + b)) hρ M ih
    rw [turn_turn, amps_turn] at this
    refine this.mono ?_ ?_ (by rw [Nat.succ_mul]; omega)
    · rw [show branchGain c b (j + 1) = branchGain c b j * (1 + 2 * |c (2 * j + b)|) from rfl]
      have h1 := abs_nonneg (c (2 * j + b))
      have h2 : |c (2 * j + b)| ≤ 1 := (hc _).trans hρ.le
      have h3 : 0 ≤ (j : ℝ) * 3 ^ j * ρ ^ M * (amps L + B) := by positivity
      have h4 : (1 + 2 * |c (2 * j + b)|) * ((j : ℝ) * 3 ^ j * ρ ^ M * (amps L + B)) ≤ 3 * ((j : ℝ) * 3 ^ j * ρ ^ M * (amps L + B)) :=
        mul_le_mul_of_nonneg_right (by linarith) h3
      have h5 : 0 ≤ (3 : ℝ) ^ j * ρ ^ M * (amps L + B) := by positivity
      push_cast
      calc _ = branchGain c b j * (1 + 2 * |c (2 * j + b)|) * ε +
            (1 + 2 * |c (2 * j + b)|) * ((j : ℝ) * 3 ^ j * ρ ^ M * (amps L + B)) + 2 * (3 ^ j * ρ ^ M * (amps L + B)) := by ring
        _ ≤ branchGain c b j * (1 + 2 * |c (2 * j + b)|) * ε +
            3 * ((j : ℝ) * 3 ^ j * ρ ^ M * (amps L + B)) + 3 * (3 ^ j * ρ ^ M * (amps L + B)) := by linarith
        _ = _ := by ring
    · rw [pow_succ]
      have : (0 : ℝ) ≤ 3 ^ j * (amps L + B) := by positivity
      nlinarith

theorem mul_pow_three_mono {j J : ℕ} (h : j ≤ J) : (j : ℝ) * 3 ^ j ≤ J * 3 ^ J := by
  have h1 : (j : ℝ) ≤ J := by exact_mod_cast h
  exact mul_le_mul h1 (pow_le_pow_right₀ (by norm_num) h) (by positivity) (by positivity)

/-- The branches of a filter. -/
theorem branchOut_near {c : ℕ → ℝ} {ρ G : ℝ} {nc b J : ℕ} (hc : ∀ i, |c i| ≤ ρ) (hρ : ρ < 1) (hG : branchGain c b (branchLen nc b) ≤ G)
    (hJ : branchLen nc b ≤ J) (M : ℕ) {x : ℕ → ℝ} {L : List (ℝ × ℝ × ℝ)} {ε B : ℝ} {N : ℕ} (h : Near x L ε B N) :
    Near (branchOut nc c b x) (turn (branchOutPhase nc c b) L)
      (G * ε + J * 3 ^ J * ρ ^ M * (amps L + B)) (3 ^ J * (amps L + B)) (N + J * M) := by
  have hA := amps_nonneg L
  obtain ⟨hε, hB⟩ := h.nonneg
  have hρ0 : 0 ≤ ρ := (abs_nonneg _).trans (hc 0)
  refine (branch_near hc hρ b M h (branchLen nc b)).mono ?_ ?_ ?_
  · have h1 := mul_le_mul_of_nonneg_right hG hε
    have h2 : ((branchLen nc b : ℕ) : ℝ) * 3 ^ branchLen nc b * (ρ ^ M * (amps L + B)) ≤ J * 3 ^ J * (ρ ^ M * (amps L + B)) :=
      mul_le_mul_of_nonneg_right (mul_pow_three_mono hJ) (by positivity)
    calc _ = branchGain c b (branchLen nc b) * ε + ((branchLen nc b : ℕ) : ℝ) * 3 ^ branchLen nc b * (ρ ^ M * (amps L + B)) := by ring
      _ ≤ _ := add_le_add h1 h2
      _ = _ := by ring
  · have : (3 : ℝ) ^ branchLen nc b * (amps L + B) ≤ 3 ^ J * (amps L + B) :=
      mul_le_mul_of_nonneg_right (pow_le_pow_right₀ (by norm_num) hJ) (by positivity)
    linarith
  · have := Nat.mul_le_mul_right M hJ
    omega

/-! ## Interpolation -/

/-- The sinusoid at the new sample rate. -/
noncomputable def upMain (nc : ℕ) (c : ℕ → ℝ) (a : ℝ × ℝ × ℝ) : ℝ × ℝ × ℝ :=
  (a.1 * Real.cos (iirDiff nc c (a.2.1 / 2)), a.2.1 / 2, a.2.2 + iirPhase nc c (a.2.1 / 2))

/-- Its mirror image. -/
noncomputable def upImage (nc : ℕ) (c : ℕ → ℝ) (a : ℝ × ℝ × ℝ) : ℝ × ℝ × ℝ :=
  (a.1 * -Real.sin (iirDiff nc c (a.2.1 / 2)), a.2.1 / 2 + Real.pi, a.2.2 + iirPhase nc c (a.2.1 / 2) - Real.pi / 2)

/-- What the interpolation makes of sinusoids. -/
noncomputable def upList (nc : ℕ) (c : ℕ → ℝ) (L : List (ℝ × ℝ × ℝ)) : List (ℝ × ℝ × ℝ) := L.map (upMain nc c) ++ L.map (upImage nc c)

theorem tones_map_cons (f : ℝ × ℝ × ℝ → ℝ × ℝ × ℝ) (a : ℝ × ℝ × ℝ) (L : List (ℝ × ℝ × ℝ)) (s : ℝ) :
    tones ((a :: L).map f) s = (f a).1 * Real.cos ((f a).2.1 * s + (f a).2.2) + tones (L.map f) s := by
  rw [List.map_cons, tones_cons]

theorem tones_upList (nc : ℕ) (c : ℕ → ℝ) (L : List (ℝ × ℝ × ℝ)) (n : ℕ) :
    tones (upList nc c L) n = tones (turn (branchOutPhase nc c (n % 2)) L) ((n / 2 : ℕ) : ℝ) := by
  unfold upList turn
  rw [tones_append]
  induction L with
  | nil => simp [tones]
  | cons a L ih =>
    rw [tones_map_cons, tones_map_cons, tones_map_cons]
    simp only at ih ⊢
    rw [← ih]
    simp only [upMain, upImage]
    set v := a.2.1 / 2 with hv
    have hw : a.2.1 = 2 * v := by rw [hv]; ring
    have e2 : (v + Real.pi) * (n : ℝ) + (a.2.2 + iirPhase nc c v - Real.pi / 2) =
        (v * n + (a.2.2 + iirPhase nc c v) - Real.pi / 2) + n * Real.pi := by ring
    rw [e2, cos_add_nat_pi, Real.cos_sub_pi_div_two, hw]
    obtain ⟨X, hX⟩ : ∃ X, X = v * n + (a.2.2 + iirPhase nc c v) := ⟨_, rfl⟩
    rw [← hX]
    rcases Nat.mod_two_eq_zero_or_one n with hn | hn
    · rw [if_pos hn, hn]
      have hm : (n : ℝ) = 2 * ((n / 2 : ℕ) : ℝ) := by
        have : n = 2 * (n / 2) := by omega
        exact_mod_cast this
      have e3 : 2 * v * ((n / 2 : ℕ) : ℝ) + (a.2.2 + branchOutPhase nc c 0 (2 * v)) = X + iirDiff nc c v := by
        rw [hX, hm]
        unfold iirDiff iirPhase
        ring
      rw [e3, Real.cos_add]
      ring
    · rw [if_neg (by omega), hn]
      have hm : (n : ℝ) = 2 * ((n / 2 : ℕ) : ℝ) + 1 := by
        have : n = 2 * (n / 2) + 1 := by omega
        exact_mod_cast this
      have e3 : 2 * v * ((n / 2 : ℕ) : ℝ) + (a.2.2 + branchOutPhase nc c 1 (2 * v)) = X - iirDiff nc c v := by
        rw [hX, hm]
        unfold iirDiff iirPhase
        ring
      rw [e3, Real.cos_sub]
      ring

theorem iirUp_near {c : ℕ → ℝ} {ρ G : ℝ} {nc J : ℕ} (hc : ∀ i, |c i| ≤ ρ) (hρ : ρ < 1)
    (hG : ∀ b < 2, branchGain c b (branchLen nc b) ≤ G) (hJ : ∀ b < 2, branchLen nc b ≤ J) (M : ℕ) {x : ℕ → ℝ}
    {L : List (ℝ × ℝ × ℝ)} {ε B : ℝ} {N : ℕ} (h : Near x L ε B N) :
    Near (iirUpOp nc c x) (upList nc c L) (G * ε + J * 3 ^ J * ρ ^ M * (amps L + B)) (3 ^ J * (amps L + B)) (2 * (N + J * M)) := by
  have key : ∀ n, iirUpOp nc c x n - tones (upList nc c L) n =
      branchOut nc c (n % 2) x (n / 2) - tones (turn (branchOutPhase nc c (n % 2)) L) ((n / 2 : ℕ) : ℝ) := by
    intro n
    rw [tones_upList]
    rfl
  constructor
  · intro n
    rw [key]
    exact (branchOut_near hc hρ (hG _ (Nat.mod_lt _ (by norm_num))) (hJ _ (Nat.mod_lt _ (by norm_num))) M h).all _
  · intro n hn
    rw [key]
    exact (branchOut_near hc hρ (hG _ (Nat.mod_lt _ (by norm_num))) (hJ _ (Nat.mod_lt _ (by norm_num))) M h).late _ (by omega)

/-! ## Decimation -/

/-- What the decimation makes of a sinusoid. -/
noncomputable def downMain (nc : ℕ) (c : ℕ → ℝ) (a : ℝ × ℝ × ℝ) : ℝ × ℝ × ℝ :=
  (a.1 * Real.cos (iirDiff nc c a.2.1), 2 * a.2.1, a.2.2 + (iirPhase nc c a.2.1 + a.2.1))

theorem near_evens {x : ℕ → ℝ} {L : List (ℝ × ℝ × ℝ)} {ε B : ℝ} {N : ℕ} (h : Near x L ε B N) :
    Near (evens x) (L.map fun a => (a.1, 2 * a.2.1, a.2.2)) ε B ((N + 1) / 2) := by
  have key : ∀ m : ℕ, tones (L.map fun a => (a.1, 2 * a.2.1, a.2.2)) m = tones L ((2 * m : ℕ) : ℝ) := by
    intro m
    clear h
    induction L with
    | nil => rfl
    | cons a L ih =>
      rw [tones_map_cons, tones_cons, ih]
      simp only
      congr 3
      push_cast
      ring
  constructor
  · intro m
    rw [key]
    exact h.all _
  · intro m hm
    rw [key]
    exact h.late _ (by omega)

theorem near_odds {x : ℕ → ℝ} {L : List (ℝ × ℝ × ℝ)} {ε B : ℝ} {N : ℕ} (h : Near x L ε B N) :
    Near (odds x) (L.map fun a => (a.1, 2 * a.2.1, a.2.2 + a.2.1)) ε B ((N + 1) / 2) := by
  have key : ∀ m : ℕ, tones (L.map fun a => (a.1, 2 * a.2.1, a.2.2 + a.2.1)) m = tones L ((2 * m + 1 : ℕ) : ℝ) := by
    intro m
    clear h
    induction L with
    | nil => rfl
    | cons a L ih =>
      rw [tones_map_cons, tones_cons, ih]
      simp only
      congr 3
      push_cast
      ring
  constructor
  · intro m
    rw [key]
    exact h.all _
  · intro m hm
    rw [key]
    exact h.late _ (by omega)

theorem tones_down (nc : ℕ) (c : ℕ → ℝ) (L : List (ℝ × ℝ × ℝ)) (s : ℝ) :
    tones (L.map (downMain nc c)) s =
      1 / 2 * (tones (turn (branchOutPhase nc c 0) (L.map fun a => (a.1, 2 * a.2.1, a.2.2 + a.2.1))) s +
        tones (turn (branchOutPhase nc c 1) (L.map fun a => (a.1, 2 * a.2.1, a.2.2))) s) := by
  unfold turn
  rw [List.map_map, List.map_map]
  induction L with
  | nil => simp [tones]
  | cons a L ih =>
    rw [tones_map_cons, tones_map_cons, tones_map_cons, ih]
    simp only [downMain, Function.comp]
    set v := a.2.1
    have e0 : 2 * v * s + (a.2.2 + v + branchOutPhase nc c 0 (2 * v)) =
        (2 * v * s + (a.2.2 + (iirPhase nc c v + v))) + iirDiff nc c v := by
      unfold iirDiff iirPhase
      ring
    have e1 : 2 * v * s + (a.2.2 + branchOutPhase nc c 1 (2 * v)) =
        (2 * v * s + (a.2.2 + (iirPhase nc c v + v))) - iirDiff nc c v := by
      unfold iirDiff iirPhase
      ring
    rw [e0, e1]
    generalize 2 * v * s + (a.2.2 + (iirPhase nc c v + v)) = X
    rw [Real.cos_add, Real.cos_sub]
    ring

theorem iirDown_near {c : ℕ → ℝ} {ρ G : ℝ} {nc J : ℕ} (hc : ∀ i, |c i| ≤ ρ) (hρ : ρ < 1)
    (hG : ∀ b < 2, branchGain c b (branchLen nc b) ≤ G) (hJ : ∀ b < 2, branchLen nc b ≤ J) (M : ℕ) {x : ℕ → ℝ}
    {L : List (ℝ × ℝ × ℝ)} {ε B : ℝ} {N : ℕ} (h : Near x L ε B N) :
    Near (iirDownOp nc c (1 / 2) x) (L.map (downMain nc c)) (G * ε + J * 3 ^ J * ρ ^ M * (amps L + B)) (3 ^ J * (amps L + B))
      ((N + 1) / 2 + J * M) := by
  have h0 := branchOut_near hc hρ (hG 0 (by norm_num)) (hJ 0 (by norm_num)) M (near_odds h)
  have h1 := branchOut_near hc hρ (hG 1 (by norm_num)) (hJ 1 (by norm_num)) M (near_evens h)
  have a0 : amps (L.map fun a => (a.1, 2 * a.2.1, a.2.2 + a.2.1)) = amps L := by unfold amps; rw [List.map_map]; rfl
  have a1 : amps (L.map fun a => (a.1, 2 * a.2.1, a.2.2)) = amps L := by unfold amps; rw [List.map_map]; rfl
  rw [a0] at h0
  rw [a1] at h1
  have key : ∀ {m : ℕ} {E : ℝ},
      |branchOut nc c 0 (odds x) m - tones (turn (branchOutPhase nc c 0) (L.map fun a => (a.1, 2 * a.2.1, a.2.2 + a.2.1))) m| ≤ E →
      |branchOut nc c 1 (evens x) m - tones (turn (branchOutPhase nc c 1) (L.map fun a => (a.1, 2 * a.2.1, a.2.2))) m| ≤ E →
      |iirDownOp nc c (1 / 2) x m - tones (L.map (downMain nc c)) m| ≤ E := by
    intro m E p q
    rw [tones_down]
    unfold iirDownOp
    rw [← mul_sub, add_sub_add_comm, abs_mul]
    have := abs_add_le (branchOut nc c 0 (odds x) m -
      tones (turn (branchOutPhase nc c 0) (L.map fun a => (a.1, 2 * a.2.1, a.2.2 + a.2.1))) m) (branchOut nc c 1 (evens x) m -
      tones (turn (branchOutPhase nc c 1) (L.map fun a => (a.1, 2 * a.2.1, a.2.2))) m)
    rw [abs_of_pos (by norm_num : (0 : ℝ) < 1 / 2)]
    linarith
  exact ⟨fun m => key (h0.all m) (h1.all m), fun m hm => key (h0.late m hm) (h1.late m hm)⟩

end Panda
