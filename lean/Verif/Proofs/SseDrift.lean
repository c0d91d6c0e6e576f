import Verif.Proofs.Float
import Verif.Proofs.L1
import Mathlib.Tactic.Linarith
import Mathlib.Tactic.Ring
import Mathlib.Tactic.FieldSimp
import Mathlib.Tactic.Positivity
import Mathlib.Tactic.NormNum

/-!
# Rounding errors in a section with coefficient 1

While the operands stay within their binades, moving a sum by an even number of units in the last place moves the rounded sum
by the same amount. So a rounding error made in every period of a periodic input is made again, whatever the size of the error that
has built up already.
-/

namespace Panda

theorem rne_add_even (q : ℚ) (j : ℤ) : rne (q + (2 * j : ℤ)) = rne q + 2 * j := by
  unfold rne
  rw [Int.floor_add_intCast]
  have e : q + ((2 * j : ℤ) : ℚ) - ((⌊q⌋ + 2 * j : ℤ) : ℚ) = q - (⌊q⌋ : ℚ) := by push_cast; ring
  simp only [e]
  have e2 : (⌊q⌋ + 2 * j) % 2 = ⌊q⌋ % 2 := by omega
  rw [e2]
  split_ifs <;> ring

theorem ilog2_unique {q : ℚ} {e : ℤ} (h1 : (2 : ℚ) ^ e ≤ |q|) (h2 : |q| < 2 ^ (e + 1)) : ilog2 q = e := by
  have hq : q ≠ 0 := by
    rintro rfl
    have : (0 : ℚ) < 2 ^ e := by positivity
    simp at h1
    linarith
  obtain ⟨a, b⟩ := ilog2_spec hq
  have c1 : ilog2 q < e + 1 := (zpow_lt_zpow_iff_right₀ (by norm_num : (1 : ℚ) < 2)).1 (a.trans_lt h2)
  have c2 : e < ilog2 q + 1 := (zpow_lt_zpow_iff_right₀ (by norm_num : (1 : ℚ) < 2)).1 (h1.trans_lt b)
  omega

/-- `q` and `q + K t` have the same sign and lie in the same binade, and `t` is an even number of units in the last place. -/
def linOk (q t : ℚ) (K : ℕ) : Bool :=
  decide (q ≠ 0 ∧ ilog2 (q + K * t) = ilog2 q ∧ (0 < q ∧ 0 < q + K * t ∨ q < 0 ∧ q + K * t < 0) ∧
    (t / (2 * 2 ^ ulpExp q)).den = 1)

theorem rnd32_lin {q t : ℚ} {K : ℕ} (h : linOk q t K = true) {k : ℕ} (hk : k ≤ K) : rnd32 (q + k * t) = rnd32 q + k * t := by
  unfold linOk at h
  rw [decide_eq_true_eq] at h
  obtain ⟨h0, h1, h2, h3⟩ := h
  have hkK : (k : ℚ) ≤ K := by exact_mod_cast hk
  have hk0 : (0 : ℚ) ≤ k := by positivity
  have hmid : (0 < q → min q (q + K * t) ≤ q + k * t ∧ q + k * t ≤ max q (q + K * t)) ∧
      (q < 0 → min q (q + K * t) ≤ q + k * t ∧ q + k * t ≤ max q (q + K * t)) := by
    have : min q (q + K * t) ≤ q + k * t ∧ q + k * t ≤ max q (q + K * t) := by
      rcases le_total 0 t with ht | ht
      · have : (k : ℚ) * t ≤ K * t := mul_le_mul_of_nonneg_right hkK ht
        have : 0 ≤ (k : ℚ) * t := mul_nonneg hk0 ht
        exact ⟨(min_le_left _ _).trans (by linarith), le_trans (by linarith) (le_max_right _ _)⟩
      · have : (K : ℚ) * t ≤ k * t := mul_le_mul_of_nonpos_right hkK ht
        have : (k : ℚ) * t ≤ 0 := mul_nonpos_of_nonneg_of_nonpos hk0 ht
        exact ⟨(min_le_right _ _).trans (by linarith), le_trans (by linarith) (le_max_left _ _)⟩
    exact ⟨fun _ => this, fun _ => this⟩
  have hbin : (2 : ℚ) ^ ilog2 q ≤ |q + k * t| ∧ |q + k * t| < 2 ^ (ilog2 q + 1) := by
    obtain ⟨a1, a2⟩ := ilog2_spec h0
    rcases h2 with ⟨p1, p2⟩ | ⟨p1, p2⟩
    · obtain ⟨b1, b2⟩ := ilog2_spec p2.ne'
      rw [h1, abs_of_pos p2] at b1 b2
      rw [abs_of_pos p1] at a1 a2
      obtain ⟨m1, m2⟩ := hmid.1 p1
      have m1' := (le_min a1 b1).trans m1
      have m2' := m2.trans_lt (max_lt a2 b2)
      have : (0 : ℚ) < 2 ^ ilog2 q := by positivity
      rw [abs_of_pos (by linarith)]
      exact ⟨m1', m2'⟩
    · obtain ⟨b1, b2⟩ := ilog2_spec p2.ne
      rw [h1, abs_of_neg p2] at b1 b2
      rw [abs_of_neg p1] at a1 a2
      obtain ⟨m1, m2⟩ := hmid.2 p1
      have m1' : -(2 : ℚ) ^ (ilog2 q + 1) < q + k * t := lt_of_lt_of_le (lt_min (by linarith) (by linarith)) m1
      have m2' : q + k * t ≤ -(2 : ℚ) ^ ilog2 q := m2.trans (max_le (by linarith) (by linarith))
      have : (0 : ℚ) < 2 ^ ilog2 q := by positivity
      rw [abs_of_neg (by linarith)]
      exact ⟨by linarith, by linarith⟩
  have hlog := ilog2_unique hbin.1 hbin.2
  have hne : q + k * t ≠ 0 := by
    intro h
    rw [h, abs_zero] at hbin
    have : (0 : ℚ) < 2 ^ ilog2 q := by positivity
    linarith [hbin.1]
  have hulp : ulpExp (q + k * t) = ulpExp q := by unfold ulpExp; rw [hlog]
  have hu : (0 : ℚ) < 2 ^ ulpExp q := by positivity
  set j := (t / (2 * 2 ^ ulpExp q)).num with hj
  have ht : t = 2 * j * 2 ^ ulpExp q := by
    have := Rat.num_div_den (t / (2 * 2 ^ ulpExp q))
    rw [h3, ← hj] at this
    field_simp at this
    push_cast at this
    linarith
  unfold rnd32
  rw [if_neg hne, if_neg h0, hulp]
  have e : (q + k * t) / 2 ^ ulpExp q = q / 2 ^ ulpExp q + ((2 * (k * j) : ℤ) : ℚ) := by
    rw [add_div]
    congr 1
    rw [div_eq_iff hu.ne']
    conv_lhs => rw [ht]
    push_cast
    ring
  rw [e, rne_add_even]
  conv_rhs => rw [ht]
  push_cast
  ring

/-! ## Sections in series, step by step -/

section chain

variable {F : Type} [Zero F] [Add F] [Sub F] [Mul F]

/-- Input number `n` and outputs number `n` of all sections. -/
def chainState : List F → (ℕ → F) → ℕ → List F
  | [], x, n => [x n]
  | a :: as, x, n => x n :: chainState as (allpass a x) n

/-- The next `chainState`, for the next input `x`. -/
def chainNext : List F → F → List F → List F
  | a :: as, x, p :: q :: l => x :: chainNext as ((x - q) * a + p) (q :: l)
  | _, x, _ => [x]

theorem chainState_cons (as : List F) (x : ℕ → F) (n : ℕ) : ∃ l, chainState as x n = x n :: l := by
  cases as <;> exact ⟨_, rfl⟩

theorem chainState_succ (as : List F) (x : ℕ → F) (n : ℕ) : chainState as x (n + 1) = chainNext as (x (n + 1)) (chainState as x n) := by
  induction as generalizing x with
  | nil => rfl
  | cons a as ih =>
    obtain ⟨l, hl⟩ := chainState_cons as (allpass a x) n
    rw [chainState, chainState, ih, hl]
    rfl

theorem chainState_last (as : List F) (x : ℕ → F) (n : ℕ) (d : F) : (chainState as x n).getLastD d = apChain as x n := by
  induction as generalizing x d with
  | nil => rfl
  | cons a as ih =>
    obtain ⟨l, hl⟩ := chainState_cons as (allpass a x) n
    rw [chainState, List.getLastD_cons, ih]
    rfl

end chain

/-- `chainState` and the output of a section with coefficient 1 behind the others. -/
def driftState (as : List (Fl binary32)) (x : ℕ → Fl binary32) (n : ℕ) : List (Fl binary32) × Fl binary32 :=
  (chainState as x n, allpass 1 (apChain as x) n)

/-- One step. -/
def driftStep (as : List (Fl binary32)) (x : Fl binary32) (s : List (Fl binary32) × Fl binary32) : List (Fl binary32) × Fl binary32 :=
  (chainNext as x s.1, ((chainNext as x s.1).getLastD 0 - s.2) * 1 + s.1.getLastD 0)

theorem driftState_succ (as : List (Fl binary32)) (x : ℕ → Fl binary32) (n : ℕ) :
    driftState as x (n + 1) = driftStep as (x (n + 1)) (driftState as x n) := by
  unfold driftStep driftState
  rw [← chainState_succ, chainState_last, chainState_last]
  rfl

/-- A step together with all steps that start with `w + k t`, `k ≤ K`, instead of `w`. -/
def driftLin (as : List (Fl binary32)) (K : ℕ) (x : Fl binary32) (l : List (Fl binary32)) (w t : ℚ) : Option (List (Fl binary32) × ℚ × ℚ) :=
  match (chainNext as x l).getLastD 0, l.getLastD 0 with
  | some v', some v =>
    let u := rnd32 (v' - w)
    let w' := rnd32 (u + v)
    if linOk (v' - w) (-t) K && linOk u (-t) K && linOk (u + v) (-t) K && decide (rnd32 u = u) &&
        decide (|u| + K * |t| < 2 ^ 128 ∧ |w'| + K * |t| < 2 ^ 128)
    then some (chainNext as x l, w', -t) else none
  | _, _ => none

theorem fits_lin {q t : ℚ} {K k : ℕ} (hk : k ≤ K) (h : |q| + K * |t| < 2 ^ 128) : binary32.fits (q + k * t) = true := by
  refine decide_eq_true (lt_of_le_of_lt ((abs_add_le _ _).trans ?_) h)
  rw [abs_mul, Nat.abs_cast]
  have : (k : ℚ) ≤ K := by exact_mod_cast hk
  have := mul_le_mul_of_nonneg_right this (abs_nonneg t)
  linarith

theorem driftLin_step {as : List (Fl binary32)} {K : ℕ} {x : Fl binary32} {l l' : List (Fl binary32)} {w t w' t' : ℚ}
    (h : driftLin as K x l w t = some (l', w', t')) {k : ℕ} (hk : k ≤ K) :
    driftStep as x (l, Fl.fin (w + k * t)) = (l', Fl.fin (w' + k * t')) := by
  unfold driftLin at h
  split at h
  case h_2 => cases h
  rename_i v1 v hv1 hv
  simp only at h
  split_ifs at h with hc
  simp only [Bool.and_eq_true, decide_eq_true_eq] at hc
  obtain ⟨⟨⟨⟨c1, c2⟩, c3⟩, c4⟩, c5, c6⟩ := hc
  obtain ⟨rfl, rfl, rfl⟩ : chainNext as x l = l' ∧ rnd32 (rnd32 (v1 - w) + v) = w' ∧ -t = t' := by
    simpa using h
  have hv1 : (chainNext as x l).getLastD 0 = Fl.fin v1 := hv1
  have hv : l.getLastD 0 = Fl.fin v := hv
  unfold driftStep
  simp only
  rw [hv1, hv]
  congr 1
  have e1 : (Fl.fin v1 - Fl.fin (w + k * t) : Fl binary32) = Fl.fin (rnd32 (v1 - w) + k * -t) := by
    show Fl.mk binary32 (v1 - (w + k * t)) = _
    have : binary32.rnd (v1 - (w + k * t)) = rnd32 (v1 - w) + k * -t := by
      rw [← rnd32_lin c1 hk]
      show rnd32 _ = _
      congr 1
      ring
    unfold Fl.mk
    rw [this, fits_lin hk (by rwa [abs_neg])]
    rfl
  have e2 : (Fl.fin (rnd32 (v1 - w) + k * -t) * 1 : Fl binary32) = Fl.fin (rnd32 (v1 - w) + k * -t) := by
    show Fl.mk binary32 ((rnd32 (v1 - w) + k * -t) * 1) = _
    rw [mul_one]
    have : binary32.rnd (rnd32 (v1 - w) + k * -t) = rnd32 (v1 - w) + k * -t := (rnd32_lin c2 hk).trans (by rw [c4])
    unfold Fl.mk
    rw [this, fits_lin hk (by rwa [abs_neg])]
    rfl
  rw [e1, e2]
  show Fl.mk binary32 (rnd32 (v1 - w) + k * -t + v) = _
  have : binary32.rnd (rnd32 (v1 - w) + k * -t + v) = rnd32 (rnd32 (v1 - w) + v) + k * -t := by
    rw [← rnd32_lin c3 hk]
    show rnd32 _ = _
    congr 1
    ring
  unfold Fl.mk
  rw [this, fits_lin hk (by rwa [abs_neg])]
  rfl

/-- `m` steps, from sample `n` on. -/
def driftRun (as : List (Fl binary32)) (K : ℕ) (x : ℕ → Fl binary32) :
    ℕ → ℕ → List (Fl binary32) → ℚ → ℚ → Option (List (Fl binary32) × ℚ × ℚ)
  | 0, _, l, w, t => some (l, w, t)
  | m + 1, n, l, w, t => (driftLin as K (x (n + 1)) l w t).bind fun s => driftRun as K x m (n + 1) s.1 s.2.1 s.2.2

theorem driftRun_state {as : List (Fl binary32)} {K : ℕ} {x : ℕ → Fl binary32} {m n : ℕ} {l l' : List (Fl binary32)} {w t w' t' : ℚ}
    (h : driftRun as K x m n l w t = some (l', w', t')) {k : ℕ} (hk : k ≤ K) {N : ℕ} (hN : ∀ i, x (N + i) = x (n + i))
    (hs : driftState as x N = (l, Fl.fin (w + k * t))) :
    driftState as x (N + m) = (l', Fl.fin (w' + k * t')) := by
  induction m generalizing n N l w t with
  | zero =>
    obtain ⟨rfl, rfl, rfl⟩ : l = l' ∧ w = w' ∧ t = t' := by simpa [driftRun] using h
    exact hs
  | succ m ih =>
    rw [driftRun, Option.bind_eq_some_iff] at h
    obtain ⟨⟨l1, w1, t1⟩, h1, h2⟩ := h
    rw [show N + (m + 1) = N + 1 + m by omega]
    refine ih h2 (fun i => ?_) ?_
    · rw [show N + 1 + i = N + (1 + i) by omega, hN, show n + (1 + i) = n + 1 + i by omega]
    · rw [driftState_succ, hs, show x (N + 1) = x (n + 1) from hN 1]
      exact driftLin_step h1 hk

/-- `driftState` by iteration. -/
def driftIter (as : List (Fl binary32)) (x : ℕ → Fl binary32) (n : ℕ) : List (Fl binary32) × Fl binary32 :=
  (List.range n).foldl (fun s i => driftStep as (x (i + 1)) s) (driftState as x 0)

theorem driftIter_eq (as : List (Fl binary32)) (x : ℕ → Fl binary32) (n : ℕ) : driftIter as x n = driftState as x n := by
  induction n with
  | zero => rfl
  | succ n ih =>
    rw [driftState_succ, ← ih]
    simp [driftIter, List.range_succ]

/-- `P` samples after sample `n₀` everything is as before, except that the output of the last section has moved by `t`; and so for
all levels `w + k t`, `k ≤ K`. -/
def driftCert (as : List (Fl binary32)) (x : ℕ → Fl binary32) (n₀ P K : ℕ) (t : ℚ) : Bool :=
  match driftIter as x n₀ with
  | (l, some w) => decide (driftRun as K x P n₀ l w t = some (l, w + t, t))
  | _ => false

theorem driftCert_state {as : List (Fl binary32)} {x : ℕ → Fl binary32} {n₀ P K : ℕ} {t : ℚ} (h : driftCert as x n₀ P K t = true)
    (hP : ∀ n, x (n + P) = x n) :
    ∃ w : ℚ, (driftState as x n₀).2 = Fl.fin w ∧
      ∀ k ≤ K, driftState as x (n₀ + P * k) = ((driftState as x n₀).1, Fl.fin (w + k * t)) := by
  unfold driftCert at h
  split at h
  case h_2 => cases h
  rename_i l w hl
  rw [driftIter_eq] at hl
  have hl : driftState as x n₀ = (l, Fl.fin w) := hl
  rw [decide_eq_true_eq] at h
  refine ⟨w, by rw [hl], fun k hk => ?_⟩
  rw [hl]
  induction k with
  | zero => simpa using hl
  | succ k ih =>
    have hper : ∀ k i, x (n₀ + P * k + i) = x (n₀ + i) := by
      intro k i
      induction k with
      | zero => simp
      | succ k ih => rw [show n₀ + P * (k + 1) + i = n₀ + P * k + i + P by ring, hP, ih]
    have := driftRun_state h (k := k) (by omega) (N := n₀ + P * k) (hper k) (ih (by omega))
    have e : w + t + (k : ℚ) * t = w + ((k + 1 : ℕ) : ℚ) * t := by push_cast; ring
    rw [e] at this
    rw [show n₀ + P * (k + 1) = n₀ + P * k + P by ring]
    exact this

end Panda
