import Mathlib.Algebra.Order.BigOperators.Ring.Finset
import Verif.Proofs.Float
import Verif.Proofs.Gain

/-!
# Rounding errors of the FIR filters
-/

set_option linter.unusedSectionVars false

namespace Panda

open Finset

/-- Rounding with relative error `u` and absolute error `η`; results up to `Ω` fit. -/
structure Format.Acc (S : Format) (u η Ω : ℚ) : Prop where
  hu : 0 ≤ u
  hη : 0 ≤ η
  err : ∀ q, |S.rnd q - q| ≤ u * |q| + η
  fits : ∀ q, |q| ≤ Ω → S.fits q = true

theorem binary32_acc {Ω : ℚ} (h : Ω < 2 ^ 128) : binary32.Acc (2⁻¹ ^ 24) (2⁻¹ ^ 150) Ω :=
  ⟨by positivity, by positivity, rnd32_err, fun q hq => by
    simp only [binary32, decide_eq_true_eq]
    exact lt_of_le_of_lt hq h⟩

variable {S : Format} {u η Ω : ℚ}

/-- `v` is within rounding errors of `s`: sums of absolute values are at most `A`, at most `k` roundings on a path, at most `c`
roundings altogether. -/
def Approx (u η : ℚ) (v : Fl S) (s A : ℚ) (k c : ℕ) : Prop :=
  ∃ y, v = Fl.fin y ∧ |s| ≤ A ∧ |y - s| ≤ ((1 + u) ^ k - 1) * A + c * η * (1 + u) ^ k

theorem Approx.nonneg {v : Fl S} {s A : ℚ} {k c : ℕ} (h : Approx u η v s A k c) : 0 ≤ A := by
  obtain ⟨y, -, h, -⟩ := h
  exact (abs_nonneg _).trans h

theorem Approx.bound {v : Fl S} {s A : ℚ} {k c : ℕ} (h : Approx u η v s A k c) :
    ∃ y, v = Fl.fin y ∧ |y| ≤ (1 + u) ^ k * (A + c * η) := by
  obtain ⟨y, hv, h1, h2⟩ := h
  refine ⟨y, hv, ?_⟩
  have := abs_sub_abs_le_abs_sub y s
  calc |y| ≤ |y - s| + |s| := by linarith
    _ ≤ ((1 + u) ^ k - 1) * A + c * η * (1 + u) ^ k + A := by linarith
    _ = _ := by ring

theorem Approx.mono (hS : S.Acc u η Ω) {v : Fl S} {s A : ℚ} {k c k' c' : ℕ} (h : Approx u η v s A k c) (hk : k ≤ k') (hc : c ≤ c') :
    Approx u η v s A k' c' := by
  have hA := h.nonneg
  obtain ⟨y, hv, h1, h2⟩ := h
  refine ⟨y, hv, h1, h2.trans ?_⟩
  have hp : (1 + u) ^ k ≤ (1 + u) ^ k' := pow_le_pow_right₀ (by linarith [hS.hu]) hk
  have hu := hS.hu
  have hη := hS.hη
  gcongr

theorem rnd_bound (hS : S.Acc u η Ω) (q : ℚ) : |S.rnd q| ≤ (1 + u) * |q| + η := by
  have h1 := hS.err q
  have h2 := abs_sub_abs_le_abs_sub (S.rnd q) q
  linarith

theorem mk_fin (hS : S.Acc u η Ω) {q : ℚ} (h : (1 + u) * |q| + η ≤ Ω) : Fl.mk S q = Fl.fin (S.rnd q) := by
  exact if_pos (hS.fits _ ((rnd_bound hS q).trans h))

theorem Approx.zero : Approx u η (0 : Fl S) 0 0 0 0 := ⟨0, rfl, by simp, by simp⟩

theorem Approx.mul (hS : S.Acc u η Ω) (a b : ℚ) (h : (1 + u) * (|a| * |b|) + η ≤ Ω) :
    Approx u η (Fl.fin a * Fl.fin b : Fl S) (a * b) (|a| * |b|) 1 1 := by
  have e : (Fl.fin a * Fl.fin b : Fl S) = Fl.mk S (a * b) := rfl
  rw [e, mk_fin hS (by rwa [abs_mul])]
  refine ⟨_, rfl, by rw [abs_mul], ?_⟩
  have h1 := hS.err (a * b)
  rw [abs_mul] at h1
  have hu := hS.hu
  have hη := hS.hη
  calc _ ≤ u * (|a| * |b|) + η := h1
    _ ≤ _ := by
      push_cast
      have : 0 ≤ η * u := by positivity
      nlinarith

theorem Approx.add (hS : S.Acc u η Ω) {v w : Fl S} {s t A B : ℚ} {k c d : ℕ} (hv : Approx u η v s A k c) (hw : Approx u η w t B k d)
    (h : (1 + u) ^ (k + 1) * (A + B + (c + d + 1 : ℕ) * η) ≤ Ω) : Approx u η (v + w) (s + t) (A + B) (k + 1) (c + d + 1) := by
  have hA := hv.nonneg
  have hB := hw.nonneg
  obtain ⟨y, rfl, y2⟩ := hv.bound
  obtain ⟨z, rfl, z2⟩ := hw.bound
  obtain ⟨y', hy', y3, y4⟩ := hv
  obtain ⟨z', hz', z3, z4⟩ := hw
  obtain rfl : y = y' := Option.some.inj hy'
  obtain rfl : z = z' := Option.some.inj hz'
  have hu := hS.hu
  have hη := hS.hη
  have e : (Fl.fin y + Fl.fin z : Fl S) = Fl.mk S (y + z) := rfl
  have hsum : |y + z| ≤ (1 + u) ^ k * (A + B + (c + d) * η) := by
    refine (abs_add_le _ _).trans ?_
    linarith
  have p1 : 1 ≤ (1 + u) ^ k := one_le_pow₀ (by linarith)
  have p2 : 1 ≤ (1 + u) ^ (k + 1) := one_le_pow₀ (by linarith)
  have hb : (1 + u) * |y + z| + η ≤ (1 + u) ^ (k + 1) * (A + B + (c + d + 1 : ℕ) * η) := by
    have : (1 + u) * |y + z| ≤ (1 + u) * ((1 + u) ^ k * (A + B + (c + d) * η)) := by gcongr
    have h3 : η ≤ (1 + u) ^ (k + 1) * η := by nlinarith
    push_cast
    rw [pow_succ] at h3 ⊢
    nlinarith
  rw [e, mk_fin hS (hb.trans h)]
  refine ⟨_, rfl, (abs_add_le _ _).trans (by linarith), ?_⟩
  have h1 := hS.err (y + z)
  have h2 : |S.rnd (y + z) - (s + t)| ≤ |S.rnd (y + z) - (y + z)| + (|y - s| + |z - t|) := by
    have e : S.rnd (y + z) - (s + t) = (S.rnd (y + z) - (y + z)) + ((y - s) + (z - t)) := by ring
    rw [e]
    exact (abs_add_le _ _).trans (add_le_add le_rfl (abs_add_le _ _))
  refine h2.trans ?_
  have h3 : u * |y + z| ≤ u * ((1 + u) ^ k * (A + B + (c + d) * η)) := by gcongr
  have h4 : η ≤ (1 + u) ^ (k + 1) * η := by nlinarith
  push_cast
  rw [pow_succ] at h4 ⊢
  nlinarith

/-! ## Dot products -/

/-- A sequence of finite numbers up to (excluding) `N`. -/
def FinSeq (X : ℕ → Fl S) (x : ℕ → ℚ) (N : ℕ) : Prop := ∀ i < N, X i = Fl.fin (x i)

theorem firScalar_abs_mono (x t : ℕ → ℚ) {n N : ℕ} (h : n ≤ N) :
    firScalar (fun i => |x i|) (fun i => |t i|) n ≤ firScalar (fun i => |x i|) (fun i => |t i|) N := by
  rw [firScalar_eq_sum, firScalar_eq_sum]
  exact sum_le_sum_of_subset_of_nonneg (range_mono h) fun _ _ _ => by positivity

theorem approx_scalar (hS : S.Acc u η Ω) {X T : ℕ → Fl S} {x t : ℕ → ℚ} {O : ℕ} (hX : FinSeq X x O) (hT : FinSeq T t O)
    (hΩ : (1 + u) ^ (O + 1) * (firScalar (fun i => |x i|) (fun i => |t i|) O + (2 * O : ℕ) * η) ≤ Ω) (n : ℕ) (hn : n ≤ O) :
    Approx u η (firScalar X T n) (firScalar x t n) (firScalar (fun i => |x i|) (fun i => |t i|) n) (n + 1) (2 * n) := by
  have hu := hS.hu
  have hη := hS.hη
  have hΩ' : ∀ (k c : ℕ) (A : ℚ), 0 ≤ A → k ≤ O + 1 → c ≤ 2 * O → A ≤ firScalar (fun i => |x i|) (fun i => |t i|) O →
      (1 + u) ^ k * (A + c * η) ≤ Ω := by
    intro k c A h0 hk hc hA
    refine le_trans ?_ hΩ
    have p1 : (1 + u) ^ k ≤ (1 + u) ^ (O + 1) := pow_le_pow_right₀ (by linarith) hk
    have hc' : (c : ℚ) ≤ (2 * O : ℕ) := by exact_mod_cast hc
    gcongr
  induction n with
  | zero => exact Approx.zero.mono hS (by omega) (by omega)
  | succ n ih =>
    have h1 := ih (by omega)
    have hpos : 0 ≤ firScalar (fun i => |x i|) (fun i => |t i|) n := h1.nonneg
    have hle := firScalar_abs_mono x t hn
    have e : firScalar (fun i => |x i|) (fun i => |t i|) (n + 1) = firScalar (fun i => |x i|) (fun i => |t i|) n + |x n| * |t n| := rfl
    have hm : |x n| * |t n| ≤ firScalar (fun i => |x i|) (fun i => |t i|) O := by linarith
    have h2 := Approx.mul hS (x n) (t n) (by
      have := hΩ' 1 1 (|x n| * |t n|) (by positivity) (by omega) (by omega) hm
      have h0 : 0 ≤ u * η := by positivity
      push_cast at this
      nlinarith)
    rw [firScalar, hX n (by omega), hT n (by omega)]
    have h3 := h1.add hS (h2.mono hS (show 1 ≤ n + 1 by omega) le_rfl) (by
      have := hΩ' (n + 1 + 1) (2 * n + 1 + 1) (firScalar (fun i => |x i|) (fun i => |t i|) n + |x n| * |t n|) (by positivity)
        (by omega) (by omega) (by rw [← e]; exact hle)
      exact this)
    exact h3

theorem delayedTap_abs (t : ℕ → ℚ) (O k j : ℕ) : |delayedTap t O k j| = delayedTap (fun i => |t i|) O k j := by
  unfold delayedTap
  split <;> simp

theorem delayedTap_fin {T : ℕ → Fl S} {t : ℕ → ℚ} {O : ℕ} (hT : FinSeq T t O) (k j : ℕ) :
    delayedTap T O k j = Fl.fin (delayedTap t O k j) := by
  unfold delayedTap
  split
  · exact hT _ (by omega)
  · rfl

theorem firLane_abs_nonneg (x t : ℕ → ℚ) (O k r n : ℕ) : 0 ≤ firLane (fun i => |x i|) (fun i => |t i|) O k r n := by
  induction n with
  | zero =>
    rw [firLane, ← delayedTap_abs]
    positivity
  | succ n ih =>
    rw [firLane, ← delayedTap_abs]
    positivity

theorem firLane_abs_mono (x t : ℕ → ℚ) (O k r : ℕ) {n N : ℕ} (h : n ≤ N) :
    firLane (fun i => |x i|) (fun i => |t i|) O k r n ≤ firLane (fun i => |x i|) (fun i => |t i|) O k r N := by
  induction N with
  | zero =>
    have : n = 0 := by omega
    rw [this]
  | succ N ih =>
    rcases Nat.lt_or_ge N n with h1 | h1
    · have : n = N + 1 := by omega
      rw [this]
    · refine (ih h1).trans ?_
      rw [firLane, ← delayedTap_abs]
      have : 0 ≤ |x (4 * (N + 1) + r)| * |delayedTap t O k (4 * (N + 1) + r)| := by positivity
      linarith

theorem approx_lane (hS : S.Acc u η Ω) {X T : ℕ → Fl S} {x t : ℕ → ℚ} {O N : ℕ} (hT : FinSeq T t O) (k r : ℕ) (hr : r < 4)
    (hX : FinSeq X x (4 * (N + 1)))
    (hΩ : (1 + u) ^ (N + 1) * (firLane (fun i => |x i|) (fun i => |t i|) O k r N + (2 * N + 1 : ℕ) * η) ≤ Ω) (n : ℕ) (hn : n ≤ N) :
    Approx u η (firLane X T O k r n) (firLane x t O k r n) (firLane (fun i => |x i|) (fun i => |t i|) O k r n) (n + 1) (2 * n + 1) := by
  have hu := hS.hu
  have hη := hS.hη
  have hΩ' : ∀ (a c : ℕ) (A : ℚ), 0 ≤ A → a ≤ N + 1 → c ≤ 2 * N + 1 → A ≤ firLane (fun i => |x i|) (fun i => |t i|) O k r N →
      (1 + u) ^ a * (A + c * η) ≤ Ω := by
    intro a c A h0 hk hc hA
    refine le_trans ?_ hΩ
    have p1 : (1 + u) ^ a ≤ (1 + u) ^ (N + 1) := pow_le_pow_right₀ (by linarith) hk
    have hc' : (c : ℚ) ≤ (2 * N + 1 : ℕ) := by exact_mod_cast hc
    gcongr
  have prod : ∀ j, j < 4 * (N + 1) → |x j| * |delayedTap t O k j| ≤ firLane (fun i => |x i|) (fun i => |t i|) O k r N →
      Approx u η (X j * delayedTap T O k j) (x j * delayedTap t O k j) (|x j| * delayedTap (fun i => |t i|) O k j) 1 1 := by
    intro j hj hle
    rw [hX j hj, delayedTap_fin hT, ← delayedTap_abs]
    refine Approx.mul hS _ _ ?_
    have := hΩ' 1 1 _ (by positivity) (by omega) (by omega) hle
    have h0 : 0 ≤ u * η := by positivity
    push_cast at this
    nlinarith
  induction n with
  | zero =>
    refine prod r (by omega) ?_
    have := firLane_abs_mono x t O k r (Nat.zero_le N)
    rw [delayedTap_abs]
    exact this
  | succ n ih =>
    have h1 := ih (by omega)
    have hle := firLane_abs_mono x t O k r hn
    have hp := firLane_abs_nonneg x t O k r n
    have e : firLane (fun i => |x i|) (fun i => |t i|) O k r (n + 1) =
      firLane (fun i => |x i|) (fun i => |t i|) O k r n + |x (4 * (n + 1) + r)| * |delayedTap t O k (4 * (n + 1) + r)| := by
      rw [delayedTap_abs]; rfl
    have h2 := prod (4 * (n + 1) + r) (by omega) (by linarith)
    have h3 := h1.add hS (h2.mono hS (show 1 ≤ n + 1 by omega) le_rfl) (by
      have := hΩ' (n + 1 + 1) (2 * n + 1 + 1 + 1) _ (firLane_abs_nonneg x t O k r (n + 1)) (by omega) (by omega) hle
      exact this)
    exact h3

theorem approx_vector (hS : S.Acc u η Ω) {X T : ℕ → Fl S} {x t : ℕ → ℚ} {O : ℕ} (hO : 2 ≤ O) (hT : FinSeq T t O) (k : ℕ)
    (hX : FinSeq X x (4 * ((O + 6) / 4)))
    (hΩ : (1 + u) ^ (O + 3) * (firVector (fun i => |x i|) (fun i => |t i|) O k + (2 * O + 11 : ℕ) * η) ≤ Ω) :
    Approx u η (firVector X T O k) (firVector x t O k) (firVector (fun i => |x i|) (fun i => |t i|) O k) (O + 3) (2 * O + 11) := by
  have hu := hS.hu
  have hη := hS.hη
  unfold firVector at *
  generalize hN : (O + 6) / 4 - 1 = N at *
  have hN' : (O + 6) / 4 = N + 1 := by omega
  rw [hN'] at hX
  have hpos := fun r => firLane_abs_nonneg x t O k r N
  have hΩ' : ∀ (a c : ℕ) (A : ℚ), 0 ≤ A → a ≤ O + 3 → c ≤ 2 * O + 11 →
      A ≤ firLane (fun i => |x i|) (fun i => |t i|) O k 0 N + firLane (fun i => |x i|) (fun i => |t i|) O k 1 N +
        firLane (fun i => |x i|) (fun i => |t i|) O k 2 N + firLane (fun i => |x i|) (fun i => |t i|) O k 3 N →
      (1 + u) ^ a * (A + c * η) ≤ Ω := by
    intro a c A h0 hk hc hA
    refine le_trans ?_ hΩ
    have p1 : (1 + u) ^ a ≤ (1 + u) ^ (O + 3) := pow_le_pow_right₀ (by linarith) hk
    have hc' : (c : ℚ) ≤ (2 * O + 11 : ℕ) := by exact_mod_cast hc
    gcongr
  have p0 := hpos 0
  have p1 := hpos 1
  have p2 := hpos 2
  have p3 := hpos 3
  have lane := fun r (hr : r < 4) (hA : firLane (fun i => |x i|) (fun i => |t i|) O k r N ≤
        firLane (fun i => |x i|) (fun i => |t i|) O k 0 N + firLane (fun i => |x i|) (fun i => |t i|) O k 1 N +
        firLane (fun i => |x i|) (fun i => |t i|) O k 2 N + firLane (fun i => |x i|) (fun i => |t i|) O k 3 N) =>
    approx_lane hS hT k r hr hX (hΩ' _ _ _ (hpos r) (by omega) (by omega) hA) N le_rfl
  have l0 := lane 0 (by omega) (by linarith)
  have l1 := lane 1 (by omega) (by linarith)
  have l2 := lane 2 (by omega) (by linarith)
  have l3 := lane 3 (by omega) (by linarith)
  have a1 := l0.add hS l1 (hΩ' _ _ _ (by linarith) (by omega) (by omega) (by linarith))
  have a2 := a1.add hS (l2.mono hS (show N + 1 ≤ N + 1 + 1 by omega) le_rfl) (hΩ' _ _ _ (by linarith) (by omega) (by omega) (by linarith))
  have a3 := a2.add hS (l3.mono hS (show N + 1 ≤ N + 1 + 1 + 1 by omega) le_rfl) (hΩ' _ _ _ (by linarith) (by omega) (by omega) le_rfl)
  exact a3.mono hS (by omega) (by omega)

/-- Rounding errors of a dot product, in whichever order it is computed. -/
theorem FirVal.approx (hS : S.Acc u η Ω) {vec : Bool} {X T : ℕ → Fl S} {x t : ℕ → ℚ} {O N m : ℕ} (hO : 2 ≤ O) (hT : FinSeq T t O)
    (hX : FinSeq X x N) (hm : m + O ≤ N)
    (hΩ : (1 + u) ^ (O + 3) * (∑ i ∈ range O, |t i| * |x (m + i)| + (2 * O + 11 : ℕ) * η) ≤ Ω) {v : Fl S} (h : FirVal vec T O X N m v) :
    Approx u η v (∑ i ∈ range O, t i * x (m + i)) (∑ i ∈ range O, |t i| * |x (m + i)|) (O + 3) (2 * O + 11) := by
  have hu := hS.hu
  have hη := hS.hη
  rcases h with rfl | ⟨-, k, hk, hkm, hN, rfl⟩
  · have := approx_scalar hS (X := fun i => X (m + i)) (x := fun i => x (m + i)) (fun i hi => hX _ (by omega)) hT (by
      refine le_trans ?_ hΩ
      rw [firScalar_eq_sum]
      have p1 : (1 + u) ^ (O + 1) ≤ (1 + u) ^ (O + 3) := pow_le_pow_right₀ (by linarith) (by omega)
      have hc' : ((2 * O : ℕ) : ℚ) ≤ (2 * O + 11 : ℕ) := by exact_mod_cast (by omega)
      have : 0 ≤ ∑ i ∈ range O, |t i| * |x (m + i)| := sum_nonneg fun _ _ => by positivity
      gcongr) O le_rfl
    rw [firScalar_eq_sum, firScalar_eq_sum] at this
    exact this.mono hS (by omega) (by omega)
  · have e : ∀ x t : ℕ → ℚ, firVector (fun i => x (m - k + i)) t O k = ∑ i ∈ range O, t i * x (m + i) := by
      intro x t
      rw [firVector_eq_sum _ _ _ _ hk]
      refine sum_congr rfl fun i _ => ?_
      congr 2
      omega
    have := approx_vector hS (X := fun i => X (m - k + i)) (x := fun i => x (m - k + i)) hO hT k (fun i hi => hX _ (by omega)) (by
      rw [e (fun i => |x i|) (fun i => |t i|)]
      exact hΩ)
    rw [e x t, e (fun i => |x i|) (fun i => |t i|)] at this
    exact this


/-! ## Stages -/

theorem seq_fin (xs : List ℚ) (n : ℕ) : seq (xs.map fun q => (Fl.fin q : Fl S)) n = Fl.fin (seq xs n) := by
  unfold seq
  rw [List.getD_eq_getElem?_getD, List.getD_eq_getElem?_getD, List.getElem?_map]
  cases xs[n]? <;> rfl

theorem padded_fin {X : ℕ → Fl S} {x : ℕ → ℚ} (h : ∀ n, X n = Fl.fin (x n)) (O k : ℕ) : padded O X k = Fl.fin (padded O x k) := by
  unfold padded
  split
  · rfl
  · exact h _

theorem exists_fin_list (ys : List (Fl S)) (h : ∀ n < ys.length, ∃ y, seq ys n = Fl.fin y) :
    ∃ yq : List ℚ, ys = yq.map fun q => (Fl.fin q : Fl S) := by
  induction ys with
  | nil => exact ⟨[], rfl⟩
  | cons a l ih =>
    obtain ⟨y, hy⟩ := h 0 (by simp)
    obtain ⟨yq, hq⟩ := ih fun n hn => h (n + 1) (by simpa using hn)
    exact ⟨y :: yq, by rw [List.map_cons, ← hq]; congr 1⟩

theorem zext_abs (x : ℕ → ℚ) (z : ℤ) : zext (fun i => |x i|) z = |zext x z| := by
  unfold zext
  split <;> simp

theorem firUp_round (hS : S.Acc u η Ω) {vec : Bool} {tq xs : List ℚ} {ys : List (Fl S)} (hO : 2 ≤ tq.length)
    (h : Stage.Rel (.firUp vec (tq.map fun q => (Fl.fin q : Fl S))) (xs.map fun q => Fl.fin q) ys)
    (hΩ : ∀ n < 2 * xs.length, (1 + u) ^ (tq.length + 4) *
      (firUpOp tq.length (fun i => |seq tq i|) (fun i => |seq xs i|) n + (2 * tq.length + 13 : ℕ) * η) ≤ Ω) :
    ∃ yq : List ℚ, ys = yq.map (fun q => Fl.fin q) ∧ yq.length = 2 * xs.length ∧
      ∀ n < yq.length, |seq yq n - firUpOp tq.length (seq tq) (seq xs) n| ≤
        ((1 + u) ^ (tq.length + 4) - 1) * firUpOp tq.length (fun i => |seq tq i|) (fun i => |seq xs i|) n +
          (2 * tq.length + 13 : ℕ) * η * (1 + u) ^ (tq.length + 4) := by
  have hu := hS.hu
  have hη := hS.hη
  obtain ⟨hl, hy⟩ := h
  simp only [List.length_map] at hl hy
  have main : ∀ n < ys.length, Approx u η (seq ys n) (firUpOp tq.length (seq tq) (seq xs) n)
      (firUpOp tq.length (fun i => |seq tq i|) (fun i => |seq xs i|) n) (tq.length + 4) (2 * tq.length + 13) := by
    intro n hn
    obtain ⟨h1, h2⟩ := hy (n / 2) (by omega)
    have hΩn := hΩ n (by omega)
    unfold firUpOp at hΩn ⊢
    by_cases he : n % 2 = 0
    · rw [if_pos he] at hΩn ⊢
      rw [if_pos he]
      rw [show 2 * (n / 2) = n by omega] at h1
      have e1 : ∀ i, (n / 2 : ℕ) - ((tq.length : ℤ) - 1) + i = ((n / 2 + i : ℕ) : ℤ) - ((tq.length : ℤ) - 1) := by intro i; omega
      simp only [e1] at hΩn ⊢
      have e2 : ∀ i, zext (seq xs) (((n / 2 + i : ℕ) : ℤ) - ((tq.length : ℤ) - 1)) = padded tq.length (seq xs) (n / 2 + i) := by
        intro i
        rw [padded_eq_zext (by omega)]
      simp only [zext_abs, e2] at hΩn ⊢
      have := FirVal.approx hS (t := seq tq) (x := padded tq.length (seq xs)) hO (fun i _ => seq_fin tq i)
        (fun i _ => padded_fin (seq_fin xs) _ i) (by omega) (by
          refine le_trans ?_ hΩn
          have p1 : (1 + u) ^ (tq.length + 3) ≤ (1 + u) ^ (tq.length + 4) := pow_le_pow_right₀ (by linarith) (by omega)
          have hc' : ((2 * tq.length + 11 : ℕ) : ℚ) ≤ (2 * tq.length + 13 : ℕ) := by exact_mod_cast (by omega)
          have : 0 ≤ ∑ i ∈ range tq.length, |seq tq i| * |padded tq.length (seq xs) (n / 2 + i)| := sum_nonneg fun _ _ => by positivity
          gcongr) h1
      exact this.mono hS (by omega) (by omega)
    · rw [if_neg he, if_neg he]
      rw [show 2 * (n / 2) + 1 = n by omega] at h2
      rw [h2, padded_fin (seq_fin xs), padded_eq_zext (by omega), zext_abs]
      have e : ((n / 2 : ℕ) : ℤ) - ((tq.length : ℤ) - 1) + (tq.length / 2 : ℕ) = ((n / 2 + tq.length / 2 : ℕ) : ℤ) - ((tq.length : ℤ) - 1) := by
        push_cast
        ring
      rw [e]
      have e' : (tq.length : ℤ) - 1 = ((tq.length - 1 : ℕ) : ℤ) := by omega
      have : Approx u η (Fl.fin (zext (seq xs) (((n / 2 + tq.length / 2 : ℕ) : ℤ) - ((tq.length : ℤ) - 1))) : Fl S)
        (zext (seq xs) (((n / 2 + tq.length / 2 : ℕ) : ℤ) - ((tq.length : ℤ) - 1)))
        |zext (seq xs) (((n / 2 + tq.length / 2 : ℕ) : ℤ) - ((tq.length : ℤ) - 1))| 0 0 := ⟨_, rfl, le_rfl, by simp⟩
      exact this.mono hS (by omega) (by omega)
  obtain ⟨yq, rfl⟩ := exists_fin_list ys fun n hn => (main n hn).imp fun y hy => hy.1
  simp only [List.length_map] at hl main
  refine ⟨yq, rfl, hl, fun n hn => ?_⟩
  obtain ⟨y, h1, -, h2⟩ := main n hn
  rw [seq_fin] at h1
  obtain rfl := Option.some.inj h1
  exact h2

theorem firDown_round (hS : S.Acc u η Ω) {vec : Bool} {tq xs : List ℚ} {ys : List (Fl S)} (hO : 2 ≤ tq.length)
    (h : Stage.Rel (.firDown vec (tq.map fun q => (Fl.fin q : Fl S))) (xs.map fun q => Fl.fin q) ys)
    (hΩ : ∀ n < xs.length / 2, (1 + u) ^ (tq.length + 4) *
      (firDownOp tq.length (fun i => |seq tq i|) (1 / 2) (fun i => |seq xs i|) n + (2 * tq.length + 13 : ℕ) * η) ≤ Ω) :
    ∃ yq : List ℚ, ys = yq.map (fun q => Fl.fin q) ∧ xs.length = 2 * yq.length ∧
      ∀ n < yq.length, |seq yq n - firDownOp tq.length (seq tq) (1 / 2) (seq xs) n| ≤
        ((1 + u) ^ (tq.length + 4) - 1) * firDownOp tq.length (fun i => |seq tq i|) (1 / 2) (fun i => |seq xs i|) n +
          (2 * tq.length + 13 : ℕ) * η * (1 + u) ^ (tq.length + 4) := by
  have hu := hS.hu
  have hη := hS.hη
  obtain ⟨hl, hy⟩ := h
  simp only [List.length_map] at hl hy
  have main : ∀ n < ys.length, Approx u η (seq ys n) (firDownOp tq.length (seq tq) (1 / 2) (seq xs) n)
      (firDownOp tq.length (fun i => |seq tq i|) (1 / 2) (fun i => |seq xs i|) n) (tq.length + 4) (2 * tq.length + 13) := by
    intro n hn
    obtain ⟨v, h1, h2⟩ := hy n hn
    have hΩn := hΩ n (by omega)
    unfold firDownOp at hΩn ⊢
    have e1 : ∀ i : ℕ, zext (seq xs) (2 * (n - ((tq.length : ℤ) - 1) + i)) = padded tq.length (evens (seq xs)) (n + i) := by
      intro i
      rw [padded_eq_zext (by omega), zext_evens]
      congr 1
      omega
    have e2 : zext (seq xs) (2 * (n - ((tq.length : ℤ) - 1) + (tq.length / 2 : ℕ) - 1) + 1) =
        padded tq.length (odds (seq xs)) (n + (tq.length / 2 - 1)) := by
      rw [padded_eq_zext (by omega), zext_odds]
      congr 1
      omega
    simp only [zext_abs, e1, e2] at hΩn ⊢
    generalize hB : ∑ i ∈ range tq.length, |seq tq i| * |padded tq.length (evens (seq xs)) (n + i)| = B at hΩn ⊢
    have hB0 : 0 ≤ B := by rw [← hB]; exact sum_nonneg fun _ _ => by positivity
    generalize hw : padded tq.length (odds (seq xs)) (n + (tq.length / 2 - 1)) = w at hΩn ⊢
    have hΩ' : ∀ (a c : ℕ) (A : ℚ), 0 ≤ A → a ≤ tq.length + 4 → c ≤ 2 * tq.length + 13 → A ≤ B + 1 / 2 * |w| →
        (1 + u) ^ a * (A + c * η) ≤ Ω := by
      intro a c A h0 hk hc hA
      refine le_trans ?_ hΩn
      have p1 : (1 + u) ^ a ≤ (1 + u) ^ (tq.length + 4) := pow_le_pow_right₀ (by linarith) hk
      have hc' : (c : ℚ) ≤ (2 * tq.length + 13 : ℕ) := by exact_mod_cast hc
      gcongr
    have hw0 : 0 ≤ 1 / 2 * |w| := by positivity
    have a1 := FirVal.approx hS (t := seq tq) (x := padded tq.length (evens (seq xs))) hO (fun i _ => seq_fin tq i)
      (fun i _ => padded_fin (fun n => seq_fin xs (2 * n)) _ i) (by omega) (by
        rw [hB]
        exact hΩ' _ _ _ hB0 (by omega) (by omega) (by linarith)) h1
    rw [hB] at a1
    have a2 : Approx u η (Sample.half * (Fl.fin w) : Fl S) (1 / 2 * w) (1 / 2 * |w|) 1 1 := by
      have := Approx.mul hS (1 / 2) w (by
        have := hΩ' 1 1 (1 / 2 * |w|) hw0 (by omega) (by omega) (by linarith)
        have h0 : 0 ≤ u * η := by positivity
        rw [abs_of_pos (show (0 : ℚ) < 1 / 2 by norm_num)]
        push_cast at this
        nlinarith)
      rw [abs_of_pos (show (0 : ℚ) < 1 / 2 by norm_num)] at this
      exact this
    have ew : padded tq.length (odds (seq (xs.map fun q => (Fl.fin q : Fl S)))) (n + (tq.length / 2 - 1)) = Fl.fin w := by
      rw [← hw]
      exact padded_fin (fun n => seq_fin xs (2 * n + 1)) _ _
    rw [h2, ew]
    have a2' := a2.mono hS (show 1 ≤ tq.length + 3 by omega) le_rfl
    have hle := hΩ' (tq.length + 3 + 1) (2 * tq.length + 11 + 1 + 1) (B + 1 / 2 * |w|) (by linarith) (by omega) (by omega) le_rfl
    have a3 := a1.add hS a2' hle
    exact a3.mono hS (by omega) (by omega)
  obtain ⟨yq, rfl⟩ := exists_fin_list ys fun n hn => (main n hn).imp fun y hy => hy.1
  simp only [List.length_map] at hl main
  refine ⟨yq, rfl, hl, fun n hn => ?_⟩
  obtain ⟨y, h1, -, h2⟩ := main n hn
  rw [seq_fin] at h1
  obtain rfl := Option.some.inj h1
  exact h2

end Panda
