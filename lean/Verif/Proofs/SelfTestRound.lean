import Verif.Proofs.SelfTest
import Verif.Proofs.Rounding
import Verif.Proofs.IirFinite

/-!
# The self test in binary32 and binary64: how large `avg_diff` can get
-/

namespace Panda

open Finset

/-! ## binary64 -/

theorem rnd64_err (q : ℚ) : |rnd64 q - q| ≤ 2⁻¹ ^ 53 * |q| + 2⁻¹ ^ 150 := by
  unfold rnd64
  split_ifs with h
  · rw [h]; norm_num
  · have hp : (0 : ℚ) < 2 ^ ulpExp64 q := by positivity
    have e : ((rne (q / 2 ^ ulpExp64 q) : ℤ) : ℚ) * 2 ^ ulpExp64 q - q = ((rne (q / 2 ^ ulpExp64 q) : ℚ) - q / 2 ^ ulpExp64 q) * 2 ^ ulpExp64 q := by
      field_simp
    rw [e, abs_mul, abs_of_pos hp]
    have h1 := rne_err (q / 2 ^ ulpExp64 q)
    have h2 : |(rne (q / 2 ^ ulpExp64 q) : ℚ) - q / 2 ^ ulpExp64 q| * 2 ^ ulpExp64 q ≤ 1 / 2 * 2 ^ ulpExp64 q := by gcongr
    refine h2.trans ?_
    unfold ulpExp64
    rcases max_choice (ilog2 q - 52) (-1074) with hm | hm <;> rw [hm]
    · have := (ilog2_spec h).1
      have e : (1 / 2 : ℚ) * 2 ^ (ilog2 q - 52) = 2⁻¹ ^ 53 * 2 ^ ilog2 q := by
        rw [zpow_sub₀ (by norm_num)]; norm_num; ring
      rw [e]
      have h3 : (2⁻¹ : ℚ) ^ 53 * 2 ^ ilog2 q ≤ 2⁻¹ ^ 53 * |q| := by gcongr
      have : (0 : ℚ) ≤ 2⁻¹ ^ 150 := by positivity
      linarith
    · have h4 : (2 : ℚ) ^ (-1074 : ℤ) ≤ 2 ^ (-150 : ℤ) := zpow_le_zpow_right₀ (by norm_num) (by norm_num)
      have h5 : (2 : ℚ) ^ (-150 : ℤ) = 2⁻¹ ^ 150 := by norm_num
      have : (0 : ℚ) ≤ 2⁻¹ ^ 53 * |q| := by positivity
      have h6 : (0 : ℚ) < 2 ^ (-1074 : ℤ) := by positivity
      rw [← h5]
      generalize (2 : ℚ) ^ (-1074 : ℤ) = z at *
      generalize (2 : ℚ) ^ (-150 : ℤ) = z' at *
      linarith

theorem binary64_acc : binary64.Acc (2⁻¹ ^ 53) (2⁻¹ ^ 150) (2 ^ 100) :=
  ⟨by positivity, by positivity, rnd64_err, fun q hq => by
    simp only [binary64, decide_eq_true_eq]
    refine lt_of_le_of_lt hq ?_
    rw [← pow_mul]
    exact pow_lt_pow_right₀ (by norm_num) (by norm_num)⟩

/-- A number up to a power of two is rounded to a number up to this power of two. -/
theorem rnd64_le_pow {q : ℚ} {b : ℤ} (hb : -1074 ≤ b) (h : |q| ≤ 2 ^ b) : |rnd64 q| ≤ 2 ^ b := by
  by_cases h0 : q = 0
  · rw [h0]
    simp only [rnd64, if_true, abs_zero]
    positivity
  rcases lt_or_ge |q| (2 ^ b) with hlt | hge
  · have h1 : ilog2 q < b := (zpow_lt_zpow_iff_right₀ (by norm_num : (1 : ℚ) < 2)).1 ((ilog2_spec h0).1.trans_lt hlt)
    have hu : ulpExp64 q ≤ b := by
      unfold ulpExp64
      omega
    obtain ⟨m, hm⟩ := Int.eq_ofNat_of_zero_le (show 0 ≤ b - ulpExp64 q by omega)
    have hu0 : (0 : ℚ) < 2 ^ ulpExp64 q := by positivity
    have e : (2 : ℚ) ^ b = ((2 ^ m : ℕ) : ℚ) * 2 ^ ulpExp64 q := by
      push_cast
      rw [← zpow_natCast, ← zpow_add₀ (by norm_num)]
      congr 1
      have : (m : ℤ) = b - ulpExp64 q := hm.symm
      omega
    unfold rnd64
    rw [if_neg h0, abs_mul, abs_of_pos hu0, e]
    refine mul_le_mul_of_nonneg_right (rne_abs_le ?_) hu0.le
    rw [abs_div, abs_of_pos hu0, div_lt_iff₀ hu0]
    rw [e] at hlt
    linarith
  · have hq : |q| = 2 ^ b := le_antisymm h hge
    have h1 : ilog2 q = b := ilog2_unique hge (by rw [hq]; exact zpow_lt_zpow_right₀ (by norm_num) (by omega))
    have hu : ulpExp64 q ≤ b := by
      unfold ulpExp64
      omega
    obtain ⟨m, hm⟩ := Int.eq_ofNat_of_zero_le (show 0 ≤ b - ulpExp64 q by omega)
    have hu0 : (0 : ℚ) < 2 ^ ulpExp64 q := by positivity
    have e : (2 : ℚ) ^ b = ((2 ^ m : ℕ) : ℚ) * 2 ^ ulpExp64 q := by
      push_cast
      rw [← zpow_natCast, ← zpow_add₀ (by norm_num)]
      congr 1
      have : (m : ℤ) = b - ulpExp64 q := hm.symm
      omega
    unfold rnd64
    rw [if_neg h0, abs_mul, abs_of_pos hu0, e]
    refine mul_le_mul_of_nonneg_right (rne_abs_le ?_) hu0.le
    rw [abs_div, abs_of_pos hu0, div_lt_iff₀ hu0, hq, e]
    linarith

theorem rnd64_nonneg {q : ℚ} (h : 0 ≤ q) : 0 ≤ rnd64 q := by
  unfold rnd64
  split_ifs
  · exact le_rfl
  · have h1 : 0 ≤ ⌊q / 2 ^ ulpExp64 q⌋ := Int.floor_nonneg.2 (by positivity)
    have h2 : 0 ≤ rne (q / 2 ^ ulpExp64 q) := by
      unfold rne
      simp only
      split_ifs <;> omega
    have : (0 : ℚ) ≤ rne (q / 2 ^ ulpExp64 q) := by exact_mod_cast h2
    positivity

/-- The random samples of the test are numbers between -1 and 1. -/
theorem randSample_range {r : ℕ} (hr : r ≤ 2 ^ 31 - 1) : ∃ q, randSample (2 ^ 31 - 1) r = Fl.fin q ∧ |q| ≤ 1 := by
  unfold randSample
  have e : rnd64 (1 / 2 * ((2 ^ 31 - 1 : ℕ) : ℚ)) = 1 / 2 * ((2 ^ 31 - 1 : ℕ) : ℚ) := by decide +kernel
  rw [e]
  have hq : |(r : ℚ) / (1 / 2 * ((2 ^ 31 - 1 : ℕ) : ℚ))| ≤ 2 ^ (1 : ℤ) := by
    rw [abs_of_nonneg (by positivity), div_le_iff₀ (by norm_num)]
    have : (r : ℚ) ≤ ((2 ^ 31 - 1 : ℕ) : ℚ) := by exact_mod_cast hr
    norm_num at this ⊢
    linarith
  have h1 := rnd64_le_pow (by norm_num) hq
  have h2 : 0 ≤ rnd64 ((r : ℚ) / (1 / 2 * ((2 ^ 31 - 1 : ℕ) : ℚ))) := rnd64_nonneg (by positivity)
  rw [abs_of_nonneg h2, zpow_one] at h1
  have h3 := rnd64_le_pow (q := 1 - rnd64 ((r : ℚ) / (1 / 2 * ((2 ^ 31 - 1 : ℕ) : ℚ)))) (b := 0) (by norm_num) (by
    rw [zpow_zero, abs_le]
    constructor <;> linarith)
  have h4 := rnd32_le_pow (q := rnd64 (1 - rnd64 ((r : ℚ) / (1 / 2 * ((2 ^ 31 - 1 : ℕ) : ℚ))))) (b := 0) (by norm_num)
    (lt_of_le_of_lt h3 (by norm_num))
  rw [zpow_zero] at h4
  refine ⟨_, mk_fin (binary32_acc (Ω := 2 ^ 127) (by norm_num)) ?_, h4⟩
  rw [zpow_zero] at h3
  generalize |rnd64 (1 - rnd64 ((r : ℚ) / (1 / 2 * ((2 ^ 31 - 1 : ℕ) : ℚ))))| = z at *
  norm_num
  linarith

/-! ## Sums of given products -/

variable {S : Format} {u η Ω : ℚ}

theorem Approx.fin (p : ℚ) : Approx u η (Fl.fin p : Fl S) p |p| 0 0 := ⟨p, rfl, le_rfl, by simp⟩

/-- `Ω` is large enough. -/
def Room (u η Ω A : ℚ) (k c : ℕ) : Prop := (1 + u) ^ k * (A + c * η) ≤ Ω

theorem Room.mono (hS : S.Acc u η Ω) {A A' : ℚ} {k c k' c' : ℕ} (h : Room u η Ω A k c) (h0 : 0 ≤ A') (hA : A' ≤ A) (hk : k' ≤ k) (hc : c' ≤ c) :
    Room u η Ω A' k' c' := by
  have hu := hS.hu
  have hη := hS.hη
  refine le_trans ?_ h
  have p1 : (1 + u) ^ k' ≤ (1 + u) ^ k := pow_le_pow_right₀ (by linarith) hk
  have hc' : (c' : ℚ) ≤ c := by exact_mod_cast hc
  gcongr

theorem ofF_fin (p : ℚ) : wide64.ofF (Fl.fin p) = (Fl.fin p : Fl binary64) := by
  unfold Fl.fin
  exact (rfl : (some p : Option ℚ) = some p)

theorem wideSum_succ64 (X T : ℕ → Fl binary32) {p : ℚ} {n : ℕ} (h : X n * T n = Fl.fin p) :
    wideSum wide64 X T (n + 1) = (wideSum wide64 X T n + Fl.fin p : Fl binary64) := by
  have e : wideSum wide64 X T (n + 1) = wide64.add (wideSum wide64 X T n) (wide64.ofF (X n * T n)) := rfl
  rw [e, h, ofF_fin]
  rfl

theorem wideSum_approx (hS : binary64.Acc u η Ω) {X T : ℕ → Fl binary32} {pr : ℕ → ℚ} {O : ℕ} (hp : ∀ i < O, X i * T i = Fl.fin (pr i))
    (hΩ : Room u η Ω (∑ i ∈ range O, |pr i|) O O) (n : ℕ) (hn : n ≤ O) :
    Approx u η (wideSum wide64 X T n) (∑ i ∈ range n, pr i) (∑ i ∈ range n, |pr i|) n n := by
  induction n with
  | zero => exact Approx.zero
  | succ n ih =>
    have h1 := ih (by omega)
    have h2 : Approx (S := binary64) u η (Fl.fin (pr n)) (pr n) |pr n| n 0 := (Approx.fin (pr n)).mono hS (Nat.zero_le _) le_rfl
    have e0 : wideSum wide64 X T (n + 1) = (wideSum wide64 X T n + Fl.fin (pr n) : Fl binary64) := wideSum_succ64 X T (hp n (by omega))
    rw [sum_range_succ, sum_range_succ, e0]
    have e : ∑ i ∈ range n, |pr i| + |pr n| = ∑ i ∈ range (n + 1), |pr i| := (sum_range_succ _ _).symm
    have hr : Room u η Ω (∑ i ∈ range n, |pr i| + |pr n|) (n + 1) (n + 0 + 1) := hΩ.mono hS (by positivity)
      (by rw [e]; exact sum_le_sum_of_subset_of_nonneg (range_mono hn) fun _ _ _ => abs_nonneg _) hn (by omega)
    have h3 := h1.add hS h2 hr
    exact h3

/-- A product of the vector code: one of the products of the scalar code, or zero. -/
theorem vec_prod (hS : S.Acc u η Ω) (hΩ0 : η ≤ Ω) (h0 : S.rnd 0 = 0) {X T : ℕ → Fl S} {x pr : ℕ → ℚ} {O k M : ℕ} (hX : FinSeq X x M)
    (hp : ∀ i < O, X (k + i) * T i = Fl.fin (pr i)) {m : ℕ} (hm : m < M) :
    X m * delayedTap T O k m = Fl.fin (pr (m - k) * delayedTap (fun _ => 1) O k m) := by
  unfold delayedTap
  split_ifs with h
  · rw [mul_one, ← hp (m - k) h.2, show k + (m - k) = m by omega]
  · rw [hX m hm, mul_zero]
    show Fl.mk S (x m * 0) = _
    rw [mul_zero, mk_fin hS (by rw [abs_zero, mul_zero, zero_add]; exact hΩ0), h0]

theorem lane_approx (hS : S.Acc u η Ω) {X T : ℕ → Fl S} {z : ℕ → ℚ} {O k r N : ℕ}
    (hp : ∀ m < 4 * (N + 1), X m * delayedTap T O k m = Fl.fin (z m * delayedTap (fun _ => 1) O k m)) (hr : r < 4)
    (hΩ : Room u η Ω (firLane (fun i => |z i|) (fun _ => |1|) O k r N) N N) (n : ℕ) (hn : n ≤ N) :
    Approx u η (firLane X T O k r n) (firLane z (fun _ => 1) O k r n) (firLane (fun i => |z i|) (fun _ => |1|) O k r n) n n := by
  have one : ∀ m < 4 * (N + 1), Approx u η (X m * delayedTap T O k m) (z m * delayedTap (fun _ => 1) O k m)
      (|z m| * delayedTap (fun _ => |1|) O k m) 0 0 := by
    intro m hm
    rw [hp m hm, ← delayedTap_abs, ← abs_mul]
    exact Approx.fin _
  induction n with
  | zero => exact one r (by omega)
  | succ n ih =>
    have h3 := (ih (by omega)).add hS ((one (4 * (n + 1) + r) (by omega)).mono hS (Nat.zero_le n) le_rfl)
      (hΩ.mono hS (firLane_abs_nonneg z (fun _ => 1) O k r (n + 1)) (firLane_abs_mono z (fun _ => 1) O k r hn) hn (by omega))
    exact h3

theorem vector_approx (hS : S.Acc u η Ω) {X T : ℕ → Fl S} {z : ℕ → ℚ} {O k : ℕ}
    (hp : ∀ m < 4 * ((O + 6) / 4), X m * delayedTap T O k m = Fl.fin (z m * delayedTap (fun _ => 1) O k m))
    (hΩ : Room u η Ω (firVector (fun i => |z i|) (fun _ => |1|) O k) ((O + 6) / 4 + 2) (O + 8)) :
    Approx u η (firVector X T O k) (firVector z (fun _ => 1) O k) (firVector (fun i => |z i|) (fun _ => |1|) O k) ((O + 6) / 4 + 2) (O + 8) := by
  unfold firVector at *
  generalize hN : (O + 6) / 4 - 1 = N at *
  have hN' : (O + 6) / 4 = N + 1 := by omega
  rw [hN'] at hp hΩ ⊢
  have p0 := firLane_abs_nonneg z (fun _ => 1) O k 0 N
  have p1 := firLane_abs_nonneg z (fun _ => 1) O k 1 N
  have p2 := firLane_abs_nonneg z (fun _ => 1) O k 2 N
  have p3 := firLane_abs_nonneg z (fun _ => 1) O k 3 N
  have l0 := lane_approx hS hp (r := 0) (by omega) (hΩ.mono hS p0 (by linarith) (by omega) (by omega)) N le_rfl
  have l1 := lane_approx hS hp (r := 1) (by omega) (hΩ.mono hS p1 (by linarith) (by omega) (by omega)) N le_rfl
  have l2 := lane_approx hS hp (r := 2) (by omega) (hΩ.mono hS p2 (by linarith) (by omega) (by omega)) N le_rfl
  have l3 := lane_approx hS hp (r := 3) (by omega) (hΩ.mono hS p3 (by linarith) (by omega) (by omega)) N le_rfl
  have a1 := l0.add hS l1 (hΩ.mono hS (by linarith) (by linarith) (by omega) (by omega))
  have a2 := a1.add hS (l2.mono hS (show N ≤ N + 1 by omega) le_rfl) (hΩ.mono hS (by linarith) (by linarith) (by omega) (by omega))
  have a3 := a2.add hS (l3.mono hS (show N ≤ N + 1 + 1 by omega) le_rfl) (hΩ.mono hS (by linarith) le_rfl (by omega) (by omega))
  exact a3.mono hS (by omega) (by omega)

/-! ## The average difference -/

/-- What is compared with the tolerance. -/
def testAvg {F D : Type} [Zero F] [Add F] [Mul F] [Sample F] (w : Wide F D) (rand : ℕ → F) (order : ℕ) : D :=
  w.divN (w.add (w.add (w.add (w.add w.zero (testDiff w rand order 0)) (testDiff w rand order 1)) (testDiff w rand order 2))
    (testDiff w rand order 3)) (order + 1)

/-- Sum of the magnitudes of the products. -/
def testMag (O : ℕ) : ℚ := (1 + 2⁻¹ ^ 24) * (O * (O + 1) / 2) + O * 2⁻¹ ^ 150

/-- A bound for one difference. -/
def diffBound (O : ℕ) : ℚ :=
  ((1 + 2⁻¹ ^ 53) ^ O - 1) * testMag O + O * 2⁻¹ ^ 150 * (1 + 2⁻¹ ^ 53) ^ O +
  (((1 + 2⁻¹ ^ 24) ^ ((O + 6) / 4 + 2) - 1) * testMag O + (O + 8 : ℕ) * 2⁻¹ ^ 150 * (1 + 2⁻¹ ^ 24) ^ ((O + 6) / 4 + 2))

/-- What the four differences add up to, divided by `order + 1`. -/
def avgBound (O : ℕ) : ℚ := (1 + 2⁻¹ ^ 49) * (4 * diffBound O / (O + 1)) + 2⁻¹ ^ 140

theorem testTap_fin {i : ℕ} (hi : i < 64) : (testTap i : Fl binary32) = Fl.fin ((i + 1 : ℕ) : ℚ) := by
  have : ∀ i < 64, (testTap i : Fl binary32) = Fl.fin ((i + 1 : ℕ) : ℚ) := by decide +kernel
  exact this i hi

theorem test_prod {q : ℚ} (hq : |q| ≤ 1) {i : ℕ} (hi : i < 64) :
    ∃ p, (Fl.fin q * testTap i : Fl binary32) = Fl.fin p ∧ |p| ≤ (1 + 2⁻¹ ^ 24) * (i + 1) + 2⁻¹ ^ 150 := by
  have hm : |q * ((i + 1 : ℕ) : ℚ)| ≤ (i + 1 : ℚ) := by
    rw [abs_mul, abs_of_nonneg (by positivity : (0 : ℚ) ≤ ((i + 1 : ℕ) : ℚ))]
    push_cast
    nlinarith [abs_nonneg q, (by positivity : (0 : ℚ) ≤ i)]
  have hi' : (i : ℚ) < 64 := by exact_mod_cast hi
  have hacc := binary32_acc (Ω := 2 ^ 127) (by norm_num)
  rw [testTap_fin hi]
  refine ⟨binary32.rnd (q * ((i + 1 : ℕ) : ℚ)), mk_fin hacc ?_, (rnd_bound hacc _).trans ?_⟩
  · generalize |q * ((i + 1 : ℕ) : ℚ)| = z at *
    norm_num
    linarith
  · refine add_le_add (mul_le_mul_of_nonneg_left hm (by positivity)) le_rfl

theorem testMag_le {pr : ℕ → ℚ} {O : ℕ} (h : ∀ i < O, |pr i| ≤ (1 + 2⁻¹ ^ 24) * (i + 1) + 2⁻¹ ^ 150) :
    ∑ i ∈ range O, |pr i| ≤ testMag O := by
  induction O with
  | zero => simp [testMag]
  | succ O ih =>
    rw [sum_range_succ]
    refine (add_le_add (ih fun i hi => h i (by omega)) (h O (by omega))).trans (le_of_eq ?_)
    unfold testMag
    push_cast
    ring

/-- The room needed. -/
theorem test_room : ∀ O < 64, Room (2⁻¹ ^ 53) (2⁻¹ ^ 150) (2 ^ 100) (testMag O) O O ∧
    Room (2⁻¹ ^ 24) (2⁻¹ ^ 150) (2 ^ 100) (testMag O) ((O + 6) / 4 + 2) (O + 8) ∧ diffBound O ≤ 1 := by
  unfold Room
  decide +kernel

theorem testDiff_bound {rand : ℕ → Fl binary32} (hx : ∀ i, ∃ q, rand i = Fl.fin q ∧ |q| ≤ 1) {O : ℕ} (hO : O < 64) {j : ℕ} (hj : j < 4) :
    ∃ d, testDiff wide64 rand O j = Fl.fin d ∧ 0 ≤ d ∧ d ≤ (1 + 2⁻¹ ^ 53) * diffBound O + 2⁻¹ ^ 150 := by
  choose x hx1 hx2 using hx
  have hprod : ∀ i, ∃ p, i < O → rand (j + i) * testTap i = Fl.fin p ∧ |p| ≤ (1 + 2⁻¹ ^ 24) * (i + 1) + 2⁻¹ ^ 150 := by
    intro i
    by_cases hi : i < O
    · obtain ⟨p, h1, h2⟩ := test_prod (hx2 (j + i)) (i := i) (by omega)
      exact ⟨p, fun _ => ⟨by rw [hx1, h1], h2⟩⟩
    · exact ⟨0, fun h => absurd h hi⟩
  choose pr hpr using hprod
  have hA := testMag_le fun i hi => (hpr i hi).2
  have hA0 : 0 ≤ ∑ i ∈ range O, |pr i| := by positivity
  obtain ⟨r1, r2, r3⟩ := test_room O hO
  have hacc := binary32_acc (Ω := 2 ^ 100) (by norm_num)
  obtain ⟨w, hw, -, hw2⟩ := wideSum_approx binary64_acc (fun i hi => (hpr i hi).1) (r1.mono binary64_acc hA0 hA le_rfl le_rfl) O le_rfl
  have hz : ∀ m < 4 * ((O + 6) / 4), rand m * delayedTap testTap O j m = Fl.fin (pr (m - j) * delayedTap (fun _ => 1) O j m) :=
    fun m hm => vec_prod hacc (by norm_num) rnd32_zero (x := x) (fun i _ => hx1 i) (fun i hi => (hpr i hi).1) hm
  have e1 : firVector (fun i => |pr (i - j)|) (fun _ => |(1 : ℚ)|) O j = ∑ i ∈ range O, |pr i| := by
    rw [firVector_eq_sum _ _ _ _ hj]
    simp
  have e2 : firVector (fun i => pr (i - j)) (fun _ => (1 : ℚ)) O j = ∑ i ∈ range O, pr i := by
    rw [firVector_eq_sum _ _ _ _ hj]
    simp
  obtain ⟨y, hy, -, hy2⟩ := vector_approx hacc hz (by rw [e1]; exact r2.mono hacc hA0 hA le_rfl le_rfl)
  rw [e1, e2] at hy2
  have hd : |w - y| ≤ diffBound O := by
    have h1 : |w - y| ≤ |w - ∑ i ∈ range O, pr i| + |y - ∑ i ∈ range O, pr i| := by
      rw [show w - y = (w - ∑ i ∈ range O, pr i) - (y - ∑ i ∈ range O, pr i) by ring]
      exact abs_sub _ _
    refine h1.trans ?_
    unfold diffBound
    have p1 : (0 : ℚ) ≤ (1 + 2⁻¹ ^ 53) ^ O - 1 := sub_nonneg.2 (one_le_pow₀ (by norm_num))
    have p2 : (0 : ℚ) ≤ (1 + 2⁻¹ ^ 24) ^ ((O + 6) / 4 + 2) - 1 := sub_nonneg.2 (one_le_pow₀ (by norm_num))
    exact add_le_add (hw2.trans (add_le_add (mul_le_mul_of_nonneg_left hA p1) le_rfl))
      (hy2.trans (add_le_add (mul_le_mul_of_nonneg_left hA p2) le_rfl))
  have hm : (Fl.fin w - Fl.fin y : Fl binary64) = Fl.fin (rnd64 (w - y)) := mk_fin binary64_acc (by
    have := hd.trans r3
    generalize |w - y| = z at *
    norm_num
    linarith)
  refine ⟨|rnd64 (w - y)|, ?_, abs_nonneg _, ?_⟩
  · unfold testDiff
    rw [hw, hy, ofF_fin]
    have : wide64.sub (Fl.fin w) (Fl.fin y) = (Fl.fin (rnd64 (w - y)) : Fl binary64) := hm
    rw [this]
    rfl
  · exact (rnd_bound binary64_acc (w - y)).trans (add_le_add (mul_le_mul_of_nonneg_left hd (by positivity)) le_rfl)

theorem testAvg_bound {rand : ℕ → Fl binary32} (hx : ∀ i, ∃ q, rand i = Fl.fin q ∧ |q| ≤ 1) {O : ℕ} (hO : O < 64) :
    ∃ a, testAvg wide64 rand O = Fl.fin a ∧ a ≤ avgBound O := by
  obtain ⟨d0, a0, b0, c0⟩ := testDiff_bound hx hO (j := 0) (by omega)
  obtain ⟨d1, a1, b1, c1⟩ := testDiff_bound hx hO (j := 1) (by omega)
  obtain ⟨d2, a2, b2, c2⟩ := testDiff_bound hx hO (j := 2) (by omega)
  obtain ⟨d3, a3, b3, c3⟩ := testDiff_bound hx hO (j := 3) (by omega)
  obtain ⟨-, -, r3⟩ := test_room O hO
  have hdb : 0 ≤ diffBound O := by
    have h1 := b0.trans c0
    unfold diffBound testMag
    have p1 : (0 : ℚ) ≤ (1 + 2⁻¹ ^ 53) ^ O - 1 := sub_nonneg.2 (one_le_pow₀ (by norm_num))
    have p2 : (0 : ℚ) ≤ (1 + 2⁻¹ ^ 24) ^ ((O + 6) / 4 + 2) - 1 := sub_nonneg.2 (one_le_pow₀ (by norm_num))
    positivity
  unfold testAvg avgBound
  rw [a0, a1, a2, a3]
  generalize diffBound O = B at *
  have add : ∀ {p q P : ℚ}, 0 ≤ p → 0 ≤ q → p + q ≤ P → P ≤ 100 → ∃ z, wide64.add (Fl.fin p) (Fl.fin q) = (Fl.fin z : Fl binary64) ∧
      0 ≤ z ∧ z ≤ (1 + 2⁻¹ ^ 53) * P + 2⁻¹ ^ 150 := by
    intro p q P hp hq h hP
    have hm : (Fl.fin p + Fl.fin q : Fl binary64) = Fl.fin (rnd64 (p + q)) := mk_fin binary64_acc (by
      rw [abs_of_nonneg (by linarith)]
      norm_num
      linarith)
    refine ⟨_, hm, rnd64_nonneg (by linarith), ?_⟩
    have := rnd_bound binary64_acc (p + q)
    rw [abs_of_nonneg (by linarith : 0 ≤ p + q)] at this
    exact ((le_abs_self _).trans this).trans (add_le_add (mul_le_mul_of_nonneg_left h (by positivity)) le_rfl)
  have zero : wide64.zero = (Fl.fin 0 : Fl binary64) := rfl
  norm_num at c0 c1 c2 c3
  obtain ⟨z0, e0, f0, g0⟩ := add le_rfl b0 (zero_add d0).le (by linarith)
  norm_num at g0
  obtain ⟨z1, e1, f1, g1⟩ := add f0 b1 le_rfl (by linarith)
  norm_num at g1
  obtain ⟨z2, e2, f2, g2⟩ := add f1 b2 le_rfl (by linarith)
  norm_num at g2
  obtain ⟨z3, e3, f3, g3⟩ := add f2 b3 le_rfl (by linarith)
  norm_num at g3
  rw [zero, e0, e1, e2, e3]
  have hn : (0 : ℚ) < ((O + 1 : ℕ) : ℚ) := by positivity
  have hn1 : (1 : ℚ) ≤ ((O + 1 : ℕ) : ℚ) := by push_cast; linarith [(by positivity : (0 : ℚ) ≤ O)]
  have hq0 : 0 ≤ z3 / ((O + 1 : ℕ) : ℚ) := by positivity
  have hq1 : z3 / ((O + 1 : ℕ) : ℚ) ≤ z3 := div_le_self f3 hn1
  have hm : wide64.divN (Fl.fin z3) (O + 1) = (Fl.fin (rnd64 (z3 / ((O + 1 : ℕ) : ℚ))) : Fl binary64) := mk_fin binary64_acc (by
    rw [abs_of_nonneg hq0]
    generalize z3 / ((O + 1 : ℕ) : ℚ) = z at *
    norm_num
    linarith)
  refine ⟨_, hm, ?_⟩
  have h1 := rnd_bound binary64_acc (z3 / ((O + 1 : ℕ) : ℚ))
  rw [abs_of_nonneg hq0] at h1
  refine ((le_abs_self _).trans h1).trans ?_
  have hz3 : z3 ≤ (1 + 2⁻¹ ^ 50) * (4 * B) + 2⁻¹ ^ 146 := by
    norm_num
    linarith
  have h2 : z3 / ((O + 1 : ℕ) : ℚ) ≤ (1 + 2⁻¹ ^ 50) * (4 * B / ((O : ℚ) + 1)) + 2⁻¹ ^ 146 := by
    rw [div_le_iff₀ hn]
    refine hz3.trans ?_
    have e : ((1 + 2⁻¹ ^ 50) * (4 * B / ((O : ℚ) + 1)) + 2⁻¹ ^ 146) * ((O + 1 : ℕ) : ℚ) = (1 + 2⁻¹ ^ 50) * (4 * B) + 2⁻¹ ^ 146 * ((O + 1 : ℕ) : ℚ) := by
      push_cast
      field_simp
    rw [e]
    exact add_le_add le_rfl (le_mul_of_one_le_right (by positivity) hn1)
  have hB : 0 ≤ 4 * B / ((O : ℚ) + 1) := by positivity
  generalize 4 * B / ((O : ℚ) + 1) = C at *
  generalize z3 / ((O + 1 : ℕ) : ℚ) = z at *
  norm_num at h2 ⊢
  linarith

end Panda
