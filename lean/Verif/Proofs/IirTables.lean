import Mathlib.Analysis.SpecialFunctions.Pow.Real
import Verif.Proofs.IirStop
import Verif.Proofs.Freq
import Verif.Proofs.Float
import Verif.Proofs.Energy

/-!
# The response of the IIR stages, from their coefficient tables
-/

set_option linter.unusedSectionVars false

namespace Panda

/-- Every other element, from the first one. -/
def everyOther {α : Type} : List α → List α
  | [] => []
  | [a] => [a]
  | a :: _ :: l => a :: everyOther l

theorem branchPhase_front (c : ℕ → ℝ) (b : ℕ) (θ : ℝ) (j : ℕ) :
    branchPhase c b θ (j + 1) = apPhase (c b) θ + branchPhase (fun i => c (i + 2)) b θ j := by
  induction j with
  | zero => simp [branchPhase]
  | succ j ih =>
    rw [show branchPhase c b θ (j + 1 + 1) = branchPhase c b θ (j + 1) + apPhase (c (2 * (j + 1) + b)) θ from rfl, ih,
      show branchPhase (fun i => c (i + 2)) b θ (j + 1) = branchPhase (fun i => c (i + 2)) b θ j + apPhase (c (2 * j + b + 2)) θ from rfl,
      show 2 * (j + 1) + b = 2 * j + b + 2 by ring]
    ring

theorem branchPhase_one (c : ℕ → ℝ) (θ : ℝ) (j : ℕ) : branchPhase c 1 θ j = branchPhase (fun i => c (i + 1)) 0 θ j := by
  induction j with
  | zero => rfl
  | succ j ih =>
    unfold branchPhase
    rw [ih]

theorem branchPhase_congr {c c' : ℕ → ℝ} (b : ℕ) (θ : ℝ) (j : ℕ) (h : ∀ i, c i = c' i) : branchPhase c b θ j = branchPhase c' b θ j := by
  rw [funext h]

/-- The coefficient given by a pair of integers. -/
noncomputable def pairVal (q : ℤ × ℤ) : ℝ := (q.1 : ℝ) / q.2

theorem branchPhase_zero_list : ∀ (l : List (ℤ × ℤ)) (θ : ℝ),
    branchPhase (seq (l.map pairVal)) 0 θ ((l.length + 1) / 2) = Bern.listPhase (everyOther l) θ
  | [], θ => rfl
  | [a], θ => by simp [branchPhase, Bern.listPhase, everyOther, seq, pairVal]
  | a :: b :: l, θ => by
    rw [show ((a :: b :: l).length + 1) / 2 = (l.length + 1) / 2 + 1 by simp only [List.length_cons]; omega, branchPhase_front]
    have e : branchPhase (fun i => seq ((a :: b :: l).map pairVal) (i + 2)) 0 θ ((l.length + 1) / 2) =
        branchPhase (seq (l.map pairVal)) 0 θ ((l.length + 1) / 2) := branchPhase_congr _ _ _ fun i => by simp [seq]
    rw [e, branchPhase_zero_list l θ]
    simp [Bern.listPhase, everyOther, seq, pairVal]

theorem branchPhase_one_list (l : List (ℤ × ℤ)) (θ : ℝ) :
    branchPhase (seq (l.map pairVal)) 1 θ (l.length / 2) = Bern.listPhase (everyOther l.tail) θ := by
  rw [branchPhase_one]
  cases l with
  | nil => rfl
  | cons a l =>
    rw [branchPhase_congr 0 θ _ (c' := seq (l.map pairVal)) fun i => by simp [seq]]
    exact branchPhase_zero_list l θ

theorem iirDiff_list (l : List (ℤ × ℤ)) (v : ℝ) : iirDiff l.length (seq (l.map pairVal)) v =
    (Bern.listPhase (everyOther l) (2 * v) - Bern.listPhase (everyOther l.tail) (2 * v) + v) / 2 := by
  unfold iirDiff branchOutPhase branchLen
  rw [← branchPhase_zero_list, ← branchPhase_one_list]
  rfl

theorem mem_everyOther {α : Type} {a : α} : ∀ {l : List α}, a ∈ everyOther l → a ∈ l
  | [], h => h
  | [_], h => h
  | b :: c :: l, h => by
    rcases List.mem_cons.1 h with h | h
    · simp [h]
    · simp [mem_everyOther h]

/-- A stop band certificate for a list of coefficients. -/
theorem iirDiff_le {l : List (ℤ × ℤ)} {e E : ℕ} {L D depth : ℕ}
    (h : Bern.iirCheck (everyOther l) (everyOther l.tail) e E L D depth = true) (hl : ∀ q ∈ l, |q.1| < q.2) (hE : 0 < E)
    {v : ℝ} (hv : (L : ℝ) ≤ D * Real.cos v) : |Real.sin (iirDiff l.length (seq (l.map pairVal)) v)| ≤ (e : ℝ) / E := by
  have hq : ∀ q ∈ l, 0 < q.2 ∧ |(q.1 : ℝ) / q.2| < 1 := by
    intro q hq
    have h1 := hl q hq
    have h0 : 0 < q.2 := lt_of_le_of_lt (abs_nonneg _) h1
    have h0' : (0 : ℝ) < q.2 := by exact_mod_cast h0
    refine ⟨h0, ?_⟩
    rw [abs_div, abs_of_pos h0', div_lt_one h0']
    exact_mod_cast h1
  rw [iirDiff_list]
  have := Bern.iirCheck_sound h (fun q h => hq q (mem_everyOther h)) (fun q h => hq q (List.mem_of_mem_tail (mem_everyOther h)))
    (by exact_mod_cast hE) (by positivity) hv
  simpa using this

/-- A frequency at which the branches differ. -/
theorem iirDiff_above {l : List (ℤ × ℤ)} {e E n d : ℕ}
    (h : Bern.iirAbove (everyOther l) (everyOther l.tail) e E n d = true) (hl : ∀ q ∈ l, |q.1| < q.2) (hE : 0 < E) (hd : 0 < d)
    {v : ℝ} (hv : Real.cos v = (n : ℝ) / d) : (e : ℝ) / E < |Real.sin (iirDiff l.length (seq (l.map pairVal)) v)| := by
  have hq : ∀ q ∈ l, 0 < q.2 ∧ |(q.1 : ℝ) / q.2| < 1 := by
    intro q hq
    have h1 := hl q hq
    have h0 : 0 < q.2 := lt_of_le_of_lt (abs_nonneg _) h1
    have h0' : (0 : ℝ) < q.2 := by exact_mod_cast h0
    refine ⟨h0, ?_⟩
    rw [abs_div, abs_of_pos h0', div_lt_one h0']
    exact_mod_cast h1
  rw [iirDiff_list]
  have := Bern.iirAbove_sound h (fun q h => hq q (mem_everyOther h)) (fun q h => hq q (List.mem_of_mem_tail (mem_everyOther h)))
    (by exact_mod_cast hE) (by positivity) (by exact_mod_cast hd) (by simpa using hv)
  simpa using this

/-! ## The tables -/

/-- The coefficients of an IIR stage as written in the source. -/
def iirTab (k p : ℕ) : List Dec := ((iirTable k p).getD ([], ⟨0, 0⟩)).1

/-- The same as pairs of integers. -/
def iirPairs (k p : ℕ) : List (ℤ × ℤ) := (iirTab k p).map fun d => (d.m, (10 ^ d.e : ℕ))

/-- The coefficients rounded to binary32: `z / 2^s` for each pair `(z, s)`. -/
def iirFloats : ℕ → ℕ → List (ℕ × ℕ)
  | 2, 8 => [(9082162, 26), (14917985, 25), (13422901, 24)]
  | 2, 12 => [(15400024, 28), (14062234, 26), (13875687, 25), (10655795, 24), (14586746, 24)]
  | 2, 16 => [(11127078, 28), (10408824, 26), (10591685, 25), (16700118, 25), (11535031, 24), (14909055, 24)]
  | 2, 20 => [(13139820, 29), (12623761, 27), (13335983, 26), (10937939, 25), (15596974, 25), (10211060, 24), (12691611, 24), (15333046, 24)]
  | 2, 24 => [(10547872, 29), (10212466, 27), (10914077, 26), (9073874, 25), (13114156, 25), (8680686, 24), (10855460, 24), (13093987, 24), (15480042, 24)]
  | 4, 8 => [(8432114, 26), (9464626, 24)]
  | 4, 12 => [(8488249, 27), (8898718, 25), (11192684, 24)]
  | 4, 16 => [(8488249, 27), (8898718, 25), (11192684, 24)]
  | 4, 20 => [(10216800, 28), (10483232, 26), (12454750, 25), (12262081, 24)]
  | 4, 24 => [(13644210, 29), (13868256, 27), (16113750, 26), (15153595, 25), (12988315, 24)]
  | 8, 8 => [(11479107, 25)]
  | 8, 12 => [(14777906, 27), (8999388, 24)]
  | 8, 16 => [(14777906, 27), (8999388, 24)]
  | 8, 20 => [(14654201, 28), (16075794, 26), (10793743, 24)]
  | 8, 24 => [(14654201, 28), (16075794, 26), (10793743, 24)]
  | _, _ => []

/-- The same as pairs of integers. -/
def iirPairs32 (k p : ℕ) : List (ℤ × ℤ) := (iirFloats k p).map fun q => ((q.1 : ℤ), (2 ^ q.2 : ℕ))

/-- `10^12 · 10^(-6p/20)`, rounded down. -/
def stopPico : ℕ → ℕ
  | 8 => 3981071705
  | 12 => 251188643
  | 16 => 15848931
  | 20 => 1000000
  | _ => 63095

/-- The same for the coefficients rounded to binary32: at the highest precision only 143 dB. -/
def stopPico32 : ℕ → ℕ
  | 8 => 3981071705
  | 12 => 251188643
  | 16 => 15848931
  | 20 => 1000000
  | _ => 70794

theorem iir_certificates : ∀ k ∈ [2, 4, 8], ∀ p ∈ [8, 12, 16, 20, 24],
    Bern.iirCheck (everyOther (iirPairs k p)) (everyOther (iirPairs k p).tail) (stopPico p) (10 ^ 12 : ℕ) (edgeCos k) 65535 5 = true := by
  decide +kernel

theorem iir_certificates32 : ∀ k ∈ [2, 4, 8], ∀ p ∈ [8, 12, 16, 20, 24],
    Bern.iirCheck (everyOther (iirPairs32 k p)) (everyOther (iirPairs32 k p).tail) (stopPico32 p) (10 ^ 12 : ℕ) (edgeCos k) 65535 5 =
      true := by
  decide +kernel

/-- With coefficients rounded to binary32 the first stage misses 144 dB at `cos v = 59/200`. -/
theorem iir_above32 : Bern.iirAbove (everyOther (iirPairs32 2 24)) (everyOther (iirPairs32 2 24).tail) (67000 : ℕ) (10 ^ 12 : ℕ)
    (59 : ℕ) (200 : ℕ) = true := by decide +kernel

theorem iirPairs_lt : ∀ k ∈ [2, 4, 8], ∀ p ∈ [8, 12, 16, 20, 24], ∀ q ∈ iirPairs k p, 20 * |q.1| ≤ 19 * q.2 ∧ |q.1| < q.2 := by
  decide +kernel

theorem iirPairs32_lt : ∀ k ∈ [2, 4, 8], ∀ p ∈ [8, 12, 16, 20, 24], ∀ q ∈ iirPairs32 k p, 20 * |q.1| ≤ 19 * q.2 ∧ |q.1| < q.2 := by
  decide +kernel

/-- When a decimal number is rounded to `z / 2^s`. -/
def isRound (d : Dec) (z s : ℕ) : Bool :=
  decide (s ≤ 149 ∧ (2 ^ 23 * 10 ^ d.e : ℕ) ≤ d.m * (2 ^ s : ℕ) ∧ d.m * (2 ^ s : ℕ) < (2 ^ 24 * 10 ^ d.e : ℕ) ∧
    2 * |d.m * (2 ^ s : ℕ) - z * (10 ^ d.e : ℕ)| < (10 ^ d.e : ℕ))

theorem rnd32_of_isRound {d : Dec} {z s : ℕ} (h : isRound d z s = true) : rnd32 d.toRat = (z : ℚ) / 2 ^ s := by
  obtain ⟨hs, h1, h2, h3⟩ := of_decide_eq_true h
  have hT : (0 : ℚ) < 10 ^ d.e := by positivity
  have hS : (0 : ℚ) < 2 ^ s := by positivity
  have hq : d.toRat = (d.m : ℚ) / 10 ^ d.e := by
    unfold Dec.toRat
    rw [Rat.mkRat_eq_div]
    push_cast
    rfl
  have h1' : (2 ^ 23 : ℚ) * 10 ^ d.e ≤ d.m * 2 ^ s := by exact_mod_cast h1
  have h2' : (d.m : ℚ) * 2 ^ s < 2 ^ 24 * 10 ^ d.e := by exact_mod_cast h2
  have h3' : 2 * |(d.m : ℚ) * 2 ^ s - z * 10 ^ d.e| < 10 ^ d.e := by exact_mod_cast h3
  have hx1 : (2 ^ 23 : ℚ) / 2 ^ s ≤ d.toRat := by
    rw [hq, div_le_div_iff₀ hS hT]
    exact h1'
  have hx2 : d.toRat < 2 ^ 24 / 2 ^ s := by
    rw [hq, div_lt_div_iff₀ hT hS]
    exact h2'
  have hpos : 0 < d.toRat := lt_of_lt_of_le (by positivity) hx1
  have hlog : ilog2 d.toRat = 23 - s := by
    obtain ⟨l1, l2⟩ := ilog2_spec hpos.ne'
    rw [abs_of_pos hpos] at l1 l2
    have e1 : (2 : ℚ) ^ (23 - s : ℤ) = 2 ^ 23 / 2 ^ s := by
      rw [zpow_sub₀ (by norm_num), zpow_natCast]
      norm_cast
    have e2 : (2 : ℚ) ^ (24 - s : ℤ) = 2 ^ 24 / 2 ^ s := by
      rw [zpow_sub₀ (by norm_num), zpow_natCast]
      norm_cast
    rw [← e1] at hx1
    rw [← e2] at hx2
    have a1 := (zpow_lt_zpow_iff_right₀ (by norm_num : (1 : ℚ) < 2)).1 (lt_of_le_of_lt l1 hx2)
    have a2 := (zpow_lt_zpow_iff_right₀ (by norm_num : (1 : ℚ) < 2)).1 (lt_of_le_of_lt hx1 l2)
    omega
  have hu : ulpExp d.toRat = -(s : ℤ) := by
    unfold ulpExp
    rw [hlog]
    omega
  unfold rnd32
  rw [if_neg hpos.ne', hu, zpow_neg, zpow_natCast]
  have hr : rne (d.toRat / ((2 : ℚ) ^ s)⁻¹) = z := by
    have a := rne_err (d.toRat / ((2 : ℚ) ^ s)⁻¹)
    have e : d.toRat / ((2 : ℚ) ^ s)⁻¹ = d.m * 2 ^ s / 10 ^ d.e := by
      rw [hq]
      field_simp
    rw [e] at a ⊢
    have b : |(d.m : ℚ) * 2 ^ s / 10 ^ d.e - z| < 1 / 2 := by
      rw [show (d.m : ℚ) * 2 ^ s / 10 ^ d.e - z = (d.m * 2 ^ s - z * 10 ^ d.e) / 10 ^ d.e by field_simp, abs_div, abs_of_pos hT,
        div_lt_iff₀ hT]
      linarith
    have c : |((rne ((d.m : ℚ) * 2 ^ s / 10 ^ d.e) - z : ℤ) : ℚ)| < 1 := by
      push_cast
      rw [abs_le] at a
      rw [abs_lt] at b ⊢
      constructor <;> linarith [a.1, a.2, b.1, b.2]
    have c' : |rne ((d.m : ℚ) * 2 ^ s / 10 ^ d.e) - z| < 1 := by exact_mod_cast c
    have := Int.abs_lt_one_iff.1 c'
    omega
  rw [hr]
  push_cast
  rfl

theorem iirFloats_round : ∀ k ∈ [2, 4, 8], ∀ p ∈ [8, 12, 16, 20, 24],
    (iirFloats k p).length = (iirTab k p).length ∧
      (((iirTab k p).zip (iirFloats k p)).all fun a => isRound a.1 a.2.1 a.2.2) = true := by decide +kernel

end Panda
