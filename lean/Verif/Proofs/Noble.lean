import Verif.Proofs.Reciprocity

/-!
# Filtering before and after resampling (for C112)
-/

set_option linter.unusedSectionVars false

namespace Panda

open Finset PowerSeries

variable {K : Type} [CommRing K]

/-- Convolution with a kernel whose samples are `R` apart. -/
def cvR (R : ℕ) (g u : ℕ → K) (n : ℕ) : K := ∑ k ∈ range (n / R + 1), g k * u (n - R * k)

private theorem cvR_mul {R : ℕ} (hR : 0 < R) (g : ℕ → K) : ∃ G : PowerSeries K, ∀ u, mk (cvR R g u) = G * mk u := by
  refine ⟨mk fun n => if n % R = 0 then g (n / R) else 0, fun u => ?_⟩
  ext n
  rw [← cv_coeff, coeff_mk]
  unfold cvR cv
  symm
  refine (sum_bij_ne_zero (fun k _ _ => R * k) ?_ ?_ ?_ ?_).symm
  · intro k hk _
    have := (Nat.le_div_iff_mul_le hR).1 (Nat.lt_succ_iff.1 (mem_range.1 hk))
    rw [mul_comm] at this
    exact mem_range.2 (by omega)
  · intro a _ _ b _ _ h
    exact Nat.eq_of_mul_eq_mul_left hR h
  · intro m hm hne
    beta_reduce at hne
    by_cases h0 : m % R = 0
    · have e : R * (m / R) = m := Nat.mul_div_cancel' (Nat.dvd_of_mod_eq_zero h0)
      refine ⟨m / R, mem_range.2 (Nat.lt_succ_of_le (Nat.div_le_div_right (Nat.lt_succ_iff.1 (mem_range.1 hm)))), ?_, e⟩
      rw [e]
      rwa [if_pos h0] at hne
    · rw [if_neg h0, zero_mul] at hne
      exact absurd rfl hne
  · intro k _ _
    beta_reduce
    rw [if_pos (Nat.mul_mod_right R k), Nat.mul_div_cancel_left _ hR]

private theorem evens_cvR {R : ℕ} (g u : ℕ → K) : evens (cvR (2 * R) g u) = cvR R g (evens u) := by
  funext m
  unfold evens cvR
  rw [Nat.mul_div_mul_left _ _ (by norm_num)]
  refine sum_congr rfl fun k _ => ?_
  beta_reduce
  rw [Nat.mul_sub, Nat.mul_assoc]

private theorem odds_cvR {R : ℕ} (hR : 0 < R) (g u : ℕ → K) : odds (cvR (2 * R) g u) = cvR R g (odds u) := by
  funext m
  unfold odds cvR
  rw [show (2 * m + 1) / (2 * R) = m / R by rw [← Nat.div_div_eq_div_mul]; congr 1; omega]
  refine sum_congr rfl fun k hk => ?_
  have := (Nat.le_div_iff_mul_le hR).1 (Nat.lt_succ_iff.1 (mem_range.1 hk))
  rw [mul_comm] at this
  congr 2
  rw [Nat.mul_assoc]
  omega

private theorem eq_of_parts {u v : ℕ → K} (h0 : evens u = evens v) (h1 : odds u = odds v) : u = v := by
  funext n
  obtain ⟨m, rfl | rfl⟩ : ∃ m, n = 2 * m ∨ n = 2 * m + 1 := ⟨n / 2, by omega⟩
  · exact congrFun h0 m
  · exact congrFun h1 m

private theorem mk_inj {u v : ℕ → K} (h : mk u = mk v) : u = v := by
  funext n
  have := congrArg (coeff n) h
  simpa using this

/-- Multiplications commute with convolutions. -/
private theorem mul_cvR {R : ℕ} (hR : 0 < R) (g : ℕ → K) {f : (ℕ → K) → ℕ → K} {U : PowerSeries K} (hf : ∀ x, mk (f x) = U * mk x) (x : ℕ → K) :
    f (cvR R g x) = cvR R g (f x) := by
  obtain ⟨G, hG⟩ := cvR_mul hR g
  refine mk_inj ?_
  rw [hf, hG, hG, hf]
  ring

variable [Sample K]

theorem Stage.noble_up {s : Stage K} (hs : s.up = true) (h2 : ∀ v t, s = .firUp v t ∨ s = .firDown v t → 2 ≤ t.length) {R : ℕ} (hR : 0 < R)
    (g x : ℕ → K) : s.op (cvR R g x) = cvR (2 * R) g (s.op x) := by
  cases s with
  | firUp v t =>
    have h2 := h2 v t (.inl rfl)
    have h0 : ∀ x, evens ((Stage.firUp v t).op x) = fun m : ℕ => ∑ i ∈ range t.length, seq t i * zext x ((m : ℤ) - ((t.length : ℤ) - 1) + i) := by
      intro x
      funext m
      simp only [Stage.op]
      unfold evens firUpOp
      rw [if_pos (by omega), show 2 * m / 2 = m by omega]
    have h1 : ∀ x, odds ((Stage.firUp v t).op x) = fun m : ℕ => zext x ((m : ℤ) - ((t.length - 1 - t.length / 2 : ℕ) : ℤ)) := by
      intro x
      funext m
      simp only [Stage.op]
      unfold odds firUpOp
      rw [if_neg (by omega), show (2 * m + 1) / 2 = m by omega]
      congr 1
      omega
    refine eq_of_parts ?_ ?_
    · rw [evens_cvR, h0, h0]
      exact mul_cvR hR g (f := fun x m => ∑ i ∈ range t.length, seq t i * zext x ((m : ℤ) - ((t.length : ℤ) - 1) + i)) (fir_mul t.length (seq t)) x
    · rw [odds_cvR hR, h1, h1]
      refine mul_cvR hR g (f := fun x m => zext x ((m : ℤ) - ((t.length - 1 - t.length / 2 : ℕ) : ℤ)))
        (U := X ^ (t.length - 1 - t.length / 2)) (fun x => ?_) x
      ext m
      rw [coeff_delay, coeff_mk]
  | iirUp v c =>
    have h0 : ∀ x, evens ((Stage.iirUp v c).op x) = branch (seq c) 0 x (branchLen c.length 0) := by
      intro x
      funext m
      simp only [Stage.op]
      unfold evens iirUpOp
      rw [show 2 * m % 2 = 0 by omega, show 2 * m / 2 = m by omega]
      rfl
    have h1 : ∀ x, odds ((Stage.iirUp v c).op x) = branch (seq c) 1 x (branchLen c.length 1) := by
      intro x
      funext m
      simp only [Stage.op]
      unfold odds iirUpOp
      rw [show (2 * m + 1) % 2 = 1 by omega, show (2 * m + 1) / 2 = m by omega]
      rfl
    obtain ⟨A, hA⟩ := branch_mul (seq c) 0 (branchLen c.length 0)
    obtain ⟨B, hB⟩ := branch_mul (seq c) 1 (branchLen c.length 1)
    refine eq_of_parts ?_ ?_
    · rw [evens_cvR, h0, h0]
      exact mul_cvR hR g (f := fun x => branch (seq c) 0 x (branchLen c.length 0)) hA x
    · rw [odds_cvR hR, h1, h1]
      exact mul_cvR hR g (f := fun x => branch (seq c) 1 x (branchLen c.length 1)) hB x
  | firDown v t => simp [Stage.up] at hs
  | iirDown v c => simp [Stage.up] at hs

theorem Stage.noble_down {s : Stage K} (hs : s.up = false) (h2 : ∀ v t, s = .firUp v t ∨ s = .firDown v t → 2 ≤ t.length) {R : ℕ} (hR : 0 < R)
    (g y : ℕ → K) : s.op (cvR (2 * R) g y) = cvR R g (s.op y) := by
  obtain ⟨G, hG⟩ := cvR_mul hR g
  have key : ∃ A B : PowerSeries K, ∀ y, mk (s.op y) = A * mk (evens y) + B * mk (odds y) := by
    cases s with
    | firDown v t =>
      have h2 := h2 v t (.inr rfl)
      refine ⟨∑ i ∈ range t.length, C (seq t i) * X ^ (t.length - 1 - i), C Sample.half * X ^ (t.length - t.length / 2), fun y => ?_⟩
      rw [← fir_mul]
      ext m
      rw [map_add, mul_assoc, coeff_C_mul, coeff_delay]
      simp only [coeff_mk, zext_evens, zext_odds, Stage.op]
      unfold firDownOp
      congr 3
      omega
    | iirDown v c =>
      obtain ⟨A, hA⟩ := branch_mul (seq c) 0 (branchLen c.length 0)
      obtain ⟨B, hB⟩ := branch_mul (seq c) 1 (branchLen c.length 1)
      refine ⟨C Sample.half * B, C Sample.half * A, fun y => ?_⟩
      rw [mul_assoc, mul_assoc, ← hA, ← hB]
      ext m
      rw [map_add, coeff_C_mul, coeff_C_mul]
      simp only [coeff_mk, Stage.op]
      unfold iirDownOp branchOut
      ring
    | firUp v t => simp [Stage.up] at hs
    | iirUp v c => simp [Stage.up] at hs
  obtain ⟨A, B, h⟩ := key
  refine mk_inj ?_
  rw [h, hG, h, evens_cvR, odds_cvR hR, hG, hG]
  ring

theorem noble_up {ss : List (Stage K)} (hs : ∀ s ∈ ss, s.up = true)
    (h2 : ∀ s ∈ ss, ∀ v t, s = .firUp v t ∨ s = .firDown v t → 2 ≤ t.length) {R : ℕ} (hR : 0 < R) (g x : ℕ → K) :
    cascadeOp ss (cvR R g x) = cvR (2 ^ ss.length * R) g (cascadeOp ss x) := by
  induction ss generalizing x R with
  | nil => simp [cascadeOp]
  | cons s ss ih =>
    simp only [cascadeOp, List.length_cons]
    rw [Stage.noble_up (hs s (by simp)) (h2 s (by simp)) hR, ih (fun s h => hs s (by simp [h])) (fun s h => h2 s (by simp [h])) (by omega)]
    congr 1
    rw [pow_succ]
    ring

theorem noble_down {ss : List (Stage K)} (hs : ∀ s ∈ ss, s.up = false)
    (h2 : ∀ s ∈ ss, ∀ v t, s = .firUp v t ∨ s = .firDown v t → 2 ≤ t.length) {R : ℕ} (hR : 0 < R) (g y : ℕ → K) :
    cascadeOp ss (cvR (2 ^ ss.length * R) g y) = cvR R g (cascadeOp ss y) := by
  induction ss generalizing y with
  | nil => simp [cascadeOp]
  | cons s ss ih =>
    simp only [cascadeOp, List.length_cons]
    rw [show 2 ^ (ss.length + 1) * R = 2 * (2 ^ ss.length * R) by rw [pow_succ]; ring, ← ih (fun s h => hs s (by simp [h])) (fun s h => h2 s (by simp [h])),
      ← Stage.noble_down (hs s (by simp)) (h2 s (by simp)) (Nat.mul_pos (by positivity) hR)]

end Panda
