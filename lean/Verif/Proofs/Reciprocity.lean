import Mathlib.RingTheory.PowerSeries.Inverse
import Verif.Proofs.Gain

/-!
# Upsampling and downsampling are transposes of each other (for C111)

Signals as formal power series: all filters are multiplications.
-/

set_option linter.unusedSectionVars false

namespace Panda

open Finset PowerSeries

section

variable {K : Type} [CommRing K]

/-- Convolution of two signals, at time `N`. -/
def cv (x y : ℕ → K) (N : ℕ) : K := ∑ n ∈ range (N + 1), x n * y (N - n)

theorem cv_coeff (x y : ℕ → K) (N : ℕ) : cv x y N = coeff N (mk x * mk y) := by
  rw [coeff_mul, Finset.Nat.sum_antidiagonal_eq_sum_range_succ_mk]
  simp only [coeff_mk]
  rfl

private theorem sum_two (f : ℕ → K) (N : ℕ) : ∑ n ∈ range (2 * N), f n = ∑ m ∈ range N, f (2 * m) + ∑ m ∈ range N, f (2 * m + 1) := by
  induction N with
  | zero => simp
  | succ N ih => rw [show 2 * (N + 1) = 2 * N + 1 + 1 by ring, sum_range_succ, sum_range_succ, ih, sum_range_succ, sum_range_succ]; ring

theorem cv_odd (u y : ℕ → K) (J : ℕ) : cv u y (2 * J + 1) = coeff J (mk (evens u) * mk (odds y) + mk (odds u) * mk (evens y)) := by
  rw [map_add, ← cv_coeff, ← cv_coeff]
  unfold cv
  rw [show 2 * J + 1 + 1 = 2 * (J + 1) by ring, sum_two]
  congr 1 <;> refine sum_congr rfl fun m hm => ?_ <;> have := mem_range.1 hm <;> unfold evens odds
  · rw [show 2 * J + 1 - 2 * m = 2 * (J - m) + 1 by omega]
  · rw [show 2 * J + 1 - (2 * m + 1) = 2 * (J - m) by omega]

theorem cv_even (u y : ℕ → K) (J : ℕ) : cv u y (2 * J) = coeff J (mk (evens u) * mk (evens y) + X * (mk (odds u) * mk (odds y))) := by
  rw [map_add, ← cv_coeff]
  unfold cv
  rw [sum_range_succ, sum_two, add_right_comm, sum_range_succ]
  congr 1
  · congr 1
    · refine sum_congr rfl fun m hm => ?_
      have := mem_range.1 hm
      unfold evens
      rw [show 2 * J - 2 * m = 2 * (J - m) by omega]
    · unfold evens
      rw [Nat.sub_self, Nat.sub_self]
  · cases J with
    | zero => simp
    | succ J =>
      rw [coeff_succ_X_mul, ← cv_coeff]
      unfold cv
      refine sum_congr rfl fun m hm => ?_
      have := mem_range.1 hm
      unfold odds
      rw [show 2 * (J + 1) - (2 * m + 1) = 2 * (J - m) + 1 by omega]

/-- Delays. -/
theorem coeff_delay (x : ℕ → K) (s m : ℕ) : coeff m (X ^ s * mk x) = zext x ((m : ℤ) - s) := by
  rw [coeff_X_pow_mul', coeff_mk, zext]
  by_cases h : s ≤ m
  · rw [if_pos h, if_pos (by omega), show ((m : ℤ) - s).toNat = m - s by omega]
  · rw [if_neg h, if_neg (by omega)]

/-- All-pass sections are multiplications. -/
theorem allpass_mul (a : K) : ∃ U : PowerSeries K, ∀ x, mk (allpass a x) = U * mk x := by
  have hu : (constantCoeff (1 + C a * X : PowerSeries K)) = ((1 : Kˣ) : K) := by simp
  refine ⟨invOfUnit (1 + C a * X) 1 * (C a + X), fun x => ?_⟩
  have key : (1 + C a * X) * mk (allpass a x) = (C a + X) * mk x := by
    ext n
    cases n with
    | zero => simp [allpass, mul_comm]
    | succ n =>
      rw [add_mul, add_mul, one_mul, mul_assoc, map_add, map_add, coeff_C_mul, coeff_C_mul, coeff_succ_X_mul, coeff_succ_X_mul]
      simp only [coeff_mk, allpass]
      ring
  rw [mul_assoc, ← key, ← mul_assoc, mul_comm (invOfUnit _ _), mul_invOfUnit _ _ hu, one_mul]

theorem branch_mul (c : ℕ → K) (b j : ℕ) : ∃ U : PowerSeries K, ∀ x, mk (branch c b x j) = U * mk x := by
  induction j with
  | zero => exact ⟨1, fun x => (one_mul _).symm⟩
  | succ j ih =>
    obtain ⟨U, hU⟩ := ih
    obtain ⟨V, hV⟩ := allpass_mul (c (2 * j + b))
    exact ⟨V * U, fun x => by rw [mul_assoc, ← hU, ← hV]; rfl⟩

/-- Both outputs of an interpolator are multiplications. -/
theorem fir_mul (O : ℕ) (t x : ℕ → K) :
    mk (fun m => ∑ i ∈ range O, t i * zext x ((m : ℤ) - ((O : ℤ) - 1) + i)) = (∑ i ∈ range O, C (t i) * X ^ (O - 1 - i)) * mk x := by
  ext m
  rw [sum_mul, map_sum, coeff_mk]
  refine sum_congr rfl fun i hi => ?_
  have := mem_range.1 hi
  rw [mul_assoc, coeff_C_mul, coeff_delay]
  congr 2
  omega

theorem iir_reciprocal {h : K} (hh : 2 * h = 1) (nc : ℕ) (c x y : ℕ → K) (J : ℕ) :
    cv (iirUpOp nc c x) y (2 * J + 1) = 2 * cv x (iirDownOp nc c h y) J := by
  obtain ⟨A, hA⟩ := branch_mul c 0 (branchLen nc 0)
  obtain ⟨B, hB⟩ := branch_mul c 1 (branchLen nc 1)
  have h0 : mk (evens (iirUpOp nc c x)) = A * mk x := by
    rw [← hA]
    congr 1
    funext m
    unfold evens iirUpOp
    rw [show 2 * m % 2 = 0 by omega, show 2 * m / 2 = m by omega]
    rfl
  have h1 : mk (odds (iirUpOp nc c x)) = B * mk x := by
    rw [← hB]
    congr 1
    funext m
    unfold odds iirUpOp
    rw [show (2 * m + 1) % 2 = 1 by omega, show (2 * m + 1) / 2 = m by omega]
    rfl
  have h2 : C 2 * mk (iirDownOp nc c h y) = A * mk (odds y) + B * mk (evens y) := by
    rw [← hA, ← hB]
    ext m
    rw [coeff_C_mul, map_add]
    simp only [coeff_mk]
    unfold iirDownOp
    rw [← mul_assoc, hh, one_mul]
    rfl
  rw [cv_odd, h0, h1, cv_coeff, ← coeff_C_mul]
  congr 1
  linear_combination -mk x * h2

theorem fir_reciprocal {h : K} (hh : 2 * h = 1) {O : ℕ} (hO : 2 ≤ O) {t t' : ℕ → K} (ht : ∀ i < O, t i = 2 * t' i) (x y : ℕ → K) (J : ℕ) :
    cv (firUpOp O t x) y (2 * J) = 2 * cv x (firDownOp O t' h y) J := by
  have h0 : mk (evens (firUpOp O t x)) = (∑ i ∈ range O, C (t i) * X ^ (O - 1 - i)) * mk x := by
    rw [← fir_mul]
    congr 1
    funext m
    unfold evens firUpOp
    rw [if_pos (by omega), show 2 * m / 2 = m by omega]
  have h1 : mk (odds (firUpOp O t x)) = X ^ (O - 1 - O / 2) * mk x := by
    ext m
    rw [coeff_delay, coeff_mk]
    unfold odds firUpOp
    rw [if_neg (by omega), show (2 * m + 1) / 2 = m by omega]
    congr 1
    omega
  have h2 : C 2 * mk (firDownOp O t' h y) = (∑ i ∈ range O, C (t i) * X ^ (O - 1 - i)) * mk (evens y) + X ^ (O - O / 2) * mk (odds y) := by
    rw [← fir_mul]
    ext m
    rw [coeff_C_mul, map_add, coeff_delay]
    simp only [coeff_mk, zext_evens, zext_odds]
    unfold firDownOp
    rw [mul_add, ← mul_assoc 2 h, hh, one_mul, mul_sum]
    congr 1
    · refine sum_congr rfl fun i hi => ?_
      rw [ht i (mem_range.1 hi), mul_assoc]
    · congr 1
      omega
  have hX : (X : PowerSeries K) * X ^ (O - 1 - O / 2) = X ^ (O - O / 2) := by
    rw [← pow_succ']
    congr 1
    omega
  rw [cv_even, h0, h1, cv_coeff, ← coeff_C_mul]
  congr 1
  linear_combination -mk x * h2 + mk x * mk (odds y) * hX

end

section

variable {K : Type} [CommRing K] [Sample K]

/-- Stages that are transposes of each other: interpolator and decimator; `b = 0` (FIR) or `1` (IIR). -/
inductive Dual (b : ℕ) : Stage K → Stage K → Prop where
  | fir (v v' : Bool) (t t' : List K) : b = 0 → 2 ≤ t.length → t.length = t'.length → (∀ i < t.length, seq t i = 2 * seq t' i) →
      Dual b (.firUp v t) (.firDown v' t')
  | iir (v v' : Bool) (c : List K) : b = 1 → Dual b (.iirUp v c) (.iirDown v' c)

theorem Dual.stage (hh : 2 * (Sample.half : K) = 1) {b : ℕ} {s s' : Stage K} (h : Dual b s s') (x y : ℕ → K) (J : ℕ) :
    cv (s.op x) y (2 * J + b) = 2 * cv x (s'.op y) J := by
  cases h with
  | fir v v' t t' hb h2 hl ht =>
    subst hb
    simp only [Stage.op]
    rw [← hl]
    exact fir_reciprocal hh h2 ht x y J
  | iir v v' c hb =>
    subst hb
    exact iir_reciprocal hh _ _ x y J

/-- Two cascades, in opposite order. -/
inductive Duals (b : ℕ) : List (Stage K) → List (Stage K) → Prop where
  | nil : Duals b [] []
  | cons {s s' ss ss'} : Dual b s s' → Duals b ss ss' → Duals b (s :: ss) (ss' ++ [s'])

theorem cascadeOp_append (l l' : List (Stage K)) (x : ℕ → K) : cascadeOp (l ++ l') x = cascadeOp l' (cascadeOp l x) := by
  induction l generalizing x with
  | nil => rfl
  | cons s l ih => exact ih _

theorem Duals.cascade (hh : 2 * (Sample.half : K) = 1) {b : ℕ} {ss ss' : List (Stage K)} (h : Duals b ss ss') (x y : ℕ → K) (J : ℕ) :
    cv (cascadeOp ss x) y (2 ^ ss.length * (J + b) - b) = 2 ^ ss.length * cv x (cascadeOp ss' y) J := by
  induction h generalizing x J with
  | nil => simp [cascadeOp]
  | @cons s s' ss ss' hs _ ih =>
    have h1 := ih (s.op x) (2 * J + b)
    have h2 := hs.stage hh x (cascadeOp ss' y) J
    have e : 2 ^ (ss.length + 1) * (J + b) = 2 ^ ss.length * (2 * J + b + b) := by
      rw [pow_succ]
      ring
    rw [cascadeOp_append, List.length_cons, e]
    show cv (cascadeOp ss (s.op x)) y _ = 2 ^ (ss.length + 1) * cv x (s'.op (cascadeOp ss' y)) J
    rw [h1, h2, pow_succ]
    ring

end

end Panda

namespace Panda

section

variable {K : Type} [CommRing K] [Sample K]

private theorem duals_of {b : ℕ} {f g : ℕ → List (Stage K)} {l : List ℕ} (h : ∀ k ∈ l, ∃ s s', f k = [s] ∧ g k = [s'] ∧ Dual b s s') :
    Duals b (l.map f).flatten (l.reverse.map g).flatten := by
  induction l with
  | nil => exact .nil
  | cons k l ih =>
    obtain ⟨s, s', e, e', hd⟩ := h k (by simp)
    have := Duals.cons hd (ih fun k hk => h k (by simp [hk]))
    simpa [e, e'] using this

theorem Config.duals {cU cD : Config} (hv : cU.Valid) (hu : cU.mode = .up) (hd : cD.mode = .down) (hr : cD.ratio = cU.ratio)
    (hp : cD.precision = cU.precision) (hf : cD.filter = cU.filter)
    (h2 : cU.filter = .fir → ∀ k ∈ [2, 4, 8], ∀ t, firTable k cU.precision = some t →
      ∀ d ∈ t, (Sample.ofDouble (d.toRat * 2) : K) = 2 * Sample.ofDouble (d.toRat * 1)) :
    Duals (match cU.filter with | .fir => 0 | .iir => 1) (cU.stages (F := K)) (cD.stages (F := K)) := by
  have e : [8, 4, 2].filter (· ≤ cU.ratio) = ([2, 4, 8].filter (· ≤ cU.ratio)).reverse := by rw [← List.filter_reverse]; rfl
  unfold Config.stages
  rw [hu, hd]
  simp only [hr]
  rw [e]
  refine duals_of fun k hk => ?_
  have hk : k ∈ [2, 4, 8] := (List.mem_filter.1 hk).1
  unfold Config.stage
  rw [hu, hd, hf, hp]
  cases hfl : cU.filter with
  | fir =>
    obtain ⟨t, ht⟩ := Option.isSome_iff_exists.1 (tables_exist hk hv.precision).1
    simp only [ht, Option.toList_some, List.map_cons, List.map_nil]
    refine ⟨_, _, rfl, rfl, .fir _ _ _ _ rfl ?_ (by simp) ?_⟩
    · have hm : Stage.firUp (F := K) cU.vec (t.map fun d => Sample.ofDouble (d.toRat * 2)) ∈ cU.stage (F := K) k := by
        unfold Config.stage
        rw [hu, hfl, ht]
        simp
      exact (Config.stage_taps hm _ _ (Or.inl rfl)).1
    · intro i hi
      rw [List.length_map] at hi
      have := h2 hfl k hk t ht t[i] (List.getElem_mem hi)
      simpa [seq, List.getD_eq_getElem?_getD, hi] using this
  | iir =>
    have hp1 := hv.iir hfl
    obtain ⟨t, ht⟩ := Option.isSome_iff_exists.1 ((tables_exist hk hv.precision).2 hp1)
    simp only [ht, Option.toList_some, List.map_cons, List.map_nil]
    exact ⟨_, _, rfl, rfl, .iir _ _ _ rfl⟩

end

end Panda
