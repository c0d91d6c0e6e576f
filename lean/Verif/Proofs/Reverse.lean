import Verif.Proofs.Gain

/-!
# FIR resamplers and time reversal (for C108)
-/

set_option linter.unusedSectionVars false

namespace Panda

open Finset

variable {K : Type} [CommRing K] [Sample K]

/-- `x'` is `x` reversed: sample `z` of one is sample `L - z` of the other. -/
def Rev (L : ℤ) (x x' : ℕ → K) : Prop := ∀ z, zext x' z = zext x (L - z)

private theorem zext_before {x : ℕ → K} {z : ℤ} (h : z < 0) : zext x z = 0 := if_neg (by omega)

private theorem zext_up_even {O : ℕ} (t x : ℕ → K) (w : ℤ) :
    zext (firUpOp O t x) (2 * w) = ∑ i ∈ range O, t i * zext x (w - ((O : ℤ) - 1) + i) := by
  by_cases hw : 0 ≤ w
  · obtain ⟨m, rfl⟩ := Int.eq_ofNat_of_zero_le hw
    rw [zext, if_pos (by omega), show (2 * (m : ℤ)).toNat = 2 * m by omega, firUpOp, if_pos (by omega), show 2 * m / 2 = m by omega]
  · rw [zext_before (by omega), sum_eq_zero fun i hi => ?_]
    have := mem_range.1 hi
    rw [zext_before (by omega), mul_zero]

private theorem zext_up_odd {O : ℕ} (hO : 2 ≤ O) (t x : ℕ → K) (w : ℤ) :
    zext (firUpOp O t x) (2 * w + 1) = zext x (w - ((O : ℤ) - 1) + (O / 2 : ℕ)) := by
  by_cases hw : 0 ≤ w
  · obtain ⟨m, rfl⟩ := Int.eq_ofNat_of_zero_le hw
    rw [zext, if_pos (by omega), show (2 * (m : ℤ) + 1).toNat = 2 * m + 1 by omega, firUpOp, if_neg (by omega),
      show (2 * m + 1) / 2 = m by omega]
  · rw [zext_before (by omega), zext_before (by omega)]

private theorem zext_down {O : ℕ} (hO : 2 ≤ O) (t x : ℕ → K) (h : K) (w : ℤ) :
    zext (firDownOp O t h x) w =
      ∑ i ∈ range O, t i * zext x (2 * (w - ((O : ℤ) - 1) + i)) + h * zext x (2 * (w - ((O : ℤ) - 1) + (O / 2 : ℕ) - 1) + 1) := by
  by_cases hw : 0 ≤ w
  · obtain ⟨m, rfl⟩ := Int.eq_ofNat_of_zero_le hw
    rw [zext, if_pos hw]
    rfl
  · rw [zext_before (x := firDownOp O t h x) (by omega), sum_eq_zero fun i hi => ?_, zext_before (by omega), mul_zero, add_zero]
    have := mem_range.1 hi
    rw [zext_before (by omega), mul_zero]

private theorem sum_flip {O : ℕ} {t : ℕ → K} (hs : ∀ i < O, t (O - 1 - i) = t i) (f : ℤ → K) :
    ∑ i ∈ range O, t i * f i = ∑ i ∈ range O, t i * f ((O : ℤ) - 1 - i) := by
  rw [← sum_range_reflect]
  refine sum_congr rfl fun i hi => ?_
  have := mem_range.1 hi
  rw [hs i this, show ((O - 1 - i : ℕ) : ℤ) = (O : ℤ) - 1 - i by omega]

theorem Rev.firUp {O : ℕ} (hO : 2 ≤ O) (he : O % 2 = 0) {t : ℕ → K} (hs : ∀ i < O, t (O - 1 - i) = t i) {L : ℤ} {x x' : ℕ → K} (h : Rev L x x') :
    Rev (2 * L + 2 * ((O : ℤ) - 1)) (firUpOp O t x) (firUpOp O t x') := by
  intro z
  rcases Int.emod_two_eq_zero_or_one z with hz | hz
  · obtain ⟨w, rfl⟩ : ∃ w, z = 2 * w := ⟨z / 2, by omega⟩
    rw [show 2 * L + 2 * ((O : ℤ) - 1) - 2 * w = 2 * (L + ((O : ℤ) - 1) - w) by ring, zext_up_even, zext_up_even,
      sum_flip hs fun i => zext x' (w - ((O : ℤ) - 1) + i)]
    refine sum_congr rfl fun i _ => ?_
    rw [h]
    congr 2
    ring
  · obtain ⟨w, rfl⟩ : ∃ w, z = 2 * w + 1 := ⟨z / 2, by omega⟩
    rw [show 2 * L + 2 * ((O : ℤ) - 1) - (2 * w + 1) = 2 * (L + ((O : ℤ) - 1) - w - 1) + 1 by ring, zext_up_odd hO, zext_up_odd hO, h]
    congr 1
    omega

theorem Rev.firDown {O : ℕ} (hO : 2 ≤ O) (he : O % 2 = 0) {t : ℕ → K} (hs : ∀ i < O, t (O - 1 - i) = t i) (c : K) {P : ℤ} {x x' : ℕ → K}
    (h : Rev (2 * P) x x') : Rev (P + ((O : ℤ) - 1)) (firDownOp O t c x) (firDownOp O t c x') := by
  intro z
  rw [zext_down hO, zext_down hO, sum_flip hs fun i => zext x' (2 * (z - ((O : ℤ) - 1) + i))]
  congr 1
  · refine sum_congr rfl fun i _ => ?_
    rw [h]
    congr 2
    ring
  · rw [h]
    congr 2
    omega

/-- A symmetric FIR stage turns signals reversed at `L` into signals reversed at `L'`. -/
def Stage.RevStep (s : Stage K) (L L' : ℤ) : Prop := s.isFir = true ∧ 2 ≤ s.ntaps ∧ s.ntaps % 2 = 0 ∧
  match s with
  | .firUp _ t => t.reverse = t ∧ L' = 2 * L + 2 * ((s.ntaps : ℤ) - 1)
  | .firDown _ t => t.reverse = t ∧ ∃ P, L = 2 * P ∧ L' = P + ((s.ntaps : ℤ) - 1)
  | _ => True

private theorem seq_sym {t : List K} (h : t.reverse = t) : ∀ i < t.length, seq t (t.length - 1 - i) = seq t i := by
  intro i hi
  conv_rhs => rw [← h]
  rw [seq_lt (by omega), seq_lt (by rw [List.length_reverse]; exact hi), List.getElem_reverse]

theorem Rev.stage {s : Stage K} {L L' : ℤ} (hs : s.RevStep L L') {x x' : ℕ → K} (h : Rev L x x') : Rev L' (s.op x) (s.op x') := by
  obtain ⟨h0, h1, h2, h3⟩ := hs
  cases s with
  | firUp v t =>
    obtain ⟨hr, rfl⟩ := h3
    exact h.firUp h1 h2 (seq_sym hr)
  | firDown v t =>
    obtain ⟨hr, P, rfl, rfl⟩ := h3
    exact h.firDown h1 h2 (seq_sym hr) _
  | iirUp v c => simp [Stage.isFir] at h0
  | iirDown v c => simp [Stage.isFir] at h0

theorem Config.stage_sym {cfg : Config} (hv : cfg.Valid) (hf : cfg.filter = .fir) {k : ℕ} (hk : k ∈ [2, 4, 8]) {s : Stage K}
    (hs : cfg.stage k = [s]) : ∃ l : ℕ, ((firTable k cfg.precision).getD []).length = 2 * l + 2 ∧
      (cfg.mode = .up → ∀ L, s.RevStep L (2 * L + 2 * (2 * l + 1))) ∧ (cfg.mode = .down → ∀ P, s.RevStep (2 * P) (P + (2 * l + 1))) := by
  obtain ⟨n, hi⟩ := Config.stage_ntaps hv hf hk hs
  obtain ⟨t, ht⟩ := Option.isSome_iff_exists.1 (tables_exist hk hv.precision).1
  obtain ⟨l1, -, l2⟩ := firTable_length ht
  have hpal := firTable_palindrome k hk _ hv.precision
  rw [ht, Option.getD_some] at n hpal
  rw [ht, Option.getD_some]
  have hl : t.length = 2 * (t.length / 2 - 1) + 2 := by omega
  have hc : (t.length : ℤ) - 1 = 2 * ((t.length / 2 - 1 : ℕ) : ℤ) + 1 := by omega
  refine ⟨t.length / 2 - 1, hl, fun hm L => ?_, fun hm P => ?_⟩ <;>
  · unfold Config.stage at hs
    simp only [hf, hm, ht, Option.toList, List.map_cons, List.map_nil, List.cons.injEq, and_true] at hs
    subst hs
    refine ⟨hi, by omega, by omega, ?_⟩
    rw [n, hc]
    first
    | exact ⟨by rw [← List.map_reverse, hpal], rfl⟩
    | exact ⟨by rw [← List.map_reverse, hpal], P, rfl, rfl⟩

/-- Where the end of the reversed signal is: for DOWN only if it is a whole number. -/
theorem Rev.config {cfg : Config} (hv : cfg.Valid) (hf : cfg.filter = .fir) {L L' : ℤ}
    (hL : (L' : ℚ) = (match cfg.mode with | .up => L * (cfg.ratio : ℚ) | .down => L / (cfg.ratio : ℚ)) + 2 * cfg.totalDelay)
    {x x' : ℕ → K} (h : Rev L x x') : Rev L' (cfg.op x) (cfg.op x') := by
  obtain ⟨s2, s4, s8, h2, h4, h8, hs⟩ := Config.stages_cases (F := K) hv
  obtain ⟨l2, a2, u2, d2⟩ := Config.stage_sym hv hf (by simp) h2
  obtain ⟨l4, a4, u4, d4⟩ := Config.stage_sym hv hf (by simp) h4
  obtain ⟨l8, a8, u8, d8⟩ := Config.stage_sym hv hf (by simp) h8
  have b2 : ((((firTable 2 cfg.precision).getD []).length / 2 : ℕ) : ℚ) = l2 + 1 := by
    rw [a2, show (2 * l2 + 2) / 2 = l2 + 1 by omega]; push_cast; ring
  have b4 : ((((firTable 4 cfg.precision).getD []).length / 2 : ℕ) : ℚ) = l4 + 1 := by
    rw [a4, show (2 * l4 + 2) / 2 = l4 + 1 by omega]; push_cast; ring
  have b8 : ((((firTable 8 cfg.precision).getD []).length / 2 : ℕ) : ℚ) = l8 + 1 := by
    rw [a8, show (2 * l8 + 2) / 2 = l8 + 1 by omega]; push_cast; ring
  unfold Config.op
  unfold Config.totalDelay Config.stageDelay at hL
  cases hm : cfg.mode with
  | up =>
    simp only [hm, hf, a2, a4, a8] at hL
    have u2 := u2 hm
    have u4 := u4 hm
    have u8 := u8 hm
    rcases hs with ⟨hr, hs⟩ | ⟨hr, hs⟩ | ⟨hr, hm', hs⟩ | ⟨hr, hm', hs⟩ | ⟨hr, hm', hs⟩ | ⟨hr, hm', hs⟩ <;> rw [hs] <;> rw [hr] at hL <;>
      norm_num at hL
    · have e : L' = L := by exact_mod_cast hL
      rw [e]
      exact h
    · have e : L' = 2 * L + 2 * (2 * l2 + 1) := by have : (L' : ℚ) = ((2 * L + 2 * (2 * l2 + 1) : ℤ) : ℚ) := by push_cast; linarith
                                                   exact_mod_cast this
      rw [e]
      exact h.stage (u2 _)
    · have e : L' = 2 * (2 * L + 2 * (2 * l2 + 1)) + 2 * (2 * l4 + 1) := by
        have : (L' : ℚ) = ((2 * (2 * L + 2 * (2 * l2 + 1)) + 2 * (2 * l4 + 1) : ℤ) : ℚ) := by push_cast; linarith
        exact_mod_cast this
      rw [e]
      exact (h.stage (u2 _)).stage (u4 _)
    · rw [hm] at hm'; cases hm'
    · have e : L' = 2 * (2 * (2 * L + 2 * (2 * l2 + 1)) + 2 * (2 * l4 + 1)) + 2 * (2 * l8 + 1) := by
        have : (L' : ℚ) = ((2 * (2 * (2 * L + 2 * (2 * l2 + 1)) + 2 * (2 * l4 + 1)) + 2 * (2 * l8 + 1) : ℤ) : ℚ) := by push_cast; linarith
        exact_mod_cast this
      rw [e]
      exact ((h.stage (u2 _)).stage (u4 _)).stage (u8 _)
    · rw [hm] at hm'; cases hm'
  | down =>
    simp only [hm, hf, b2, b4, b8] at hL
    have d2 := d2 hm
    have d4 := d4 hm
    have d8 := d8 hm
    rcases hs with ⟨hr, hs⟩ | ⟨hr, hs⟩ | ⟨hr, hm', hs⟩ | ⟨hr, hm', hs⟩ | ⟨hr, hm', hs⟩ | ⟨hr, hm', hs⟩ <;> rw [hs] <;> rw [hr] at hL <;>
      norm_num at hL
    · have e : L' = L := by exact_mod_cast hL
      rw [e]
      exact h
    · have e : L = 2 * (L' - (2 * l2 + 1)) := by
        have : (L : ℚ) = ((2 * (L' - (2 * l2 + 1)) : ℤ) : ℚ) := by push_cast; linarith
        exact_mod_cast this
      rw [e] at h
      have := h.stage (d2 _)
      rwa [show L' - (2 * (l2 : ℤ) + 1) + (2 * l2 + 1) = L' by ring] at this
    · rw [hm] at hm'; cases hm'
    · have e : L = 2 * (2 * (L' - (2 * l2 + 1)) - (2 * l4 + 1)) := by
        have : (L : ℚ) = ((2 * (2 * (L' - (2 * l2 + 1)) - (2 * l4 + 1)) : ℤ) : ℚ) := by push_cast; linarith
        exact_mod_cast this
      rw [e] at h
      have := h.stage (d4 _)
      rw [show 2 * (L' - (2 * (l2 : ℤ) + 1)) - (2 * l4 + 1) + (2 * l4 + 1) = 2 * (L' - (2 * (l2 : ℤ) + 1)) by ring] at this
      have := this.stage (d2 _)
      rwa [show L' - (2 * (l2 : ℤ) + 1) + (2 * l2 + 1) = L' by ring] at this
    · rw [hm] at hm'; cases hm'
    · have e : L = 2 * (2 * (2 * (L' - (2 * l2 + 1)) - (2 * l4 + 1)) - (2 * l8 + 1)) := by
        have : (L : ℚ) = ((2 * (2 * (2 * (L' - (2 * l2 + 1)) - (2 * l4 + 1)) - (2 * l8 + 1)) : ℤ) : ℚ) := by push_cast; linarith
        exact_mod_cast this
      rw [e] at h
      have := h.stage (d8 _)
      rw [show 2 * (2 * (L' - (2 * (l2 : ℤ) + 1)) - (2 * l4 + 1)) - (2 * l8 + 1) + (2 * l8 + 1) =
        2 * (2 * (L' - (2 * (l2 : ℤ) + 1)) - (2 * l4 + 1)) by ring] at this
      have := this.stage (d4 _)
      rw [show 2 * (L' - (2 * (l2 : ℤ) + 1)) - (2 * l4 + 1) + (2 * l4 + 1) = 2 * (L' - (2 * (l2 : ℤ) + 1)) by ring] at this
      have := this.stage (d2 _)
      rwa [show L' - (2 * (l2 : ℤ) + 1) + (2 * l2 + 1) = L' by ring] at this

theorem Rev.list {a : List K} (ha : a ≠ []) (Z : ℕ) :
    Rev ((a.length : ℤ) - 1) (seq (a ++ List.replicate Z 0)) (seq (a.reverse ++ List.replicate Z 0)) := by
  have sil (b : List K) (i : ℕ) : seq (b ++ List.replicate Z 0) i = seq b i := by
    simp only [seq, List.getD_eq_getElem?_getD]
    by_cases hi : i < b.length
    · rw [List.getElem?_append_left hi]
    · rw [List.getElem?_append_right (by omega), List.getElem?_replicate, List.getElem?_eq_none (by omega : b.length ≤ i)]
      split <;> rfl
  have hl : 0 < a.length := List.length_pos_iff.2 ha
  intro z
  unfold zext
  by_cases h0 : 0 ≤ z
  · obtain ⟨i, rfl⟩ := Int.eq_ofNat_of_zero_le h0
    rw [if_pos h0, Int.toNat_natCast, sil]
    by_cases hi : i < a.length
    · rw [if_pos (by omega), sil, show ((a.length : ℤ) - 1 - i).toNat = a.length - 1 - i by omega,
        seq_lt (by rw [List.length_reverse]; exact hi), seq_lt (by omega), List.getElem_reverse]
    · rw [if_neg (by omega), seq_ge (by rw [List.length_reverse]; omega)]
  · rw [if_neg h0, if_pos (by omega), sil, seq_ge (by omega)]

end Panda
