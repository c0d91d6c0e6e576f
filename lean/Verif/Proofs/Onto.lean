import Verif.Proofs.Lossless

/-!
# Every signal is the output of IIR downsampling (for C107)
-/

set_option linter.unusedSectionVars false

namespace Panda

open Finset

variable {K : Type} [Field K] [LinearOrder K] [IsStrictOrderedRing K] [Sample K]

/-- What an allpass section has to be given to produce `y`. -/
private def allpassInv (a : K) (y : ℕ → K) : ℕ → K
  | 0 => y 0 / a
  | n + 1 => (y (n + 1) - allpassInv a y n) / a + y n

theorem allpass_onto {a : K} (ha : a ≠ 0) (y : ℕ → K) : ∃ x, allpass a x = y := by
  refine ⟨allpassInv a y, funext fun n => ?_⟩
  induction n with
  | zero =>
    simp only [allpass, allpassInv]
    field_simp
    ring
  | succ n ih =>
    simp only [allpass, allpassInv]
    rw [ih]
    field_simp
    ring

theorem branch_onto {c : ℕ → K} {b j : ℕ} (hc : ∀ i < j, c (2 * i + b) ≠ 0) (y : ℕ → K) : ∃ x, branch c b x j = y := by
  induction j generalizing y with
  | zero => exact ⟨y, rfl⟩
  | succ j ih =>
    obtain ⟨z, hz⟩ := allpass_onto (hc j (by omega)) y
    obtain ⟨x, hx⟩ := ih (fun i hi => hc i (by omega)) z
    exact ⟨x, by simp only [branch]; rw [hx, hz]⟩

/-! ## Systems that can be solved sample by sample -/

/-- The first `m` samples of the solution of `T x = y`. -/
private def solve (T : (ℕ → K) → ℕ → K) (a : K) (y : ℕ → K) : ℕ → ℕ → K
  | 0, _ => 0
  | m + 1, i => if i = m then (y m - T (solve T a y m) m) / a + solve T a y m m else solve T a y m i

private theorem solve_stable (T : (ℕ → K) → ℕ → K) (a : K) (y : ℕ → K) {i m : ℕ} (h : i < m) : solve T a y m i = solve T a y (i + 1) i := by
  induction m with
  | zero => omega
  | succ m ih =>
    by_cases e : i = m
    · rw [e]
    · rw [← ih (by omega), solve, if_neg e]

theorem triangular_onto {T : (ℕ → K) → ℕ → K} {a : K} (ha : a ≠ 0)
    (hT : ∀ x x' m, (∀ i < m, x i = x' i) → T x m - T x' m = a * (x m - x' m)) (y : ℕ → K) : ∃ x, T x = y := by
  refine ⟨fun i => solve T a y (i + 1) i, funext fun m => ?_⟩
  have h := hT (fun i => solve T a y (i + 1) i) (solve T a y m) m fun i hi => (solve_stable T a y hi).symm
  have e0 : solve T a y (m + 1) m = (y m - T (solve T a y m) m) / a + solve T a y m m := by rw [solve, if_pos rfl]
  rw [e0] at h
  have e : a * ((y m - T (solve T a y m) m) / a + solve T a y m m - solve T a y m m) = y m - T (solve T a y m) m := by field_simp; ring
  rw [e] at h
  exact sub_left_inj.1 h

theorem triangular_inj {T : (ℕ → K) → ℕ → K} {a : K} (ha : a ≠ 0)
    (hT : ∀ x x' m, (∀ i < m, x i = x' i) → T x m - T x' m = a * (x m - x' m)) {x x' : ℕ → K} {N : ℕ} (h : ∀ i < N, T x i = T x' i) :
    ∀ i < N, x i = x' i := by
  intro i
  induction i using Nat.strong_induction_on with
  | _ i ih =>
    intro hi
    have h1 := hT x x' i fun k hk => ih k hk (by omega)
    rw [h i hi, sub_self, eq_comm, mul_eq_zero] at h1
    exact sub_eq_zero.1 (h1.resolve_left ha)

/-! ## Downsampling by 2 -/

/-- Samples at even and at odd positions. -/
def inter (e o : ℕ → K) (i : ℕ) : K := if i % 2 = 0 then e (i / 2) else o (i / 2)

theorem inter_even (e o : ℕ → K) (i : ℕ) : inter e o (2 * i) = e i := by
  unfold inter
  rw [if_pos (by omega), show 2 * i / 2 = i by omega]

theorem inter_odd (e o : ℕ → K) (i : ℕ) : inter e o (2 * i + 1) = o i := by
  unfold inter
  rw [if_neg (by omega), show (2 * i + 1) / 2 = i by omega]

theorem inter_evens_odds (x : ℕ → K) : inter (evens x) (odds x) = x := by
  funext i
  unfold inter evens odds
  split
  · rw [show 2 * (i / 2) = i by omega]
  · rw [show 2 * (i / 2) + 1 = i by omega]

/-- A downsampling stage without coefficients that are 0, except that only the last one matters for FIR. -/
def Stage.InvDown : Stage K → Prop
  | .iirDown _ c => ∀ i < c.length, seq c i ≠ 0
  | .firDown _ t => 1 ≤ t.length ∧ seq t (t.length - 1) ≠ 0
  | _ => False

private theorem fir_triangular (O : ℕ) (t : ℕ → K) (h : K) (o x x' : ℕ → K) (m : ℕ) (hx : ∀ i < m, x i = x' i) :
    firDownOp (O + 1) t h (inter x o) m - firDownOp (O + 1) t h (inter x' o) m = t O * (x m - x' m) := by
  unfold firDownOp
  rw [sum_range_succ, sum_range_succ]
  have h1 : ∑ i ∈ range O, t i * zext (inter x o) (2 * (m - (((O + 1 : ℕ) : ℤ) - 1) + i)) =
      ∑ i ∈ range O, t i * zext (inter x' o) (2 * (m - (((O + 1 : ℕ) : ℤ) - 1) + i)) := by
    refine sum_congr rfl fun i hi => ?_
    have hi := mem_range.1 hi
    unfold zext
    split
    · next h0 =>
      obtain ⟨k, hk⟩ : ∃ k : ℕ, (m : ℤ) - (((O + 1 : ℕ) : ℤ) - 1) + i = k := ⟨_, (Int.toNat_of_nonneg (by omega)).symm⟩
      rw [hk, show (2 * (k : ℤ)).toNat = 2 * k by omega, inter_even, inter_even, hx k (by omega)]
    · rfl
  have h2 (z : ℤ) : zext (inter x o) (2 * z + 1) = zext (inter x' o) (2 * z + 1) := by
    unfold zext
    split
    · next h0 =>
      rw [show (2 * z + 1).toNat = 2 * z.toNat + 1 by omega, inter_odd, inter_odd]
    · rfl
  have h3 (w : ℕ → K) : zext (inter w o) (2 * (m - (((O + 1 : ℕ) : ℤ) - 1) + (O : ℕ))) = w m := by
    unfold zext
    rw [if_pos (by push_cast; omega), show (2 * ((m : ℤ) - (((O + 1 : ℕ) : ℤ) - 1) + (O : ℕ))).toNat = 2 * m by push_cast; omega, inter_even]
  rw [h1, h2, h3, h3]
  ring

/-- The samples at odd positions can be chosen, then every output can be reached. -/
theorem Stage.InvDown.onto (hh : (Sample.half : K) ≠ 0) {s : Stage K} (hs : s.InvDown) (o y : ℕ → K) : ∃ e, s.op (inter e o) = y := by
  cases s with
  | iirDown v c =>
    obtain ⟨e, he⟩ := branch_onto (c := seq c) (b := 1) (j := branchLen c.length 1) (fun i hi => hs _ (by unfold branchLen at hi; omega))
      fun m => y m / Sample.half - branchOut c.length (seq c) 0 o m
    refine ⟨e, funext fun m => ?_⟩
    have h1 : evens (inter e o) = e := funext (inter_even e o)
    have h2 : odds (inter e o) = o := funext (inter_odd e o)
    simp only [Stage.op, iirDownOp]
    rw [h1, h2]
    unfold branchOut at *
    rw [he]
    field_simp
    ring
  | firDown v t =>
    obtain ⟨O, hO⟩ := Nat.exists_eq_add_of_le' hs.1
    have h2 := hs.2
    rw [hO, Nat.add_sub_cancel] at h2
    refine triangular_onto (T := fun e => Stage.op (.firDown v t) (inter e o)) h2 (fun x x' m hx => ?_) y
    simp only [Stage.op]
    rw [hO]
    exact fir_triangular O (seq t) Sample.half o x x' m hx
  | iirUp v c => exact hs.elim
  | firUp v c => exact hs.elim

/-- The samples at even positions are determined by the output and the samples at odd positions. -/
theorem Stage.InvDown.inj (hh : (Sample.half : K) ≠ 0) {s : Stage K} (hs : s.InvDown) {x x' : ℕ → K} {N : ℕ}
    (ho : ∀ i < N, x (2 * i + 1) = x' (2 * i + 1)) (h : ∀ i < N, s.op x i = s.op x' i) : ∀ i < N, x (2 * i) = x' (2 * i) := by
  cases s with
  | iirDown v c =>
    refine branch_inj (c := seq c) (b := 1) (j := branchLen c.length 1) (x := evens x) (y := evens x')
      (fun i hi => hs _ (by unfold branchLen at hi; omega)) fun i hi => ?_
    have h1 := h i hi
    simp only [Stage.op, iirDownOp] at h1
    have h2 : branchOut c.length (seq c) 0 (odds x) i = branchOut c.length (seq c) 0 (odds x') i := branchOut_congr fun k hk => ho k (by omega)
    have h3 := mul_left_cancel₀ hh h1
    rw [h2] at h3
    exact add_left_cancel h3
  | firDown v t =>
    obtain ⟨O, hO⟩ := Nat.exists_eq_add_of_le' hs.1
    have h2 := hs.2
    rw [hO, Nat.add_sub_cancel] at h2
    have h3 : ∀ i < N, Stage.op (.firDown v t) x' i = Stage.op (.firDown v t) (inter (evens x') (odds x)) i := by
      intro i hi
      simp only [Stage.op]
      conv_lhs => rw [← inter_evens_odds x']
      unfold firDownOp
      congr 1
      · refine sum_congr rfl fun k hk => ?_
        unfold zext
        split
        · next h0 =>
          obtain ⟨l, hl⟩ : ∃ l : ℕ, (i : ℤ) - ((t.length : ℤ) - 1) + k = l := ⟨_, (Int.toNat_of_nonneg (by omega)).symm⟩
          rw [hl, show (2 * (l : ℤ)).toNat = 2 * l by omega, inter_even, inter_even]
        · rfl
      · unfold zext
        split
        · next h0 =>
          obtain ⟨l, hl⟩ : ∃ l : ℕ, (i : ℤ) - ((t.length : ℤ) - 1) + (t.length / 2 : ℕ) - 1 = l := ⟨_, (Int.toNat_of_nonneg (by omega)).symm⟩
          rw [hl, show (2 * (l : ℤ) + 1).toNat = 2 * l + 1 by omega, inter_odd, inter_odd]
          exact congrArg _ (ho l (by omega)).symm
        · rfl
    refine triangular_inj (T := fun e => Stage.op (.firDown v t) (inter e (odds x))) (x := evens x) (x' := evens x') h2 (fun e e' m hx => ?_)
      fun i hi => ?_
    · simp only [Stage.op]
      rw [hO]
      exact fir_triangular O (seq t) Sample.half (odds x) e e' m hx
    · rw [inter_evens_odds, h i hi, h3 i hi]
  | iirUp v c => exact hs.elim
  | firUp v c => exact hs.elim

theorem cascade_onto (hh : (Sample.half : K) ≠ 0) {ss : List (Stage K)} (h : ∀ s ∈ ss, s.InvDown) (y : ℕ → K) :
    ∃ x, cascadeOp ss x = y := by
  induction ss generalizing y with
  | nil => exact ⟨y, rfl⟩
  | cons s ss ih =>
    obtain ⟨z, hz⟩ := ih (fun s hs => h s (by simp [hs])) y
    obtain ⟨e, he⟩ := (h s (by simp)).onto hh (fun _ => 0) z
    exact ⟨_, by rw [cascadeOp, he, hz]⟩

private theorem ofDouble_ne [Accurate K] {q : ℚ} (hq : q ≠ 0) : (Sample.ofDouble q : K) ≠ 0 := by
  have ha := Accurate.ofDouble (K := K) q
  intro h
  have h0 : 0 < |(q : K)| := abs_pos.2 (by exact_mod_cast hq)
  rw [h, zero_sub, abs_neg] at ha
  norm_num at ha
  linarith

theorem firTable_last : ∀ k ∈ [2, 4, 8], ∀ p ∈ [1, 8, 12, 16, 20, 24],
    ((firTable k p).getD []) ≠ [] ∧ (((firTable k p).getD []).getLastD ⟨0, 0⟩).toRat ≠ 0 := by decide +kernel

theorem Config.stages_invDown [Accurate K] {cfg : Config} (hv : cfg.Valid) (hm : cfg.mode = .down) :
    ∀ s ∈ cfg.stages (F := K), s.InvDown := by
  intro s hs
  have : ∃ k ∈ [2, 4, 8], s ∈ cfg.stage (F := K) k := by
    unfold Config.stages at hs
    split at hs <;> simp only [List.mem_flatten, List.mem_map, List.mem_filter] at hs <;>
      obtain ⟨l, ⟨k, hk, rfl⟩, hs⟩ := hs <;> refine ⟨k, ?_, hs⟩ <;> have := hk.1 <;> simp at this ⊢ <;> omega
  obtain ⟨k, hk, hs⟩ := this
  cases hf : cfg.filter with
  | iir =>
    have hp : cfg.precision ∈ [8, 12, 16, 20, 24] := by
      have h1 := hv.precision
      have h2 := hv.iir hf
      simp at h1 ⊢
      omega
    obtain ⟨t, ht⟩ := Option.isSome_iff_exists.1 ((tables_exist hk hv.precision).2 (hv.iir hf))
    have hco := iirTable_coefs k hk _ hp
    rw [ht, Option.getD_some] at hco
    unfold Config.stage at hs
    simp only [hf, hm, ht, Option.toList, List.map_cons, List.map_nil, List.mem_singleton] at hs
    subst hs
    intro i hi
    rw [List.length_map] at hi
    rw [seq_lt (by simpa using hi), List.getElem_map]
    exact ofDouble_ne (hco t.1[i] (List.getElem_mem hi)).1.ne'
  | fir =>
    obtain ⟨t, ht⟩ := Option.isSome_iff_exists.1 (tables_exist hk hv.precision).1
    obtain ⟨h1, h2⟩ := firTable_last k hk _ hv.precision
    rw [ht, Option.getD_some] at h1 h2
    unfold Config.stage at hs
    simp only [hf, hm, ht, Option.toList, List.map_cons, List.map_nil, List.mem_singleton] at hs
    subst hs
    have hl : 0 < t.length := List.length_pos_iff.2 h1
    refine ⟨by rw [List.length_map]; exact hl, ?_⟩
    rw [seq_lt (by simp; omega), List.getElem_map]
    refine ofDouble_ne ?_
    rw [mul_one]
    rw [List.getLastD_eq_getLast?, List.getLast?_eq_getLast_of_ne_nil h1, Option.getD_some, List.getLast_eq_getElem] at h2
    simpa using h2

end Panda
