import Verif.Proofs.Gain
import Verif.Proofs.Integral

/-!
# The integral of the output of FIR resamplers (for C110)

The sum of the output is a weighted sum of the input. The weights are what the transposed filter makes of a constant signal, so they have
the accuracy of constant signals in the other direction.
-/

set_option linter.unusedSectionVars false

namespace Panda

open Finset

variable {K : Type} [Field K] [LinearOrder K] [IsStrictOrderedRing K] [Sample K]

/-- Weighted sum. -/
def wsum (w x : ℕ → K) (N : ℕ) : K := ∑ n ∈ range N, w n * x n

theorem wsum_tail (w : ℕ → K) {x : ℕ → K} {L : ℕ} (hx : ∀ n ≥ L, x n = 0) {N : ℕ} (hN : L ≤ N) : wsum w x N = wsum w x L := by
  obtain ⟨d, rfl⟩ := Nat.exists_eq_add_of_le hN
  unfold wsum
  rw [sum_range_add, sum_eq_zero (s := range d) (fun i _ => by rw [hx _ (by omega), mul_zero]), add_zero]

theorem wsum_zext (w : ℕ → K) {x : ℕ → K} {L : ℕ} (hx : ∀ n ≥ L, x n = 0) (s : ℕ) {N : ℕ} (hN : L + s ≤ N) :
    ∑ m ∈ range N, w m * zext x ((m : ℤ) - s) = wsum (fun k => w (k + s)) x L := by
  obtain ⟨d, rfl⟩ := Nat.exists_eq_add_of_le hN
  rw [sum_range_add, sum_eq_zero (s := range d), add_zero, Nat.add_comm L s, sum_range_add, sum_eq_zero (s := range s), zero_add]
  · refine sum_congr rfl fun k _ => ?_
    rw [zext, if_pos (by omega), show (((s + k : ℕ) : ℤ) - s).toNat = k by omega, Nat.add_comm s k]
  · intro i hi
    have := mem_range.1 hi
    rw [zext, if_neg (by omega), mul_zero]
  · intro i _
    rw [zext, if_pos (by omega), hx _ (by omega), mul_zero]

theorem wsum_double (w x : ℕ → K) (N : ℕ) : wsum w x (2 * N) = wsum (evens w) (evens x) N + wsum (odds w) (odds x) N := by
  have := psum_double (fun n => w n * x n) N
  exact this

private theorem wsum_taps (O : ℕ) (t w : ℕ → K) {x : ℕ → K} {L : ℕ} (hx : ∀ n ≥ L, x n = 0) {N : ℕ} (hN : L + O ≤ N) :
    ∑ m ∈ range N, w m * ∑ i ∈ range O, t i * zext x ((m : ℤ) - ((O : ℤ) - 1) + i) =
      wsum (fun k => ∑ i ∈ range O, t i * w (k + (O - 1 - i))) x L := by
  have e : ∀ m, w m * ∑ i ∈ range O, t i * zext x ((m : ℤ) - ((O : ℤ) - 1) + i) =
      ∑ i ∈ range O, t i * (w m * zext x ((m : ℤ) - ((O - 1 - i : ℕ) : ℤ))) := by
    intro m
    rw [mul_sum]
    refine sum_congr rfl fun i hi => ?_
    have := mem_range.1 hi
    rw [show (m : ℤ) - ((O : ℤ) - 1) + i = (m : ℤ) - ((O - 1 - i : ℕ) : ℤ) by omega]
    ring
  rw [sum_congr rfl fun m _ => e m, sum_comm]
  have e2 : ∀ i ∈ range O, ∑ m ∈ range N, t i * (w m * zext x ((m : ℤ) - ((O - 1 - i : ℕ) : ℤ))) =
      t i * wsum (fun k => w (k + (O - 1 - i))) x L := by
    intro i _
    rw [← mul_sum, wsum_zext w hx _ (by omega)]
  rw [sum_congr rfl e2]
  unfold wsum
  rw [sum_congr rfl fun i _ => mul_sum _ _ _, sum_comm]
  refine sum_congr rfl fun k _ => ?_
  rw [sum_mul]
  exact sum_congr rfl fun i _ => by ring

/-- Weights of an interpolator. -/
def upWeights (O : ℕ) (t w : ℕ → K) (k : ℕ) : K :=
  ∑ i ∈ range O, t i * w (2 * (k + (O - 1 - i))) + w (2 * (k + (O - 1 - O / 2)) + 1)

theorem firUp_zero {O : ℕ} (t : ℕ → K) {x : ℕ → K} {L : ℕ} (hx : ∀ n ≥ L, x n = 0) (n : ℕ) (hn : 2 * (L + O) ≤ n) :
    firUpOp O t x n = 0 := by
  have hz : ∀ z : ℤ, (L : ℤ) ≤ z → zext x z = 0 := fun z hz => by rw [zext, if_pos (by omega), hx _ (by omega)]
  unfold firUpOp
  split
  · exact sum_eq_zero fun i _ => by rw [hz _ (by omega), mul_zero]
  · exact hz _ (by omega)

theorem firUp_wsum {O : ℕ} (hO : 2 ≤ O) (t w : ℕ → K) {x : ℕ → K} {L : ℕ} (hx : ∀ n ≥ L, x n = 0) :
    wsum w (firUpOp O t x) (2 * (L + O)) = wsum (upWeights O t w) x L := by
  rw [wsum_double]
  have h0 : wsum (evens w) (evens (firUpOp O t x)) (L + O) =
      wsum (fun k => ∑ i ∈ range O, t i * evens w (k + (O - 1 - i))) x L := by
    rw [← wsum_taps O t (evens w) hx le_rfl]
    refine sum_congr rfl fun m _ => ?_
    congr 1
    unfold evens firUpOp
    rw [if_pos (by omega), show 2 * m / 2 = m by omega]
  have h1 : wsum (odds w) (odds (firUpOp O t x)) (L + O) = wsum (fun k => odds w (k + (O - 1 - O / 2))) x L := by
    rw [← wsum_zext (odds w) hx (O - 1 - O / 2) (N := L + O) (by omega)]
    refine sum_congr rfl fun m _ => ?_
    congr 1
    unfold odds firUpOp
    rw [if_neg (by omega), show (2 * m + 1) / 2 = m by omega]
    congr 1
    omega
  rw [h0, h1]
  unfold wsum
  rw [← sum_add_distrib]
  refine sum_congr rfl fun k _ => ?_
  rw [← add_mul]
  rfl

/-- Weights of a decimator. -/
def downWeights (O : ℕ) (t w : ℕ → K) (h : K) (k : ℕ) : K :=
  if k % 2 = 0 then ∑ i ∈ range O, t i * w (k / 2 + (O - 1 - i)) else h * w (k / 2 + (O - O / 2))

theorem firDown_zero {O : ℕ} (t : ℕ → K) (h : K) {x : ℕ → K} {L : ℕ} (hx : ∀ n ≥ L, x n = 0) (n : ℕ) (hn : L + O ≤ n) :
    firDownOp O t h x n = 0 := by
  have hz : ∀ z : ℤ, (L : ℤ) ≤ z → zext x z = 0 := fun z hz => by rw [zext, if_pos (by omega), hx _ (by omega)]
  unfold firDownOp
  rw [hz _ (by omega), mul_zero, add_zero]
  exact sum_eq_zero fun i _ => by rw [hz _ (by omega), mul_zero]

theorem firDown_wsum {O : ℕ} (hO : 2 ≤ O) (t w : ℕ → K) (h : K) {x : ℕ → K} {L : ℕ} (hx : ∀ n ≥ L, x n = 0) :
    wsum w (firDownOp O t h x) (L + O) = wsum (downWeights O t w h) x L := by
  rw [← wsum_tail (downWeights O t w h) hx (N := 2 * L) (by omega), wsum_double]
  have he : ∀ n ≥ L, evens x n = 0 := fun n hn => hx _ (by omega)
  have ho : ∀ n ≥ L, odds x n = 0 := fun n hn => hx _ (by omega)
  have h0 : ∑ m ∈ range (L + O), w m * ∑ i ∈ range O, t i * zext x (2 * ((m : ℤ) - ((O : ℤ) - 1) + i)) =
      wsum (evens (downWeights O t w h)) (evens x) L := by
    have := wsum_taps O t w he (N := L + O) le_rfl
    simp only [zext_evens] at this
    rw [this]
    refine sum_congr rfl fun k _ => ?_
    congr 1
    unfold evens downWeights
    rw [if_pos (by omega), show 2 * k / 2 = k by omega]
  have h1 : ∑ m ∈ range (L + O), w m * zext x (2 * ((m : ℤ) - ((O : ℤ) - 1) + (O / 2 : ℕ) - 1) + 1) =
      wsum (fun k => w (k + (O - O / 2))) (odds x) L := by
    rw [← wsum_zext w ho (O - O / 2) (N := L + O) (by omega)]
    refine sum_congr rfl fun m _ => ?_
    rw [zext_odds]
    congr 2
    omega
  have h2 : wsum (odds (downWeights O t w h)) (odds x) L = h * wsum (fun k => w (k + (O - O / 2))) (odds x) L := by
    unfold wsum
    rw [mul_sum]
    refine sum_congr rfl fun k _ => ?_
    unfold odds downWeights
    rw [if_neg (by omega), show (2 * k + 1) / 2 = k by omega]
    ring
  rw [← h0, h2, ← h1]
  unfold wsum firDownOp
  rw [mul_sum, ← sum_add_distrib]
  exact sum_congr rfl fun m _ => by ring

private theorem taps_near (t : List K) {f : ℕ → K} {c δ : K} (hf : ∀ i < t.length, |f i - c| ≤ δ) :
    |∑ i ∈ range t.length, seq t i * f i - tapSum t * c| ≤ tapAbs t * δ := by
  have : ∑ i ∈ range t.length, seq t i * f i - tapSum t * c = ∑ i ∈ range t.length, seq t i * (f i - c) := by
    unfold tapSum
    rw [sum_mul, ← sum_sub_distrib]
    exact sum_congr rfl fun i _ => by ring
  rw [this]
  exact abs_fir_le t _ hf

/-- The other direction. -/
def Mode.dual : Mode → Mode
  | .up => .down
  | .down => .up

/-- What a stage does to the sum of constant signals. -/
def Mode.factor : Mode → K
  | .up => 2
  | .down => 1 / 2

variable [Accurate K]

theorem firStage_weights (m : Mode) (vec : Bool) (t : List Dec) (h2 : 2 ≤ t.length) {w : ℕ → K} {c δ : K} (hc : 0 ≤ c)
    (hw : ∀ k, |w k - c| ≤ δ * c) :
    ∃ w' : ℕ → K, (∀ k, |w' k - m.factor * c| ≤ (stageGain m.dual t * δ + stageErr m.dual t : K) * (m.factor * c)) ∧
      ∀ (x : ℕ → K) (L : ℕ), (∀ n ≥ L, x n = 0) → ∃ L', (∀ n ≥ L', (firStage (K := K) m vec t).op x n = 0) ∧
        wsum w ((firStage (K := K) m vec t).op x) L' = wsum w' x L := by
  have hδ : 0 ≤ δ * c := (abs_nonneg _).trans (hw 0)
  cases m with
  | up =>
    set u : List K := t.map fun d => Sample.ofDouble (d.toRat * 2) with hu
    have hl : u.length = t.length := by simp [hu]
    refine ⟨upWeights u.length (seq u) w, fun k => ?_, fun x L hx => ⟨2 * (L + u.length), firUp_zero _ hx, firUp_wsum (hl ▸ h2) _ _ hx⟩⟩
    have h1 := taps_near u (f := fun i => w (2 * (k + (u.length - 1 - i)))) fun i _ => hw _
    have h2 := hw (2 * (k + (u.length - 1 - u.length / 2)) + 1)
    have hA : tapAbs u ≤ (1 + 2⁻¹ ^ 24) * ((absSum t : ℚ) : K) := by
      have := tapAbs_le (K := K) t 2
      push_cast at this
      exact_mod_cast this
    have hE : |tapSum u - 1| ≤ ((stageErr .up t : ℚ) : K) := firStage_err .up vec t
    have hG' : ((stageGain .down t : ℚ) : K) = (1 + 2⁻¹ ^ 24) * ((absSum t : ℚ) : K) / 2 + 1 / 2 := by
      rw [stageGain]
      push_cast
      rfl
    have hE' : ((stageErr .down t : ℚ) : K) = ((stageErr .up t : ℚ) : K) / 2 := by
      rw [stageErr, stageErr]
      push_cast
      rfl
    have h3 : tapAbs u * (δ * c) ≤ (1 + 2⁻¹ ^ 24) * ((absSum t : ℚ) : K) * (δ * c) := mul_le_mul_of_nonneg_right hA hδ
    have h4 : |(tapSum u - 1) * c| ≤ ((stageErr .up t : ℚ) : K) * c := by
      rw [abs_mul, abs_of_nonneg hc]
      exact mul_le_mul_of_nonneg_right hE hc
    have e : upWeights u.length (seq u) w k - Mode.up.factor * c =
        (∑ i ∈ range u.length, seq u i * w (2 * (k + (u.length - 1 - i))) - tapSum u * c) +
        (w (2 * (k + (u.length - 1 - u.length / 2)) + 1) - c) + (tapSum u - 1) * c := by
      unfold upWeights Mode.factor
      ring
    rw [e]
    refine (abs_add_le _ _).trans ((add_le_add_left (abs_add_le _ _) _).trans ?_)
    show _ ≤ (((stageGain .down t : ℚ) : K) * δ + ((stageErr .down t : ℚ) : K)) * (2 * c)
    rw [hG', hE']
    linarith
  | down =>
    set u : List K := t.map fun d => Sample.ofDouble (d.toRat * 1) with hu
    have hl : u.length = t.length := by simp [hu]
    refine ⟨downWeights u.length (seq u) w Sample.half, fun k => ?_,
      fun x L hx => ⟨L + u.length, firDown_zero _ _ hx, firDown_wsum (hl ▸ h2) _ _ _ hx⟩⟩
    have hA : tapAbs u ≤ (1 + 2⁻¹ ^ 24) * ((absSum t : ℚ) : K) / 2 := by
      have := tapAbs_le (K := K) t 1
      rw [half_abs] at this
      refine this.trans (le_of_eq ?_)
      push_cast
      ring
    have hE : |tapSum u + Sample.half - 1| ≤ ((stageErr .down t : ℚ) : K) := firStage_err .down vec t
    rw [Accurate.half] at hE
    have hG1 : (1 : K) ≤ ((stageGain .up t : ℚ) : K) := by exact_mod_cast le_max_left (1 : ℚ) _
    have hG2 : (1 + 2⁻¹ ^ 24) * ((absSum t : ℚ) : K) ≤ ((stageGain .up t : ℚ) : K) := by
      have : (((1 + 2⁻¹ ^ 24) * absSum t : ℚ) : K) ≤ ((stageGain .up t : ℚ) : K) := Rat.cast_le.2 (le_max_right _ _)
      push_cast at this
      exact this
    have hE' : ((stageErr .down t : ℚ) : K) = ((stageErr .up t : ℚ) : K) / 2 := by
      rw [stageErr, stageErr]
      push_cast
      rfl
    have hE0 : 0 ≤ ((stageErr .up t : ℚ) : K) * c := by
      have := (abs_nonneg _).trans hE
      rw [hE'] at this
      exact mul_nonneg (by linarith) hc
    have h5 : 1 * (δ * c) ≤ ((stageGain .up t : ℚ) : K) * (δ * c) := mul_le_mul_of_nonneg_right hG1 hδ
    show |downWeights u.length (seq u) w Sample.half k - 1 / 2 * c| ≤
      (((stageGain .up t : ℚ) : K) * δ + ((stageErr .up t : ℚ) : K)) * (1 / 2 * c)
    unfold downWeights
    split
    · have h1 := taps_near u (f := fun i => w (k / 2 + (u.length - 1 - i))) fun i _ => hw _
      have h3 : tapAbs u * (δ * c) ≤ ((stageGain .up t : ℚ) : K) / 2 * (δ * c) := mul_le_mul_of_nonneg_right (by linarith) hδ
      have h4 : |(tapSum u + 1 / 2 - 1) * c| ≤ ((stageErr .up t : ℚ) : K) / 2 * c := by
        rw [abs_mul, abs_of_nonneg hc, ← hE']
        exact mul_le_mul_of_nonneg_right hE hc
      have e : ∑ i ∈ range u.length, seq u i * w (k / 2 + (u.length - 1 - i)) - 1 / 2 * c =
          (∑ i ∈ range u.length, seq u i * w (k / 2 + (u.length - 1 - i)) - tapSum u * c) + (tapSum u + 1 / 2 - 1) * c := by ring
      rw [e]
      refine (abs_add_le _ _).trans ?_
      linarith
    · have h1 := hw (k / 2 + (u.length - u.length / 2))
      rw [Accurate.half, ← mul_sub, abs_mul, abs_of_pos (by norm_num : (0 : K) < 1 / 2)]
      linarith

/-- The accuracy of the weights, from the last stage to the first. -/
def weightErr (m : Mode) : List (List Dec) → ℚ
  | [] => 0
  | t :: l => stageGain m.dual t * weightErr m l + stageErr m.dual t

theorem tables_weights (m : Mode) (vec : Bool) (l : List (List Dec)) (h2 : ∀ t ∈ l, 2 ≤ t.length) :
    ∃ w : ℕ → K, (∀ k, |w k - m.factor ^ l.length| ≤ ((weightErr m l : ℚ) : K) * m.factor ^ l.length) ∧
      ∀ (x : ℕ → K) (L : ℕ), (∀ n ≥ L, x n = 0) → ∃ N0, ∀ N ≥ N0, psum (cascadeOp (l.map (firStage m vec)) x) N = wsum w x L := by
  have hfac : (0 : K) < m.factor := by cases m <;> simp [Mode.factor]
  induction l with
  | nil =>
    refine ⟨fun _ => 1, fun k => by simp [weightErr], fun x L hx => ⟨L, fun N hN => ?_⟩⟩
    rw [← wsum_tail _ hx hN]
    unfold psum wsum
    exact sum_congr rfl fun n _ => (one_mul _).symm
  | cons t l ih =>
    obtain ⟨w, hw, hs⟩ := ih fun t ht => h2 t (by simp [ht])
    obtain ⟨w', hw', hs'⟩ := firStage_weights (K := K) m vec t (h2 t (by simp)) (pow_pos hfac l.length).le hw
    refine ⟨w', fun k => ?_, fun x L hx => ?_⟩
    · rw [List.length_cons, pow_succ', weightErr]
      push_cast
      exact hw' k
    · obtain ⟨L', hz, he⟩ := hs' x L hx
      obtain ⟨N0, hN⟩ := hs _ L' hz
      exact ⟨N0, fun N h => (hN N h).trans he⟩

private theorem foldl_err (m : Mode) (l : List (List Dec)) :
    l.reverse.foldl (fun δ t => stageGain m.dual t * δ + stageErr m.dual t) 0 = weightErr m l := by
  rw [List.foldl_reverse]
  induction l with
  | nil => rfl
  | cons t l ih => rw [List.foldr_cons, ih, weightErr]

/-- The accuracy of the weights is that of constant signals in the other direction. -/
theorem Config.weightErr_eq {cfg : Config} (hv : cfg.Valid) : weightErr cfg.mode cfg.tables = ({ cfg with mode := cfg.mode.dual } : Config).dcErr := by
  rw [← foldl_err]
  unfold Config.dcErr
  congr 1
  unfold Config.tables
  rw [← List.map_reverse]
  have hr := hv.ratio
  simp only [List.mem_cons, List.not_mem_nil, or_false] at hr
  cases hm : cfg.mode <;> rcases hr with h | h | h | h <;> simp only [Mode.dual, h] <;> rfl

end Panda
