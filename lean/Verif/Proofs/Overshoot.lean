import Mathlib.Data.List.Range
import Mathlib.Algebra.BigOperators.Field
import Verif.Proofs.Cheb
import Verif.Proofs.Gain
import Verif.Spec.Overshoot

/-!
# Step responses of the FIR resamplers and monotone signals

A monotone signal is a sum of steps with non-negative weights, so that bounds for the responses to steps are bounds for the
responses to all monotone signals. The responses to steps are computed with integers.
-/

set_option linter.unusedSectionVars false

namespace Panda

open Finset
open Bern (force force_eq forceInts forceInts_eq)

/-- The unit step at time `k`. -/
def stepAt {R : Type} [Zero R] [One R] (k n : ℕ) : R := if k ≤ n then 1 else 0

section linear

variable {K : Type} [Field K] [LinearOrder K] [IsStrictOrderedRing K]

/-- A linear operator applied to a monotone signal that is constant from `B` on. -/
theorem mono_bound {f : (ℕ → K) → ℕ → K} (hf : ∀ a b x y, f (fun n => a * x n + b * y n) = fun n => a * f x n + b * f y n) {lo hi : K}
    {n : ℕ} (hs : ∀ k, lo ≤ f (stepAt k) n ∧ f (stepAt k) n ≤ hi) {x : ℕ → K} (h0 : 0 ≤ x 0) (hx : ∀ i, x i ≤ x (i + 1)) (B : ℕ) :
    lo * x B ≤ f (fun i => x (min i B)) n ∧ f (fun i => x (min i B)) n ≤ hi * x B := by
  induction B with
  | zero =>
    have e : (fun i => x (min i 0)) = fun i => x 0 * stepAt 0 i + 0 * stepAt 0 i := by
      funext i
      simp [stepAt]
    rw [e, hf]
    dsimp only
    rw [zero_mul, add_zero, mul_comm lo, mul_comm hi]
    exact ⟨mul_le_mul_of_nonneg_left (hs 0).1 h0, mul_le_mul_of_nonneg_left (hs 0).2 h0⟩
  | succ B ih =>
    have e : (fun i => x (min i (B + 1))) = fun i => 1 * x (min i B) + (x (B + 1) - x B) * stepAt (B + 1) i := by
      funext i
      unfold stepAt
      by_cases h : B + 1 ≤ i
      · rw [if_pos h, min_eq_right h, min_eq_right (by omega)]
        ring
      · rw [if_neg h, min_eq_left (by omega), min_eq_left (by omega)]
        ring
    rw [e, hf 1 (x (B + 1) - x B) (fun i => x (min i B))]
    dsimp only
    have hd : 0 ≤ x (B + 1) - x B := sub_nonneg.2 (hx B)
    have h1 := mul_le_mul_of_nonneg_left (hs (B + 1)).1 hd
    have h2 := mul_le_mul_of_nonneg_left (hs (B + 1)).2 hd
    constructor <;> nlinarith [ih.1, ih.2]

end linear

/-! ## Taps that are not exact -/

section near

variable {K : Type} [Field K] [LinearOrder K] [IsStrictOrderedRing K] [Sample K] [Accurate K]

local instance : Sample ℚ := ⟨1 / 2, id⟩

/-- A stage with exact constants. -/
def exactStage (m : Mode) (t : List Dec) (x : ℕ → ℚ) : ℕ → ℚ :=
  match m with
  | .up => firUpOp t.length (seq (t.map fun d => d.toRat * 2)) x
  | .down => firDownOp t.length (seq (t.map fun d => d.toRat * 1)) (1 / 2) x

theorem zext_ratCast (x : ℕ → ℚ) (z : ℤ) : zext (fun n => ((x n : ℚ) : K)) z = ((zext x z : ℚ) : K) := by
  unfold zext
  split <;> simp

/-- Sum of the absolute values of the taps. -/
def tapWeight (m : Mode) (t : List Dec) : ℚ :=
  match m with
  | .up => absSum t
  | .down => absSum t / 2

theorem seq_getElem {R : Type} [Zero R] {l : List R} {i : ℕ} (hi : i < l.length) : seq l i = l[i] := by
  simp [seq, List.getD_eq_getElem?_getD, hi]

theorem seq_map_dec {R : Type} [Zero R] (t : List Dec) (g : Dec → R) (i : ℕ) (hi : i < t.length) : seq (t.map g) i = g t[i] := by
  rw [seq_getElem (by simpa using hi), List.getElem_map]

theorem dot_near (t : List Dec) (q : ℚ) (w : ℕ → ℚ) {M : ℚ} (hw : ∀ i < t.length, |w i| ≤ M) :
    |∑ i ∈ range t.length, seq (t.map fun d => (Sample.ofDouble (d.toRat * q) : K)) i * ((w i : ℚ) : K) -
      ((∑ i ∈ range t.length, seq (t.map fun d => d.toRat * q) i * w i : ℚ) : K)| ≤
      ((2⁻¹ ^ 24 * (t.map fun d => |d.toRat * q|).sum * M : ℚ) : K) := by
  have e : (t.map fun d => |d.toRat * q|).sum = ∑ i ∈ range t.length, |seq (t.map fun d => d.toRat * q) i| := by
    have := sum_seq (t.map fun d => d.toRat * q) (fun x => |x|)
    rw [List.length_map] at this
    rw [this, List.map_map]
    rfl
  rw [e, mul_sum, sum_mul]
  push_cast
  rw [← sum_sub_distrib]
  refine (abs_sum_le_sum_abs _ _).trans (sum_le_sum fun i hi => ?_)
  have hi := mem_range.1 hi
  rw [seq_map_dec _ _ _ hi, seq_map_dec _ _ _ hi]
  have h1 := Accurate.ofDouble (K := K) (t[i].toRat * q)
  have h2 : |((w i : ℚ) : K)| ≤ ((M : ℚ) : K) := by rw [← Rat.cast_abs]; exact_mod_cast hw i hi
  rw [← sub_mul, abs_mul]
  push_cast at h1 ⊢
  exact mul_le_mul h1 h2 (abs_nonneg _) (by positivity)

theorem absSum_nn (t : List Dec) : 0 ≤ absSum t := by
  unfold absSum
  refine List.sum_nonneg ?_
  intro a ha
  obtain ⟨d, -, rfl⟩ := List.mem_map.1 ha
  exact abs_nonneg _

theorem tapWeight_nonneg (m : Mode) (t : List Dec) : 0 ≤ tapWeight m t := by
  have := absSum_nn t
  cases m <;> simp only [tapWeight] <;> linarith

/-- One stage: errors of the input and of the taps. -/
theorem firStage_exact (m : Mode) (vec : Bool) (t : List Dec) {x : ℕ → K} {x0 : ℕ → ℚ} {δ M : ℚ} (hδ : 0 ≤ δ) (hM : 0 ≤ M)
    (hx : ∀ n, |x n - ((x0 n : ℚ) : K)| ≤ ((δ : ℚ) : K)) (h0 : ∀ n, |x0 n| ≤ M) (n : ℕ) :
    |(firStage (K := K) m vec t).op x n - ((exactStage m t x0 n : ℚ) : K)| ≤
      ((stageGain m t * δ + 2⁻¹ ^ 24 * tapWeight m t * M : ℚ) : K) := by
  set s := firStage (K := K) m vec t with hs
  have hlin : s.op x n = s.op (fun n => x n - ((x0 n : ℚ) : K)) n + s.op (fun n => ((x0 n : ℚ) : K)) n := by
    have := Stage.op_lin s 1 1 (fun n => x n - ((x0 n : ℚ) : K)) (fun n => ((x0 n : ℚ) : K))
    simp only [one_mul, sub_add_cancel] at this
    exact congrFun this n
  have h1 : |s.op (fun n => x n - ((x0 n : ℚ) : K)) n| ≤ ((stageGain m t : ℚ) : K) * ((δ : ℚ) : K) :=
    (firStage_gain m vec t).bound (by exact_mod_cast hδ) hx n
  have h2 : |s.op (fun n => ((x0 n : ℚ) : K)) n - ((exactStage m t x0 n : ℚ) : K)| ≤
      ((2⁻¹ ^ 24 * tapWeight m t * M : ℚ) : K) := by
    have hz : ∀ z, |zext x0 z| ≤ M := fun z => abs_zext_le hM h0 z
    have hpos : (0 : ℚ) ≤ 2⁻¹ ^ 24 * tapWeight m t * M :=
      mul_nonneg (mul_nonneg (by positivity) (tapWeight_nonneg m t)) hM
    rw [hs]
    cases m with
    | up =>
      simp only [firStage, Stage.op, exactStage, firUpOp, List.length_map]
      split
      · simp only [zext_ratCast]
        exact dot_near t 2 _ fun i _ => hz _
      · rw [zext_ratCast, sub_self, abs_zero]
        exact_mod_cast hpos
    | down =>
      simp only [firStage, Stage.op, exactStage, firDownOp, List.length_map, zext_ratCast]
      have h := dot_near (K := K) t 1 (fun i => zext x0 (2 * (n - ((t.length : ℤ) - 1) + i))) (M := M) fun i _ => hz _
      rw [half_abs] at h
      rw [Accurate.half (K := K), Rat.cast_add, Rat.cast_mul, Rat.cast_div, Rat.cast_one, Rat.cast_ofNat, add_sub_add_right_eq_sub]
      exact h
  rw [hlin, add_sub_assoc]
  refine (abs_add_le _ _).trans ?_
  push_cast at h1 h2 ⊢
  exact add_le_add h1 h2

theorem exactStage_bound (m : Mode) (t : List Dec) {x0 : ℕ → ℚ} {M : ℚ} (hM : 0 ≤ M) (h0 : ∀ n, |x0 n| ≤ M) (n : ℕ) :
    |exactStage m t x0 n| ≤ stageGain m t * M := by
  have hz : ∀ z, |zext x0 z| ≤ M := fun z => abs_zext_le hM h0 z
  have ha := absSum_nn t
  have key : ∀ (q : ℚ) (w : ℕ → ℚ), (∀ i, |w i| ≤ M) → |∑ i ∈ range t.length, seq (t.map fun d => d.toRat * q) i * w i| ≤
      (t.map fun d => |d.toRat * q|).sum * M := by
    intro q w hw
    have := abs_fir_le (t.map fun d => d.toRat * q) w (M := M) fun i _ => hw i
    rw [List.length_map] at this
    refine this.trans (le_of_eq ?_)
    have e := sum_seq (t.map fun d => d.toRat * q) (fun x => |x|)
    rw [tapAbs, e, List.map_map]
    rfl
  cases m with
  | up =>
    simp only [exactStage, firUpOp, stageGain]
    split
    · refine (key 2 _ fun i => hz _).trans (mul_le_mul_of_nonneg_right ?_ hM)
      refine le_trans ?_ (le_max_right _ _)
      change absSum t ≤ _
      nlinarith
    · refine (hz _).trans ?_
      have := le_max_left (1 : ℚ) ((1 + 2⁻¹ ^ 24) * absSum t)
      nlinarith
  | down =>
    simp only [exactStage, firDownOp, stageGain]
    refine (abs_add_le _ _).trans ?_
    have h1 := key 1 (fun i => zext x0 (2 * (n - ((t.length : ℤ) - 1) + i))) fun i => hz _
    rw [half_abs] at h1
    have h2 := hz (2 * (n - ((t.length : ℤ) - 1) + (t.length / 2 : ℕ) - 1) + 1)
    rw [abs_mul, abs_of_pos (by norm_num : (0 : ℚ) < 1 / 2)]
    have h3 : 0 ≤ absSum t * M := mul_nonneg ha hM
    nlinarith

/-- Bound for the error of a cascade, for an input error `δ` and an exact input bounded by `M`. -/
def respErr (m : Mode) : List (List Dec) → ℚ → ℚ → ℚ
  | [], δ, _ => δ
  | t :: ts, δ, M => respErr m ts (stageGain m t * δ + 2⁻¹ ^ 24 * tapWeight m t * M) (stageGain m t * M)

/-- Exact stages one after the other. -/
def exactOp (m : Mode) : List (List Dec) → (ℕ → ℚ) → ℕ → ℚ
  | [], x => x
  | t :: ts, x => exactOp m ts (exactStage m t x)

theorem stageGain_nn (m : Mode) (t : List Dec) : 0 ≤ stageGain m t := by
  have := absSum_nn t
  cases m with
  | up => exact zero_le_one.trans (le_max_left _ _)
  | down => simp only [stageGain]; positivity

theorem cascade_near (m : Mode) (vec : Bool) (ts : List (List Dec)) {x : ℕ → K} {x0 : ℕ → ℚ} {δ M : ℚ} (hδ : 0 ≤ δ) (hM : 0 ≤ M)
    (hx : ∀ n, |x n - ((x0 n : ℚ) : K)| ≤ ((δ : ℚ) : K)) (h0 : ∀ n, |x0 n| ≤ M) (n : ℕ) :
    |cascadeOp (ts.map (firStage (K := K) m vec)) x n - ((exactOp m ts x0 n : ℚ) : K)| ≤ ((respErr m ts δ M : ℚ) : K) := by
  induction ts generalizing x x0 δ M with
  | nil => exact hx n
  | cons t ts ih =>
    have h1 := stageGain_nn m t
    have h2 := tapWeight_nonneg m t
    exact ih (by positivity) (by positivity) (firStage_exact m vec t hδ hM hx h0) (exactStage_bound m t hM h0)

theorem stepAt_cast (k n : ℕ) : (((stepAt k n : ℚ)) : K) = stepAt k n := by
  unfold stepAt
  split <;> simp

theorem Config.step_near {cfg : Config} (hv : cfg.Valid) (hf : cfg.filter = .fir) (k n : ℕ) :
    |cfg.op (stepAt k : ℕ → K) n - ((exactOp cfg.mode cfg.tables (stepAt k) n : ℚ) : K)| ≤
      ((respErr cfg.mode cfg.tables 0 1 : ℚ) : K) := by
  unfold Config.op
  rw [Config.stages_eq_tables hv hf]
  refine cascade_near _ _ _ le_rfl zero_le_one (fun n => ?_) (fun n => ?_) n
  · rw [stepAt_cast, sub_self, abs_zero, Rat.cast_zero]
  · unfold stepAt
    split <;> simp

end near

/-! ## Integers -/

/-- Common denominator of the taps. -/
def tapDen : ℤ := 10 ^ 24

/-- The taps, times `tapDen`. -/
def tapsZ (t : List Dec) : List ℤ := t.map fun d => d.m * 10 ^ (24 - d.e)

/-- A stage, times `tapDen`. -/
def stageZ (m : Mode) (T : List ℤ) (X : ℕ → ℤ) (n : ℕ) : ℤ :=
  match m with
  | .up =>
    if n % 2 = 0 then 2 * ∑ i ∈ range T.length, seq T i * zext X ((n / 2 : ℕ) - ((T.length : ℤ) - 1) + i)
    else 10 ^ 24 * zext X ((n / 2 : ℕ) - ((T.length : ℤ) - 1) + (T.length / 2 : ℕ))
  | .down => firDownOp T.length (seq T) (5 * 10 ^ 23) X n

theorem tapsZ_spec {d : Dec} (hd : d.e ≤ 24) : d.toRat = ((d.m * 10 ^ (24 - d.e) : ℤ) : ℚ) / 10 ^ 24 := by
  unfold Dec.toRat
  rw [Rat.mkRat_eq_div]
  push_cast
  have : (10 : ℚ) ^ 24 = 10 ^ d.e * 10 ^ (24 - d.e) := by rw [← pow_add]; congr 1; omega
  rw [this]
  field_simp

theorem zext_div (X : ℕ → ℤ) (C : ℚ) (z : ℤ) : zext (fun n => (X n : ℚ) / C) z = (zext X z : ℤ) / C := by
  unfold zext
  split <;> simp

theorem exactStage_int (m : Mode) {t : List Dec} (ht : ∀ d ∈ t, d.e ≤ 24) (X : ℕ → ℤ) {C : ℚ} (hC : C ≠ 0) (n : ℕ) :
    exactStage m t (fun n => (X n : ℚ) / C) n = (stageZ m (tapsZ t) X n : ℤ) / (C * 10 ^ 24) := by
  have hl : (tapsZ t).length = t.length := by simp [tapsZ]
  have hT : ∀ (q : ℚ), ∀ i < t.length, seq (t.map fun d => d.toRat * q) i = ((seq (tapsZ t) i : ℤ) : ℚ) / 10 ^ 24 * q := by
    intro q i hi
    rw [tapsZ, seq_map_dec _ _ _ hi, seq_map_dec _ _ _ hi, tapsZ_spec (ht _ (List.getElem_mem hi))]
  cases m with
  | up =>
    simp only [exactStage, firUpOp, stageZ, hl]
    split
    · rw [Int.cast_mul, Int.cast_sum, mul_sum, sum_div]
      refine sum_congr rfl fun i hi => ?_
      rw [hT 2 i (mem_range.1 hi), zext_div]
      push_cast
      field_simp
    · rw [zext_div, Int.cast_mul, Int.cast_pow, Int.cast_ofNat]
      field_simp
  | down =>
    simp only [exactStage, firDownOp, stageZ, hl]
    rw [Int.cast_add, Int.cast_sum, add_div, sum_div]
    congr 1
    · refine sum_congr rfl fun i hi => ?_
      rw [hT 1 i (mem_range.1 hi), zext_div]
      push_cast
      field_simp
    · rw [zext_div, Int.cast_mul, Int.cast_mul, Int.cast_pow, Int.cast_ofNat, Int.cast_ofNat]
      field_simp
      ring

/-- Stages one after the other, times a power of `tapDen`. -/
def opZ (m : Mode) : List (List Dec) → (ℕ → ℤ) → ℕ → ℤ
  | [], X => X
  | t :: ts, X => opZ m ts (stageZ m (tapsZ t) X)

theorem exactOp_int (m : Mode) {ts : List (List Dec)} (ht : ∀ t ∈ ts, ∀ d ∈ t, d.e ≤ 24) (X : ℕ → ℤ) {C : ℚ} (hC : C ≠ 0) (n : ℕ) :
    exactOp m ts (fun n => (X n : ℚ) / C) n = (opZ m ts X n : ℤ) / (C * 10 ^ (24 * ts.length)) := by
  induction ts generalizing X C with
  | nil => simp [exactOp, opZ]
  | cons t ts ih =>
    rw [exactOp, opZ]
    rw [show exactStage m t (fun n => (X n : ℚ) / C) = fun n => (stageZ m (tapsZ t) X n : ℤ) / (C * 10 ^ 24) from
      funext fun n => exactStage_int m (ht t (by simp)) X hC n]
    rw [ih (fun t h => ht t (by simp [h])) _ (by positivity), mul_assoc, ← pow_add]
    congr 3
    simp only [List.length_cons]
    ring

/-! ## Lists -/

/-- Sum of products. -/
noncomputable def dotL (l : List ℤ) : List ℤ → ℤ :=
  List.rec (fun _ => 0) (fun a _ ih h => List.rec 0 (fun b bs _ => a * b + ih bs) h) l

theorem dotL_eq (l h : List ℤ) : dotL l h = ∑ i ∈ range l.length, seq l i * seq h i := by
  induction l generalizing h with
  | nil => rfl
  | cons a l ih =>
    rw [List.length_cons, sum_range_succ']
    cases h with
    | nil => simp [seq]; rfl
    | cons b bs =>
      change a * b + dotL l bs = _
      rw [ih, add_comm]
      rfl

/-- The history of a signal, the most recent value first. -/
def histL (X : ℕ → ℤ) (k : ℕ) : List ℤ := ((List.range k).map X).reverse

theorem histL_succ (X : ℕ → ℤ) (k : ℕ) : histL X (k + 1) = X k :: histL X k := by
  simp [histL, List.range_succ]

theorem histL_seq (X : ℕ → ℤ) (k i : ℕ) : seq (histL X (k + 1)) i = zext X ((k : ℤ) - i) := by
  unfold zext
  induction k generalizing i with
  | zero =>
    cases i with
    | zero => simp [histL, seq]
    | succ i => rw [if_neg (by push_cast; omega)]; simp [histL, seq]
  | succ k ih =>
    rw [histL_succ]
    cases i with
    | zero => simp [seq]; omega
    | succ i =>
      have := ih i
      rw [show seq (X (k + 1) :: histL X (k + 1)) (i + 1) = seq (histL X (k + 1)) i from rfl, this]
      push_cast
      rw [show (k : ℤ) + 1 - (i + 1) = k - i by ring]

theorem dotL_hist (T : List ℤ) (X : ℕ → ℤ) (k : ℕ) :
    dotL T.reverse (histL X (k + 1)) = ∑ i ∈ range T.length, seq T i * zext X (k - ((T.length : ℤ) - 1) + i) := by
  rw [dotL_eq, List.length_reverse, ← sum_range_reflect]
  refine sum_congr rfl fun i hi => ?_
  have hi := mem_range.1 hi
  rw [histL_seq]
  congr 1
  · rw [seq_getElem (by simp; omega), seq_getElem hi, List.getElem_reverse]
    congr 1
    omega
  · congr 1
    omega

/-- Interpolation of a list; `R` holds the reversed taps, `c` is the position of the sample that is passed on. -/
noncomputable def upL (R : List ℤ) (c : ℕ) (xs : List ℤ) : List ℤ → List ℤ :=
  List.rec (fun _ => []) (fun x _ ih h => 2 * dotL R (x :: h) :: 1000000000000000000000000 * seq (x :: h) c :: ih (x :: h)) xs

theorem upL_eq (T : List ℤ) (hT : 2 ≤ T.length) (X : ℕ → ℤ) (N k : ℕ) :
    upL T.reverse (T.length - 1 - T.length / 2) ((List.range' k N).map X) (histL X k) =
      (List.range' (2 * k) (2 * N)).map (stageZ .up T X) := by
  induction N generalizing k with
  | zero => rfl
  | succ N ih =>
    rw [List.range'_succ, show 2 * (N + 1) = (2 * N + 1) + 1 from rfl, List.range'_succ, List.range'_succ]
    simp only [List.map_cons]
    change 2 * dotL T.reverse (X k :: histL X k) :: 1000000000000000000000000 * seq (X k :: histL X k) _ :: upL _ _ _ (X k :: histL X k) = _
    rw [← histL_succ, ih, dotL_hist, histL_seq]
    congr 1
    · simp only [stageZ]
      rw [if_pos (by omega), show 2 * k / 2 = k by omega]
    · congr 1
      simp only [stageZ]
      rw [if_neg (by omega), show (2 * k + 1) / 2 = k by omega]
      rw [show (10 : ℤ) ^ 24 = 1000000000000000000000000 by norm_num]
      congr 2
      omega

/-- Decimation of a list of pairs; `R` holds the reversed taps, `c` is the position of the odd sample. -/
noncomputable def downL (R : List ℤ) (c : ℕ) (xs : List (ℤ × ℤ)) : List ℤ → List ℤ → List ℤ :=
  List.rec (fun _ _ => []) (fun x _ ih h g => (dotL R (x.1 :: h) + 500000000000000000000000 * seq (x.2 :: g) c) :: ih (x.1 :: h) (x.2 :: g)) xs

theorem zext_two (X : ℕ → ℤ) (z : ℤ) : zext (fun n => X (2 * n)) z = zext X (2 * z) := by
  unfold zext
  by_cases h : 0 ≤ z
  · rw [if_pos h, if_pos (by omega)]
    dsimp only
    congr 1
    omega
  · rw [if_neg h, if_neg (by omega)]

theorem zext_two_add (X : ℕ → ℤ) (z : ℤ) : zext (fun n => X (2 * n + 1)) z = zext X (2 * z + 1) := by
  unfold zext
  by_cases h : 0 ≤ z
  · rw [if_pos h, if_pos (by omega)]
    dsimp only
    congr 1
    omega
  · rw [if_neg h, if_neg (by omega)]

theorem downL_eq (T : List ℤ) (hT : 2 ≤ T.length) (X : ℕ → ℤ) (N k : ℕ) :
    downL T.reverse (T.length - T.length / 2) ((List.range' k N).map fun n => (X (2 * n), X (2 * n + 1)))
      (histL (fun n => X (2 * n)) k) (histL (fun n => X (2 * n + 1)) k) = (List.range' k N).map (stageZ .down T X) := by
  induction N generalizing k with
  | zero => rfl
  | succ N ih =>
    rw [List.range'_succ]
    simp only [List.map_cons]
    change (dotL T.reverse (X (2 * k) :: histL _ k) + 500000000000000000000000 * seq (X (2 * k + 1) :: histL _ k) _) ::
      downL _ _ _ (X (2 * k) :: histL _ k) (X (2 * k + 1) :: histL _ k) = _
    rw [← histL_succ (fun n => X (2 * n)), ← histL_succ (fun n => X (2 * n + 1)), ih, dotL_hist, histL_seq]
    congr 1
    simp only [stageZ, firDownOp, zext_two, zext_two_add]
    rw [show (5 * 10 ^ 23 : ℤ) = 500000000000000000000000 by norm_num]
    congr 3
    omega

/-- Pairs of consecutive elements. -/
def pairL : List ℤ → List (ℤ × ℤ)
  | a :: b :: l => (a, b) :: pairL l
  | _ => []

theorem pairL_eq (X : ℕ → ℤ) (N k : ℕ) :
    pairL ((List.range' (2 * k) (2 * N)).map X) = (List.range' k N).map fun n => (X (2 * n), X (2 * n + 1)) := by
  induction N generalizing k with
  | zero => rfl
  | succ N ih =>
    rw [List.range'_succ, show 2 * (N + 1) = (2 * N + 1) + 1 from rfl, List.range'_succ, List.range'_succ]
    simp only [List.map_cons, pairL]
    rw [show 2 * k + 1 + 1 = 2 * (k + 1) by ring, ih]

/-- Interpolation with all stages. -/
noncomputable def upCas {α : Type} (ts : List (List Dec)) : List ℤ → (List ℤ → α) → α :=
  List.rec (fun xs k => k xs) (fun t _ ih xs k => forceInts (tapsZ t).reverse fun R =>
    force (t.length - 1 - t.length / 2) fun c => forceInts (upL R c xs []) fun ys => ih ys k) ts

theorem upCas_eq {α : Type} {ts : List (List Dec)} (ht : ∀ t ∈ ts, 2 ≤ t.length) (X : ℕ → ℤ) (N : ℕ) (k : List ℤ → α) :
    upCas ts ((List.range' 0 N).map X) k = k ((List.range' 0 (2 ^ ts.length * N)).map (opZ .up ts X)) := by
  induction ts generalizing X N with
  | nil => simp [upCas, opZ]
  | cons t ts ih =>
    change (forceInts (tapsZ t).reverse fun R => force (t.length - 1 - t.length / 2) fun c =>
      forceInts (upL R c ((List.range' 0 N).map X) []) fun ys => upCas ts ys k) = _
    have hl : (tapsZ t).length = t.length := by simp [tapsZ]
    have := upL_eq (tapsZ t) (by rw [hl]; exact ht t (by simp)) X N 0
    rw [hl] at this
    rw [forceInts_eq, force_eq, forceInts_eq, show ([] : List ℤ) = histL X 0 from rfl, this, Nat.mul_zero,
      ih (fun t h => ht t (by simp [h])), opZ, List.length_cons, pow_succ, mul_assoc]

/-- Decimation with all stages. -/
noncomputable def downCas {α : Type} (ts : List (List Dec)) : List ℤ → (List ℤ → α) → α :=
  List.rec (fun xs k => k xs) (fun t _ ih xs k => forceInts (tapsZ t).reverse fun R =>
    force (t.length - t.length / 2) fun c => forceInts (downL R c (pairL xs) [] []) fun ys => ih ys k) ts

theorem downCas_eq {α : Type} {ts : List (List Dec)} (ht : ∀ t ∈ ts, 2 ≤ t.length) (X : ℕ → ℤ) (N : ℕ) (k : List ℤ → α) :
    downCas ts ((List.range' 0 (2 ^ ts.length * N)).map X) k = k ((List.range' 0 N).map (opZ .down ts X)) := by
  induction ts generalizing X with
  | nil => simp [downCas, opZ]
  | cons t ts ih =>
    change (forceInts (tapsZ t).reverse fun R => force (t.length - t.length / 2) fun c =>
      forceInts (downL R c (pairL ((List.range' 0 (2 ^ (t :: ts).length * N)).map X)) [] []) fun ys => downCas ts ys k) = _
    have hl : (tapsZ t).length = t.length := by simp [tapsZ]
    have := downL_eq (tapsZ t) (by rw [hl]; exact ht t (by simp)) X (2 ^ ts.length * N) 0
    rw [hl] at this
    rw [forceInts_eq, force_eq, forceInts_eq, List.length_cons, pow_succ, mul_comm (2 ^ ts.length) 2, mul_assoc,
      show 0 = 2 * 0 from rfl, pairL_eq]
    change downCas ts (downL (tapsZ t).reverse (t.length - t.length / 2) _ (histL (fun n => X (2 * n)) 0)
      (histL (fun n => X (2 * n + 1)) 0)) k = _
    rw [this, ih (fun t h => ht t (by simp [h])), opZ]

/-- The responses to the steps at `p`, as lists of `10^(24 * stages)` times the values. -/
noncomputable def stepList {α : Type} (m : Mode) (ts : List (List Dec)) (r p : ℕ) (k : List ℤ → α) : α :=
  match m with
  | .up => forceInts ((List.range' 0 63).map (stepAt p)) fun xs => upCas ts xs k
  | .down => forceInts ((List.range' 0 (r * 65)).map (stepAt p)) fun xs => downCas ts xs k

/-- Length of `stepList`. -/
def stepLen (m : Mode) (r : ℕ) : ℕ :=
  match m with
  | .up => r * 63
  | .down => 65

theorem stepList_eq {α : Type} (m : Mode) {ts : List (List Dec)} (ht : ∀ t ∈ ts, 2 ≤ t.length) {r : ℕ} (hr : 2 ^ ts.length = r) (p : ℕ)
    (k : List ℤ → α) : stepList m ts r p k = k ((List.range' 0 (stepLen m r)).map (opZ m ts (stepAt p))) := by
  subst hr
  cases m with
  | up => simp only [stepList, stepLen]; rw [forceInts_eq, upCas_eq ht]
  | down => simp only [stepList, stepLen]; rw [forceInts_eq, downCas_eq ht]

/-- All values of a step response are within the bounds, with a margin of `2 * 10^-6`. -/
noncomputable def stepCheck (m : Mode) (ts : List (List Dec)) (r p : ℕ) (b : ℕ × ℕ) : Bool :=
  force (10 ^ (24 * ts.length)) fun D => force ((1000 * b.1 - 2) * D) fun lo => force ((1000 * b.2 - 2) * D) fun hi =>
    stepList m ts r p fun l => l.all fun y => decide (-(lo : ℤ) ≤ 1000000 * y) && decide (1000000 * y ≤ (hi : ℤ))

/-- Some value of a step response is within `2 * 10^-3` of the lower bound. -/
noncomputable def stepLow (m : Mode) (ts : List (List Dec)) (r p : ℕ) (b : ℕ) : Bool :=
  force (10 ^ (24 * ts.length)) fun D => force ((1000 * b - 1998) * D) fun lo =>
    stepList m ts r p fun l => l.any fun y => decide (1000000 * y ≤ -(lo : ℤ))

/-- Some value of a step response is within `2 * 10^-3` of the upper bound. -/
noncomputable def stepHigh (m : Mode) (ts : List (List Dec)) (r p : ℕ) (b : ℕ) : Bool :=
  force (10 ^ (24 * ts.length)) fun D => force ((1000 * b - 1998) * D) fun hi =>
    stepList m ts r p fun l => l.any fun y => decide ((hi : ℤ) ≤ 1000000 * y)

section config

variable {K : Type} [Field K] [LinearOrder K] [IsStrictOrderedRing K] [Sample K] [Accurate K]

theorem exactOp_step (m : Mode) {ts : List (List Dec)} (ht : ∀ t ∈ ts, ∀ d ∈ t, d.e ≤ 24) (p n : ℕ) :
    exactOp m ts (stepAt p) n = (opZ m ts (stepAt p) n : ℤ) / 10 ^ (24 * ts.length) := by
  have := exactOp_int m ht (stepAt p) (C := 1) one_ne_zero n
  rw [one_mul] at this
  rw [← this]
  congr 1
  funext k
  unfold stepAt
  split <;> simp

theorem stepCheck_bounds {m : Mode} {ts : List (List Dec)} (ht : ∀ t ∈ ts, 2 ≤ t.length ∧ ∀ d ∈ t, d.e ≤ 24) {r : ℕ}
    (hr : 2 ^ ts.length = r) {p : ℕ} {b : ℕ × ℕ} (hb : 1 ≤ b.1 ∧ 1 ≤ b.2) (h : stepCheck m ts r p b = true) {n : ℕ}
    (hn : n < stepLen m r) :
    -(b.1 / 1000 - 2 / 10 ^ 6) ≤ exactOp m ts (stepAt p) n ∧ exactOp m ts (stepAt p) n ≤ b.2 / 1000 - 2 / 10 ^ 6 := by
  rw [stepCheck, force_eq, force_eq, force_eq, stepList_eq m (fun t h => (ht t h).1) hr, List.all_eq_true] at h
  have := h _ (List.mem_map_of_mem (List.mem_range'_1.2 ⟨Nat.zero_le n, by omega⟩))
  simp only [Bool.and_eq_true, decide_eq_true_eq] at this
  obtain ⟨h1, h2⟩ := this
  rw [exactOp_step m fun t h => (ht t h).2]
  set y := opZ m ts (stepAt p) n
  have c1 : ((1000 * b.1 - 2 : ℕ) : ℚ) = 1000 * b.1 - 2 := by rw [Nat.cast_sub (by omega)]; push_cast; ring
  have c2 : ((1000 * b.2 - 2 : ℕ) : ℚ) = 1000 * b.2 - 2 := by rw [Nat.cast_sub (by omega)]; push_cast; ring
  have hD : (0 : ℚ) < 10 ^ (24 * ts.length) := by positivity
  have h1' : -(((1000 * b.1 - 2 : ℕ) : ℚ) * 10 ^ (24 * ts.length)) ≤ 1000000 * y := by exact_mod_cast h1
  have h2' : (1000000 * y : ℚ) ≤ ((1000 * b.2 - 2 : ℕ) : ℚ) * 10 ^ (24 * ts.length) := by exact_mod_cast h2
  rw [c1] at h1'
  rw [c2] at h2'
  constructor
  · rw [le_div_iff₀ hD]
    linarith
  · rw [div_le_iff₀ hD]
    linarith

theorem stepLow_exists {m : Mode} {ts : List (List Dec)} (ht : ∀ t ∈ ts, 2 ≤ t.length ∧ ∀ d ∈ t, d.e ≤ 24) {r : ℕ}
    (hr : 2 ^ ts.length = r) {p b : ℕ} (hb : 2 ≤ b) (h : stepLow m ts r p b = true) :
    ∃ n < stepLen m r, exactOp m ts (stepAt p) n ≤ -(b / 1000 - 1998 / 10 ^ 6) := by
  rw [stepLow, force_eq, force_eq, stepList_eq m (fun t h => (ht t h).1) hr, List.any_eq_true] at h
  obtain ⟨y, hy, h⟩ := h
  obtain ⟨n, hn, rfl⟩ := List.mem_map.1 hy
  have hn := (List.mem_range'_1.1 hn).2
  refine ⟨n, by omega, ?_⟩
  simp only [decide_eq_true_eq] at h
  rw [exactOp_step m fun t h => (ht t h).2]
  set y := opZ m ts (stepAt p) n
  have c : ((1000 * b - 1998 : ℕ) : ℚ) = 1000 * b - 1998 := by rw [Nat.cast_sub (by omega)]; push_cast; ring
  have hD : (0 : ℚ) < 10 ^ (24 * ts.length) := by positivity
  have h' : (1000000 * y : ℚ) ≤ -(((1000 * b - 1998 : ℕ) : ℚ) * 10 ^ (24 * ts.length)) := by exact_mod_cast h
  rw [c] at h'
  rw [div_le_iff₀ hD]
  linarith

theorem stepHigh_exists {m : Mode} {ts : List (List Dec)} (ht : ∀ t ∈ ts, 2 ≤ t.length ∧ ∀ d ∈ t, d.e ≤ 24) {r : ℕ}
    (hr : 2 ^ ts.length = r) {p b : ℕ} (hb : 2 ≤ b) (h : stepHigh m ts r p b = true) :
    ∃ n < stepLen m r, b / 1000 - 1998 / 10 ^ 6 ≤ exactOp m ts (stepAt p) n := by
  rw [stepHigh, force_eq, force_eq, stepList_eq m (fun t h => (ht t h).1) hr, List.any_eq_true] at h
  obtain ⟨y, hy, h⟩ := h
  obtain ⟨n, hn, rfl⟩ := List.mem_map.1 hy
  have hn := (List.mem_range'_1.1 hn).2
  refine ⟨n, by omega, ?_⟩
  simp only [decide_eq_true_eq] at h
  rw [exactOp_step m fun t h => (ht t h).2]
  set y := opZ m ts (stepAt p) n
  have c : ((1000 * b - 1998 : ℕ) : ℚ) = 1000 * b - 1998 := by rw [Nat.cast_sub (by omega)]; push_cast; ring
  have hD : (0 : ℚ) < 10 ^ (24 * ts.length) := by positivity
  have h' : ((1000 * b - 1998 : ℕ) : ℚ) * 10 ^ (24 * ts.length) ≤ 1000000 * y := by exact_mod_cast h
  rw [c] at h'
  rw [le_div_iff₀ hD]
  linarith

theorem stepAt_delayed (k j : ℕ) : (stepAt (k + j) : ℕ → K) = delayed k (stepAt j) := by
  funext n
  unfold stepAt delayed
  by_cases h : n < k
  · rw [if_pos h, if_neg (by omega)]
  · rw [if_neg h]
    by_cases h2 : k + j ≤ n
    · rw [if_pos h2]
      exact (if_pos (by omega)).symm
    · rw [if_neg h2]
      exact (if_neg (by omega)).symm

theorem Config.tables_len {cfg : Config} (hv : cfg.Valid) (hf : cfg.filter = .fir) : 2 ^ cfg.tables.length = cfg.ratio := by
  let _ : Sample ℚ := ⟨1 / 2, id⟩
  have h := Config.stages_length (K := ℚ) hv
  rwa [Config.stages_eq_tables hv hf, List.length_map] at h

end config

end Panda
